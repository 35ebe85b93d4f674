import Mathlib.Logic.Relation
/-!
# Specification: threads that take and release locks

The interleaving semantics of any number of threads over mutual exclusion locks. A lock is blocking and not
reentrant. A thread may panic at any moment: it then releases all its locks and ends.
-/
namespace Visdom.Spec

variable {L : Type}

/-- Taking or releasing a lock. -/
inductive Act (L : Type) where
  | acq (l : L)
  | rel (l : L)

/-- A thread: what it will still do, and the locks it holds. -/
structure Thread (L : Type) where
  acts : List (Act L)
  held : List L

/-- Some thread holds the lock. -/
def Held (s : List (Thread L)) (l : L) : Prop := ∃ t ∈ s, l ∈ t.held

/-- One thread does its next action; a lock is taken only when no thread holds it. -/
inductive Step [DecidableEq L] : List (Thread L) → List (Thread L) → Prop
  | acq {a b : List (Thread L)} {l : L} {r : List (Act L)} {h : List L} : ¬ Held (a ++ ⟨.acq l :: r, h⟩ :: b) l →
      Step (a ++ ⟨.acq l :: r, h⟩ :: b) (a ++ ⟨r, l :: h⟩ :: b)
  | rel {a b : List (Thread L)} {l : L} {r : List (Act L)} {h : List L} :
      Step (a ++ ⟨.rel l :: r, h⟩ :: b) (a ++ ⟨r, h.erase l⟩ :: b)

/-- A thread panics. -/
inductive Crash : List (Thread L) → List (Thread L) → Prop
  | mk {a b : List (Thread L)} {t : Thread L} : Crash (a ++ t :: b) (a ++ ⟨[], []⟩ :: b)

/-- What can happen next. -/
def Next [DecidableEq L] (s s' : List (Thread L)) : Prop := Step s s' ∨ Crash s s'

/-- The states reached from threads that hold nothing and follow the given traces. -/
def Reached [DecidableEq L] (traces : List (List (Act L))) (s : List (Thread L)) : Prop :=
  Relation.ReflTransGen Next (traces.map fun t => ⟨t, []⟩) s

/-- All threads have ended. -/
def Finished (s : List (Thread L)) : Prop := ∀ t ∈ s, t.acts = []

/-- No thread can go on though not all have ended. -/
def Deadlock [DecidableEq L] (s : List (Thread L)) : Prop := ¬ Finished s ∧ ∀ s', ¬ Step s s'

end Visdom.Spec
