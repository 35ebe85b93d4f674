import Verif.Spec.Select
import Mathlib.Data.List.Chain
/-!
# Specification: a matcher decides a predicate

The query engine is parametrised by matchers. `Decides` says that the answers of a matcher, where it answers, are
those of a predicate on elements; `Answers` says that it does answer. Both are relative to the combinator the
matcher is evaluated under, because the engine calls different handles for different combinators, and to a class
`Q` of lists on which the handle for whole lists may be called.
-/
namespace Visdom.Spec

/-- The members of `l` are elements of the tree. -/
def Elems (h : Heap) (r : Nat) (l : List Nat) : Prop := ∀ x ∈ l, Within h r x ∧ h.isElem x = true

structure Decides (h : Heap) (r : Nat) (Q : List Nat → Prop) (m : Matcher) (c : Comb) (P : Nat → Bool) : Prop where
  one : ∀ g, m.one = some g → ∀ x b, Within h r x → h.isElem x = true → g x = .ok b → b = P x
  all : c ≠ .childrenAll → c ≠ .children → ∀ f, m.all = some f → ∀ l res, Elems h r l → Q l →
    f l none = .ok res → res = l.filter P
  child : (c = .childrenAll ∧ m.inCache = false) ∨ c = .children → m.one = none → m.spec = none → ∀ f, m.all = some f →
    ∀ x res, Within h r x → f (h.children x) (some false) = .ok res → res = (h.children x).filter P
  spec : m.one = none → ∀ s, m.spec = some s → ∀ x l, Within h r x → s x = .ok l →
    l = (h.children x).map (fun c => (c, P c, true)) ∨ (l = [] ∧ ∀ e, Within h r e → h.isElem e = true → P e = false)
  cache : c = .childrenAll → m.inCache = true → ∀ l res, l ≠ [] → (∀ x ∈ l, Within h r x) → m.apply l (some true) = .ok res →
    ∀ e, e ∈ res ↔ Within h r e ∧ h.isElem e = true ∧ P e = true

structure Answers (h : Heap) (r : Nat) (Q : List Nat → Prop) (m : Matcher) (c : Comb) : Prop where
  handle : m.one.isSome = true ∨ m.all.isSome = true
  one : ∀ g, m.one = some g → ∀ x, Within h r x → h.isElem x = true → ∃ b, g x = .ok b
  all : c ≠ .childrenAll → c ≠ .children → ∀ f, m.all = some f → ∀ l, Elems h r l → Q l → ∃ res, f l none = .ok res
  child : (c = .childrenAll ∧ m.inCache = false) ∨ c = .children → m.one = none → m.spec = none → ∀ f, m.all = some f →
    ∀ x, Within h r x → (c = .childrenAll → h.children x ≠ []) → ∃ res, f (h.children x) (some false) = .ok res
  spec : c = .childrenAll ∨ c = .children → m.one = none → ∀ s, m.spec = some s → ∀ x, Within h r x → ∃ l, s x = .ok l
  cache : c = .childrenAll → m.inCache = true → ∀ l, l ≠ [] → (∀ x ∈ l, Within h r x) →
    ∃ res, m.apply l (some true) = .ok res

/-- A compound evaluated under `c` decides `P`: its first rule under `c`, the others, which must carry the chain
combinator, as filters; `P` is the conjunction. -/
def DecidesCmpd (h : Heap) (r : Nat) (Q : List Nat → Prop) (c : Comb) (rules : Cmpd) (P : Nat → Bool) : Prop :=
  ∃ s ss P0 Ps, rules = s :: ss ∧ Decides h r Q s.1 c P0 ∧
    List.Forall₂ (fun s p => s.2 = Comb.chain ∧ Decides h r Q s.1 .chain p) ss Ps ∧
    ∀ x, P x = (P0 x && Ps.all fun p => p x)

/-- A compound answers under `c`. -/
def AnswersCmpd (h : Heap) (r : Nat) (Q : List Nat → Prop) (c : Comb) (rules : Cmpd) : Prop :=
  ∃ s ss, rules = s :: ss ∧ Answers h r Q s.1 c ∧ ∀ t ∈ ss, Answers h r Q t.1 .chain

/-- The combinator a compound is written with. -/
def HeadIs (c : Comb) (rules : Cmpd) : Prop := ∃ m ss, rules = (m, c) :: ss

/-- The combinators that can be written in a selector. -/
def Comb.down : Comb → Bool
  | .childrenAll | .children | .next | .nextAll => true
  | _ => false

/-- The combinators of the upward check. -/
def Comb.up : Comb → Bool
  | .parentAll | .parent | .prev | .prevAll | .chain => true
  | _ => false

/-- Siblings occur in increasing position, each at most once. -/
def SibAsc (h : Heap) (l : List Nat) : Prop := l.Pairwise fun a b => h.parent a = h.parent b → h.index a < h.index b
/-- Members that follow one another and are siblings occur in increasing position. -/
def RunAsc (h : Heap) (l : List Nat) : Prop := l.IsChain fun a b => h.parent a = h.parent b → h.index a < h.index b

/-- No member is equal to an earlier one or above it. -/
def NoneUp (h : Heap) (l : List Nat) : Prop := l.Pairwise fun a b => ¬ Within h b a

/-- What is known of the order of a list of elements. -/
inductive Phase where
  /-- sorted in document order, none below another -/
  | anti
  /-- sorted in document order -/
  | sorted
  /-- siblings in increasing position, each at most once; no element at or above an earlier one -/
  | down
  /-- siblings in increasing position, each at most once -/
  | sib
  /-- first occurrences of siblings in increasing position -/
  | first
  deriving DecidableEq, Repr

/-- What is known of the order of the elements reached by a step. -/
def Phase.next : Phase → Comb → Phase
  | .anti, .children => .anti
  | .anti, .childrenAll | .anti, .next | .sorted, .childrenAll => .sorted
  | .anti, _ | .sorted, _ => .down
  | .down, .children => .down
  | .down, .childrenAll => .first
  | .down, _ => .sib
  | .sib, .childrenAll => .first
  | .sib, _ => .sib
  | .first, .nextAll => .sib
  | .first, _ => .first

/-- The lists from which descendants can be looked for without panic. -/
def Phase.tidy : Phase → Bool
  | .anti | .sorted | .down => true
  | _ => false

/-- The lists the list handle of a matcher may be called on in a phase. -/
def Phase.lists (h : Heap) (r : Nat) : Phase → List Nat → Prop
  | .first, _ => True
  | .sib, l | .down, l => SibAsc h l
  | _, l => DocSorted h r l ∧ SibAsc h l

/-- The compounds decide the predicates of the steps, along the phases. -/
inductive DecidesSteps (h : Heap) (r : Nat) : Phase → List Cmpd → List (Comb × (Nat → Bool)) → Prop
  | nil {ph} : DecidesSteps h r ph [] []
  | cons {ph c P rules q st} : HeadIs c rules → Comb.down c = true → DecidesCmpd h r ((ph.next c).lists h r) c rules P →
      DecidesSteps h r (ph.next c) q st → DecidesSteps h r ph (rules :: q) ((c, P) :: st)

/-- The compounds decide the predicates of the steps when checked upwards. -/
def DecidesUp (h : Heap) (r : Nat) : List Cmpd → List (Comb × (Nat → Bool)) → Prop :=
  List.Forall₂ fun rules st => HeadIs st.1 rules ∧ Comb.down st.1 = true ∧
    ∀ c, Comb.up c = true → DecidesCmpd h r (Phase.lists h r .sorted) c rules st.2

/-- The phase after some steps. -/
def Phase.after (ph : Phase) (cs : List Comb) : Phase := cs.foldl Phase.next ph

/-- The compounds answer along the phases, and descendants are only looked for from a tidy list. -/
inductive AnswersSteps (h : Heap) (r : Nat) : Phase → List Cmpd → Prop
  | nil {ph} : AnswersSteps h r ph []
  | cons {ph c rules q} : HeadIs c rules → (c = .childrenAll → ph.tidy = true) →
      AnswersCmpd h r ((ph.next c).lists h r) c rules → AnswersSteps h r (ph.next c) q → AnswersSteps h r ph (rules :: q)

/-- A process decides the steps: it is evaluated from the left, or (`look`) its middle compound is looked for among all
descendants and the compounds before it are checked upwards. The last argument is what is known of the order of the
result. -/
inductive DecidesProc (h : Heap) (r : Nat) (ph : Phase) : Proc → List (Comb × (Nat → Bool)) → Phase → Prop
  | plain {q st} : q ≠ [] → DecidesSteps h r ph q st → DecidesProc h r ph ⟨none, q⟩ st (ph.after (st.map (·.1)))
  | look {up first rest d D st1 c P st2} : DecidesUp h r up ((d, D) :: st1) → d = .children ∨ d = .childrenAll →
      HeadIs c first → Comb.down c = true →
      DecidesCmpd h r ((ph.next .childrenAll).lists h r) .childrenAll first P →
      DecidesSteps h r (ph.next .childrenAll) rest st2 →
      DecidesProc h r ph ⟨some up, first :: rest⟩ ((d, D) :: st1 ++ (c, P) :: st2)
        ((ph.next .childrenAll).after (st2.map (·.1)))

/-- A process answers. -/
inductive AnswersProc (h : Heap) (r : Nat) (ph : Phase) : Proc → Prop
  | plain {q} : AnswersSteps h r ph q → AnswersProc h r ph ⟨none, q⟩
  | look {up first rest} : ph = .anti ∨ ph = .sorted →
      (∀ rules ∈ up, ∀ c, Comb.up c = true → AnswersCmpd h r (Phase.lists h r .sorted) c rules) →
      AnswersCmpd h r (Phase.sorted.lists h r) .childrenAll first → AnswersSteps h r .sorted rest →
      AnswersProc h r ph ⟨some up, first :: rest⟩

end Visdom.Spec
