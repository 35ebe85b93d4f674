import Verif.Model.Dom
import Mathlib.Data.List.Sort
/-!
# Ordering and deduplication of element lists

Model of `src/mesdoc/interface/elements.rs:43-89` and `365-494`. An `Elements` value is the list of its nodes.
-/
namespace Visdom

/-- The loop of `elements.rs:44-57 compare_indexs` followed by the comparison of the lengths. -/
def compareIndexs : List Nat → List Nat → Ordering
  | [], [] => .eq
  | [], _ :: _ => .lt
  | _ :: _, [] => .gt
  | a :: as, b :: bs => if a < b then .lt else if b < a then .gt else compareIndexs as bs

/-- `elements.rs:58-63`. -/
inductive Relation where
  | ancestor | equal | descendant | other
  deriving DecidableEq, Repr

/-- The counting loop of `elements.rs:69-80`. -/
def equalNum : List Nat → List Nat → Nat
  | a :: as, b :: bs => if a = b then equalNum as bs + 1 else 0
  | _, _ => 0

/-- `elements.rs:65-89 relation_of`. -/
def relationOf (a b : List Nat) : Relation :=
  match a.length - equalNum a b == 0, b.length - equalNum a b == 0 with
  | false, false => .other
  | false, true => .descendant
  | true, true => .equal
  | true, false => .ancestor

/-- The closure of `elements.rs:479-483` as "not after". -/
def notAfter (h : Heap) (a b : Nat) : Prop := compareIndexs (h.treeIndexs a) (h.treeIndexs b) ≠ .gt

instance (h : Heap) : DecidableRel (notAfter h) := fun _ _ => inferInstanceAs (Decidable (_ ≠ _))

/-- `elements.rs:478-484 sort`. `slice::sort_by` is some stable sort; stable sorts by a total preorder all give
the same list, so insertion sort stands for it. -/
def sortElems (h : Heap) (l : List Nat) : List Nat := l.insertionSort (notAfter h)

/-- `Vec::dedup_by(|a, b| a.is(b))` (`elements.rs:486-488`): drop an element equal to the one kept before it. -/
def dedupFrom (prev : Nat) : List Nat → List Nat
  | [] => []
  | a :: l => if a = prev then dedupFrom prev l else a :: dedupFrom a l

/-- `elements.rs:486-488 unique`. -/
def uniqueElems : List Nat → List Nat
  | [] => []
  | a :: l => a :: dedupFrom a l

/-- `elements.rs:490-493 sort_and_unique`. -/
def sortAndUnique (h : Heap) (l : List Nat) : List Nat := uniqueElems (sortElems h l)

/-- Loop state of `elements.rs:367-393`: the parents seen (by index path), the kept elements, the parent of
the previous element, whether a parentless element was kept. -/
structure SibState where
  seen : List (List Nat) := []
  kept : List Nat := []
  prev : Option Nat := none
  hasRoot : Bool := false

/-- The closure of `elements.rs:373-393`. -/
def sibStep (h : Heap) (s : SibState) (x : Nat) : SibState :=
  match h.parent x with
  | some p =>
    if s.prev = some p then s
    else
      let indexs := h.treeIndexs p
      if indexs ∈ s.seen then { s with prev := some p }
      else { s with prev := some p, seen := indexs :: s.seen, kept := s.kept ++ [x] }
  | none => if s.hasRoot then s else { s with hasRoot := true, kept := s.kept ++ [x] }

/-- `elements.rs:367-407 unique_sibling`, `asc = true`. -/
def uniqueSiblingFirst (h : Heap) (l : List Nat) : List Nat := (l.foldl (sibStep h) {}).kept
/-- `elements.rs:367-407 unique_sibling`, `asc = false`. -/
def uniqueSiblingLast (h : Heap) (l : List Nat) : List Nat := (l.reverse.foldl (sibStep h) {}).kept.reverse

/-- Loop state of `elements.rs:417-449`: for every parent path met: position in `kept`, the flag `changed`, and
the parent (the map `parents` keyed by position). -/
structure AllSibState where
  seen : List (List Nat × Nat × Bool × Nat) := []
  kept : List (Nat × Bool) := []

/-- One iteration of `elements.rs:425-447`. The `expect` on `parents.remove` cannot fail: the entry is put in at
insertion and taken out only when `changed` turns true. -/
def allSibStep (h : Heap) (s : AllSibState) (x : Nat) : AllSibState :=
  match h.parent x with
  | none => s
  | some p =>
    let indexs := h.treeIndexs p
    match s.seen.find? (fun e => e.1 == indexs) with
    | some (_, pos, changed, par) =>
      if changed then s
      else { seen := s.seen.map fun e => if e.1 == indexs then (e.1, e.2.1, true, e.2.2.2) else e
             kept := s.kept.set pos (par, true) }
    | none => { seen := s.seen ++ [(indexs, s.kept.length, false, p)], kept := s.kept ++ [(x, false)] }

/-- `elements.rs:417-449 unique_all_siblings`. -/
def uniqueAllSiblings (h : Heap) (l : List Nat) : List (Nat × Bool) := (l.foldl (allSibStep h) {}).kept

/-- `elements.rs:451-476 unique_parents` from a given top of the stack on: only the last kept element is compared;
anything but "other" or "descendant" is `unreachable!`. -/
def uniqueParentsFrom (h : Heap) (top : Nat) : List Nat → R (List Nat)
  | [] => .ok []
  | x :: l =>
    match relationOf (h.treeIndexs x) (h.treeIndexs top) with
    | .other => (uniqueParentsFrom h x l).map (x :: ·)
    | .descendant => uniqueParentsFrom h top l
    | _ => .error .unreachableCode

/-- `elements.rs:451-476 unique_parents`. -/
def uniqueParents (h : Heap) : List Nat → R (List Nat)
  | [] => .ok []
  | x :: l => (uniqueParentsFrom h x l).map (x :: ·)

end Visdom
