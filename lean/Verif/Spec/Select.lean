import Verif.Model.Engine
import Verif.Spec.Tree
/-!
# Specification: what a selector means

The relations behind the combinators, read off the child lists of the tree with root `r`, and the elements
reached by a chain of (combinator, predicate) steps.
-/
namespace Visdom.Spec

/-- `y` and `e` are children of one node of the tree, `e` at a later position. -/
def LaterSib (h : Heap) (r y e : Nat) : Prop :=
  ∃ p i j : Nat, Within h r p ∧ i < j ∧ (h.kids p)[i]? = some y ∧ (h.kids p)[j]? = some e

/-- As `LaterSib`, with no element in between. -/
def NextSib (h : Heap) (r y e : Nat) : Prop :=
  ∃ p i j : Nat, Within h r p ∧ i < j ∧ (h.kids p)[i]? = some y ∧ (h.kids p)[j]? = some e ∧
    ∀ k z : Nat, i < k → k < j → (h.kids p)[k]? = some z → h.isElem z = false

/-- Different children of one node of the tree. -/
def Sib (h : Heap) (r y e : Nat) : Prop := ∃ p : Nat, Within h r p ∧ y ∈ h.kids p ∧ e ∈ h.kids p ∧ y ≠ e

/-- `e` stands in the relation of the combinator to `y`. -/
def Rel (h : Heap) (r : Nat) : Comb → Nat → Nat → Prop
  | .childrenAll, y, e => Below h y e
  | .children, y, e => e ∈ h.kids y
  | .parent, y, e => Within h r e ∧ y ∈ h.kids e
  | .parentAll, y, e => Within h r e ∧ Below h e y
  | .nextAll, y, e => LaterSib h r y e
  | .next, y, e => NextSib h r y e
  | .prevAll, y, e => LaterSib h r e y
  | .prev, y, e => NextSib h r e y
  | .siblings, y, e => Sib h r y e
  | .chain, y, e => e = y

/-- The elements satisfying `P` that stand in relation `c` to a member of `A`. -/
def Img (h : Heap) (r : Nat) (A : Nat → Prop) (s : Comb × (Nat → Bool)) (e : Nat) : Prop :=
  h.isElem e = true ∧ s.2 e = true ∧ ∃ y, A y ∧ Rel h r s.1 y e

/-- The elements selected by a chain of steps from the set `A`. -/
def Sel (h : Heap) (r : Nat) (A : Nat → Prop) (steps : List (Comb × (Nat → Bool))) : Nat → Prop :=
  steps.foldl (Img h r) A

end Visdom.Spec
