import Verif.Model.Dom
/-!
# Specification: trees, document order

Only the child lists, kinds and parent links of the heap are used.
-/
namespace Visdom.Spec

/-- `y` is `x` or below `x`. -/
inductive Within (h : Heap) (x : Nat) : Nat → Prop
  | self : Within h x x
  | step {p c : Nat} : Within h x p → c ∈ h.kids p → Within h x c

/-- `y` is properly below `x`. -/
def Below (h : Heap) (x y : Nat) : Prop := ∃ c, c ∈ h.kids x ∧ Within h c y

/-- Document order in the tree with root `r`: an ancestor comes before its descendants, and everything within an
earlier child of a node comes before everything within a later child. -/
def Before (h : Heap) (r x y : Nat) : Prop :=
  Below h x y ∨ ∃ p i j a b : Nat, Within h r p ∧ i < j ∧ (h.kids p)[i]? = some a ∧ (h.kids p)[j]? = some b ∧
    Within h a x ∧ Within h b y

/-- Strictly increasing in document order. -/
def DocSorted (h : Heap) (r : Nat) (l : List Nat) : Prop := l.Pairwise (Before h r)

/-- A well formed tree with root `r`: the root has no parent; every child knows its parent and its position;
only the root and elements have children. -/
structure TreeWF (h : Heap) (r : Nat) : Prop where
  rootParent : h.parent r = none
  rootKind : (h.node r).kind = .root
  onlyRoot : ∀ x, Within h r x → (h.node x).kind = .root → x = r
  leaf : ∀ x, Within h r x → (h.node x).kind ≠ .root → (h.node x).kind ≠ .tag → h.kids x = []
  link : ∀ p i c, Within h r p → (h.kids p)[i]? = some c → h.parent c = some p ∧ h.index c = i
  bound : ∀ x, Within h r x → x < h.size

end Visdom.Spec
