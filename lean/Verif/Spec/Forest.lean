import Verif.Spec.Tree
/-!
# Specification: all trees of a heap
-/
namespace Visdom.Spec

/-- `a` is reached from `x` by following parent links, at least one. -/
inductive Above (h : Heap) (a : Nat) : Nat → Prop
  | parent {x : Nat} : h.parent x = some a → Above h a x
  | step {p x : Nat} : Above h a p → h.parent x = some p → Above h a x

/-- All trees of the heap are well formed, except that the lists of the nodes in `D` do not count: the children of a
node know their parent and their position; a child is not a document or fragment; documents and fragments are at the
top; only they and elements have children; and no chain of parent links goes on for ever. A node that was removed may
keep its link to its old parent. -/
structure HeapOk (h : Heap) (D : Nat → Prop) : Prop where
  link : ∀ p i c, ¬ D p → (h.kids p)[i]? = some c → h.parent c = some p ∧ h.index c = i
  kid : ∀ p c, ¬ D p → c ∈ h.kids p → (h.node c).kind ≠ .root
  top : ∀ x, (h.node x).kind = .root → h.parent x = none
  leaf : ∀ x, (h.node x).kind ≠ .root → (h.node x).kind ≠ .tag → h.kids x = []
  bound : ∀ x p, h.parent x = some p → x < h.size ∧ p < h.size
  ground : WellFounded fun p x => h.parent x = some p
  dead : ∀ x, D x → (h.node x).kind = .root ∧ x < h.size

/-- The parent of `x`, if any, has `x` at its position. -/
def Attached (h : Heap) (D : Nat → Prop) (x : Nat) : Prop :=
  ∀ p, h.parent x = some p → ¬ D p ∧ (h.kids p)[h.index x]? = some x

/-- Everything but the links is unchanged. -/
def SameData (h h' : Heap) : Prop :=
  ∀ x, (h'.node x).kind = (h.node x).kind ∧ (h'.node x).name = (h.node x).name ∧ (h'.node x).attrs = (h.node x).attrs ∧
    (h'.node x).content = (h.node x).content ∧ (h'.node x).root = (h.node x).root

/-- In the children of `p` the nodes `M` between `A` and `B` are replaced by `N`, whose parent becomes `p`; all positions in
the new list are right, and nothing else changes. -/
structure Spliced (h h' : Heap) (p : Nat) (A M N B : List Nat) : Prop where
  size : h'.size = h.size
  old : h.kids p = A ++ M ++ B
  new : h'.kids p = A ++ N ++ B
  other : ∀ q, q ≠ p → h'.kids q = h.kids q
  parent : ∀ y, h'.parent y = if y ∈ N then some p else h.parent y
  index : ∀ i c, (A ++ N ++ B)[i]? = some c → h'.index c = i
  indexOther : ∀ y, y ∉ A ++ N ++ B → h'.index y = h.index y
  data : SameData h h'

end Visdom.Spec
