import Verif.Spec.Mutate
/-!
# Specification: what a subtree looks like
-/
namespace Visdom.Spec

/-- A subtree without the numbers of its nodes. -/
inductive Shape where
  | mk (kind : Kind) (name : List Char) (attrs : Meta) (content : Option (List Char)) (kids : List Shape)

mutual
/-- The subtree of a node looks like the shape. -/
inductive ShapeOf (h : Heap) : Nat → Shape → Prop
  | mk {x : Nat} {l : List Shape} : ShapesOf h (h.kids x) l →
      ShapeOf h x (.mk (h.node x).kind (h.node x).name (h.node x).attrs (h.node x).content l)

/-- The subtrees of several nodes. -/
inductive ShapesOf (h : Heap) : List Nat → List Shape → Prop
  | nil : ShapesOf h [] []
  | cons {x : Nat} {xs : List Nat} {s : Shape} {l : List Shape} : ShapeOf h x s → ShapesOf h xs l → ShapesOf h (x :: xs) (s :: l)
end

/-- Nothing about the node has changed. -/
structure Untouched (h h' : Heap) (y : Nat) : Prop where
  kids : h'.kids y = h.kids y
  parent : h'.parent y = h.parent y
  index : h'.index y = h.index y
  kind : (h'.node y).kind = (h.node y).kind
  name : (h'.node y).name = (h.node y).name
  attrs : (h'.node y).attrs = (h.node y).attrs
  content : (h'.node y).content = (h.node y).content
  root : (h'.node y).root = (h.node y).root

/-- The parser, called with the text `s`, makes nodes that look like `F`, whatever the heap is; and `al` says of them which tags
may contain them. -/
structure ParsesTo (e : Ext) (s : List Char) (F : List Shape) (al : List Char → Shape → Bool) : Prop where
  total : ∀ h, ∃ r, e.parse h s = .ok r
  shapes : ∀ h h' r, e.parse h s = .ok (h', r) → ShapesOf h' (h'.kids r) F
  allow : ∀ h h' r, e.parse h s = .ok (h', r) → ∀ c ∈ h'.kids r, ∀ S, ShapeOf h' c S → ∀ name, e.allow name c = al name S

end Visdom.Spec
