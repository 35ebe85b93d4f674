import Verif.Spec.Shape
/-!
# Specification: nodes at the same place of two trees
-/
namespace Visdom.Spec

/-- Going down from `r` and from `r'` by the same positions one comes to `x` and to `y`. -/
inductive SamePlace (h : Heap) (r : Nat) (h' : Heap) (r' : Nat) : Nat → Nat → Prop
  | top : SamePlace h r h' r' r r'
  | kid {x y i a b : Nat} : SamePlace h r h' r' x y → (h.kids x)[i]? = some a → (h'.kids y)[i]? = some b → SamePlace h r h' r' a b

/-- A document as the parser makes it: there is nothing about its root but its children, and every node knows the root. -/
structure AsLoaded (h : Heap) (r : Nat) : Prop where
  kind : (h.node r).kind = .root
  name : (h.node r).name = []
  attrs : (h.node r).attrs = {}
  content : (h.node r).content = none
  index : h.index r = 0
  roots : ∀ x, Within h r x → (h.node x).root = some r

/-- Every document that the parser returns is of this kind. -/
def LoadsPlain (e : Ext) : Prop := ∀ h s h' r, e.parse h s = .ok (h', r) → AsLoaded h' r

end Visdom.Spec
