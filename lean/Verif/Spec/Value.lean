import Verif.Spec.Selector
/-!
# Specification: form values
-/
namespace Visdom.Spec

/-- `y` is `d` levels below `x`. -/
inductive Levels (h : Heap) : Nat → Nat → Nat → Prop
  | zero {x : Nat} : Levels h x 0 x
  | down {x c d y : Nat} : c ∈ h.kids x → Levels h c d y → Levels h x (d + 1) y

/-- The value of the attribute, the empty text if it is absent or has no value. -/
def attrText (h : Heap) (key : List Char) (x : Nat) : List Char := ((viewOf (h.node x).attrs key).getD none).getD []

/-- `y` is an option of `x`: an `option` below `x` that is not inside another `option`. -/
def OptionOf (h : Heap) (x y : Nat) : Prop :=
  Named h "option".toList y ∧ Below h x y ∧ ∀ z, Below h x z → Below h z y → ¬ Named h "option".toList z

/-- `y` is a selected option of `x`. -/
def SelectedOf (h : Heap) (x y : Nat) : Prop := OptionOf h x y ∧ HasAttr h "selected".toList y

/-- `y` is the first in document order with the property. -/
def FirstWith (h : Heap) (r : Nat) (P : Nat → Prop) (y : Nat) : Prop := P y ∧ ∀ z, P z → z = y ∨ Before h r y z

/-- A way down from `x` over `d` further elements, none of them an `option`; in a `select` without `multiple` the way does not pass
a sibling with a selected option before it. -/
inductive Deep (h : Heap) (multiple : Bool) : Nat → Nat → Prop
  | zero {x : Nat} : Deep h multiple 0 x
  | down {x c d : Nat} {A B : List Nat} : h.kids x = A ++ c :: B → h.isElem c = true → ¬ Named h "option".toList c →
      (multiple = true ∨ ∀ a ∈ A, ¬ (Named h "option".toList a ∧ HasAttr h "selected".toList a)) → Deep h multiple d c →
      Deep h multiple (d + 1) x

end Visdom.Spec
