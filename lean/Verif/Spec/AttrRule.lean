import Verif.Spec.Attr
/-! # Specification of attribute selectors -/
namespace Visdom.Spec

/-- The selectors `[a=w]`, `[a^=w]`, `[a$=w]`, `[a*=w]`, `[a|=w]`, `[a~=w]`, `[a!=w]`. -/
inductive AttrTest where
  | equals | startsWith | endsWith | contains | dashMatch | hasWord | differs

/-- The text of an attribute: an attribute without a value has the empty text. -/
def textOf (v : Option (List Char)) : List Char := v.getD []

/-- When an element, whose attribute reads `a`, satisfies the test with operand `w`. -/
def AttrTest.Holds (t : AttrTest) (w : List Char) (a : Option (Option (List Char))) : Prop :=
  match t with
  | .equals => ∃ v, a = some v ∧ textOf v = w
  | .startsWith => w ≠ [] ∧ ∃ v, a = some v ∧ ∃ u, textOf v = w ++ u
  | .endsWith => w ≠ [] ∧ ∃ v, a = some v ∧ ∃ u, textOf v = u ++ w
  | .contains => w ≠ [] ∧ ∃ v, a = some v ∧ ∃ u u', textOf v = u ++ w ++ u'
  | .dashMatch => ∃ v, a = some v ∧ (textOf v = w ∨ ∃ u, textOf v = w ++ '-' :: u)
  | .hasWord => w ≠ [] ∧ ∃ v, a = some v ∧ ∃ l, Tokens (textOf v) l ∧ w ∈ l
  | .differs => ∀ v, a = some v → textOf v ≠ w

end Visdom.Spec
