import Verif.Model.TextValue
/-!
# Model of the loop of the documentation that calls `set_html` on texts
-/
namespace Visdom

/-- The closure of the example `lib.rs:1196-1202`: the markup is made of the position and of the text (`f`), then `set_html`, and go on. -/
def htmlStep (v : Voice) (e : Ext) (f : Nat → List Char → List Char) (h : Heap) (i x : Nat) : R (Heap × Bool) :=
  match textContents v e h x with
  | .error p => .error p
  | .ok s =>
    match h.setHtml e x (f i s) with
    | .error p => .error p
    | .ok h => .ok (h, true)

end Visdom
