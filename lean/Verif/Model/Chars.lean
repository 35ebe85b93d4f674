import Verif.Model.TextValue
/-!
# Model of `text_chars`
-/
namespace Visdom

/-- `lib.rs:238-245 text_chars`. The voice is what `Node::build` gives without `decode_entity`. Unlike `text_contents` it asks for the text only when the node is an
element, so of a comment it gives the markup. -/
def textChars (raw : Voice) (e : Ext) (h : Heap) (x : Nat) : R (List Char) :=
  if h.isElem x then pieceF raw.quiet e h h.fuel false x else pieceF raw.whole e h h.fuel false x

end Visdom
