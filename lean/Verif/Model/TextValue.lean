import Verif.Model.Html
import Verif.Model.Texts
/-!
# Model of `text` and of `Texts::for_each`

`text_contents` calls `Node::build` of rphtml with entities decoded. For elements and comments it asks for the text only: then no tags are written.
For every other node, roots of documents and fragments among them, it asks for the whole markup. As in `Model/Html.lean` the walk is modelled and the strings for single
nodes are parameters.
-/
namespace Visdom

/-- What `Node::build` with `decode_entity` (called by `lib.rs:228-236`) gives for a single node. When only text is asked for: a node that is not an element (the
flag: it stands in a content tag) and the content of a content tag. `whole`: what is written when everything is asked for. -/
structure Voice where
  say : Bool → Kind → Option (List Char) → List Char
  body : List Char → Option (List Char) → List Char
  whole : Render

/-- `Node::build` with `is_text`: the tags are left out. Called by `lib.rs:228-245`. -/
def Voice.quiet (v : Voice) : Render where
  opening := fun _ _ => []
  closing := fun _ _ => []
  body := v.body
  leaf := fun ct k _ _ c => v.say ct k c

variable (v : Voice) (e : Ext) (h : Heap)

/-- `lib.rs:228-236 text_contents`, `node.rs:67-72 text_content` and `text`. -/
def textContents (x : Nat) : R (List Char) :=
  if h.isElem x || (h.node x).kind == .comment then pieceF v.quiet e h h.fuel false x
  else pieceF v.whole e h h.fuel false x

/-- `elements.rs:2897-2903 text`. -/
def textJoin (X : List Nat) : R (List Char) := flatMapR (textContents v e h) X

/-- `texts.rs:30-48 for_each` and `each`: the closure gets the position and the text, may change the tree, and stops the loop by `false`. -/
def textsEach (step : Heap → Nat → Nat → R (Heap × Bool)) : Nat → Heap → List Nat → R Heap
  | _, h, [] => .ok h
  | i, h, x :: xs =>
    match step h i x with
    | .error p => .error p
    | .ok (h, false) => .ok h
    | .ok (h, true) => textsEach step (i + 1) h xs

/-- The closure of the example `lib.rs:1183-1187`: `prepend_text(a)`, then `append_text(b)`, and go on. -/
def wrapStep (a b : List Char) (h : Heap) (_ : Nat) (x : Nat) : R (Heap × Bool) :=
  match h.prependText x a with
  | .error p => .error p
  | .ok h =>
    match h.appendText x b with
    | .error p => .error p
    | .ok h => .ok (h, true)

/-- The closure of the example `lib.rs:1190-1193`: `set_text(s)`, and go on. -/
def setStep (e : Ext) (s : List Char) (h : Heap) (_ : Nat) (x : Nat) : R (Heap × Bool) := .ok (h.setText e x s, true)

end Visdom
