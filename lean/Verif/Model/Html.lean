import Verif.Model.Mutate
import Verif.Model.Engine
/-!
# Model of `html`, `htmls`, `outer_html` and `outer_htmls`

The strings are made by `Node::build` of rphtml, whose source is not part of the repository. It is modelled as a walk through the tree, and the
strings that it writes for a single node are parameters. What is assumed by this: the string for a node depends on its kind, name, attributes and
content, and for a text or a comment also on whether it stands in a content tag; on nothing else. The places of a node in the source text, which
rphtml keeps too, are not modelled.
-/
namespace Visdom

/-- What `Node::build` (called by `lib.rs:753-781`) writes for a single node: the start tag and the end tag of an element (empty for a void element),
the content of a content tag, and a node that is not an element (the flag: it stands in a content tag). -/
structure Render where
  opening : List Char → Meta → List Char
  closing : List Char → Meta → List Char
  body : List Char → Option (List Char) → List Char
  leaf : Bool → Kind → List Char → Meta → Option (List Char) → List Char

variable (rd : Render) (e : Ext) (h : Heap)

/-- `Node::build`, of a node with everything in it, with a step counter. rphtml's function called by `lib.rs:753-781`. -/
def pieceF : Nat → Bool → Nat → R (List Char)
  | 0, _, _ => .error .diverge
  | k + 1, inCt, x =>
    match (h.node x).kind with
    | .root => flatMapR (pieceF k false) (h.kids x)
    | .tag =>
      match flatMapR (pieceF k (e.contentTag (h.node x).name)) (h.kids x) with
      | .error p => .error p
      | .ok s => .ok (rd.opening (h.node x).name (h.node x).attrs ++
          ((if e.contentTag (h.node x).name then rd.body (h.node x).name (h.node x).content else []) ++ s) ++
          rd.closing (h.node x).name (h.node x).attrs)
    | k => .ok (rd.leaf inCt k (h.node x).name (h.node x).attrs (h.node x).content)

/-- `lib.rs:769-781 outer_html`. The flag matters only for a node that is not an element, which has no `outer_html` in the API. -/
def outerHtml (x : Nat) : R (List Char) := pieceF rd e h h.fuel false x

/-- `lib.rs:753-766 inner_html`, `element.rs:307-309 html`: `build` with the option `inner_html` leaves out the tags of the node itself. -/
def innerHtml (x : Nat) : R (List Char) :=
  match (h.node x).kind with
  | .root => flatMapR (pieceF rd e h h.fuel false) (h.kids x)
  | .tag =>
    match flatMapR (pieceF rd e h h.fuel (e.contentTag (h.node x).name)) (h.kids x) with
    | .error p => .error p
    | .ok s => .ok ((if e.contentTag (h.node x).name then rd.body (h.node x).name (h.node x).content else []) ++ s)
  | _ => .ok []

/-- `elements.rs:2978-2983 html`: of the first element. -/
def htmlS (S : List Nat) : R (List Char) :=
  match S with
  | [] => .ok []
  | x :: _ => innerHtml rd e h x

/-- `elements.rs:3009-3011 htmls`: `map` and `join("")`. -/
def htmlsS (S : List Nat) : R (List Char) := flatMapR (innerHtml rd e h) S

/-- `elements.rs:3080-3085 outer_html`: of the first element. -/
def outerHtmlS (S : List Nat) : R (List Char) :=
  match S with
  | [] => .ok []
  | x :: _ => outerHtml rd e h x

/-- `elements.rs:3111-3113 outer_htmls`: `map` and `join("")`. -/
def outerHtmlsS (S : List Nat) : R (List Char) := flatMapR (outerHtml rd e h) S

end Visdom
