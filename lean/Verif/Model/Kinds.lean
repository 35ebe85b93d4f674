import Verif.Model.Texts
import Verif.Model.Copy
/-!
# Model of the kinds of nodes and of the loops over child nodes

Every handle of a node is a `Box<dyn INodeTrait>`; which methods it offers is found out by `typed`. The loops of `element.rs` go over the child
nodes by position, ask each for its kind and convert it, with an `expect` at each step. The rest of the model uses the filtered lists
(`Model/Dom.lean`); here are the loops as they are written.
-/
namespace Visdom

/-- `node.rs:4-13 INodeType`. The kinds for CDATA, doctypes and other nodes are one here, as in `Kind`. -/
inductive NodeType where
  | element
  | text
  | comment
  | document
  | fragment
  | other
  deriving DecidableEq, Repr

/-- `node.rs:22-26 IEnumTyped`. -/
inductive Typed where
  | element (x : Nat)
  | text (x : Nat)
  | uncare (x : Nat)
  deriving DecidableEq, Repr

/-- `node.rs:29-34 into_element`. -/
def Typed.intoElement : Typed → Option Nat
  | .element x => some x
  | _ => none

/-- `node.rs:35-40 into_text`. -/
def Typed.intoText : Typed → Option Nat
  | .text x => some x
  | _ => none

namespace Heap
variable (isDoc : Heap → Nat → Bool) (h : Heap)

/-- `lib.rs:181-199 node_type`; `isDoc` is rphtml's `is_document`. -/
def nodeType (x : Nat) : NodeType :=
  match (h.node x).kind with
  | .root => if isDoc h x then .document else .fragment
  | .comment => .comment
  | .text | .spaces => .text
  | .tag => .element
  | .other => .other

/-- `lib.rs:170-178 typed`. -/
def typed (x : Nat) : Typed :=
  match h.nodeType isDoc x with
  | .element | .fragment | .document => .element x
  | .text => .text x
  | _ => .uncare x

/-- `element.rs:102-106 cloned`: another handle of the node. -/
def cloned (x : Nat) : R Nat :=
  match (h.typed isDoc x).intoElement with
  | none => .error .unwrapNone
  | some y => .ok y

/-- `element.rs:108-111 copied`. -/
def copied (cp : Copier) (x : Nat) : R (Heap × Nat) :=
  match (typed isDoc (cp h x).1 (cp h x).2).intoElement with
  | none => .error .unwrapNone
  | some y => .ok ((cp h x).1, y)

/-- `lib.rs:1072-1081 into_text` of an element; `none` is the error. -/
def intoTextElem (ct : List Char → Bool) (x : Nat) : Option Nat := if ct (h.tagNames x) then some x else none

/-- `lib.rs:564-571 child_nodes_item`. -/
def childItem (x i : Nat) : Option Nat := (h.kids x)[i]?

/-- `element.rs:270-281 child_nodes`: the loop over the positions. -/
def childNodesLoop (x : Nat) : List Nat → R (List Nat)
  | [] => .ok []
  | i :: is =>
    match h.childItem x i with
    | none => .error .unwrapNone
    | some c => (childNodesLoop x is).map (c :: ·)

/-- `element.rs:270-281 child_nodes`. -/
def childNodes (x : Nat) : R (List Nat) := h.childNodesLoop x (List.range (h.childLen x))

/-- The loop body that `element.rs:147-158`, `198-209`, `230-242` and `286-293` share: the elements among the children at the positions. -/
def elemsAt (p : Nat) : List Nat → R (List Nat)
  | [] => .ok []
  | i :: is =>
    match h.childItem p i with
    | none => .error .unwrapNone
    | some c =>
      if h.nodeType isDoc c = .element then
        match (h.typed isDoc c).intoElement with
        | none => .error .unwrapNone
        | some c => (elemsAt p is).map (c :: ·)
      else elemsAt p is

/-- The loop of `element.rs:120-131` and `171-183`: the first element among the children at the positions. -/
def firstAt (p : Nat) : List Nat → R (Option Nat)
  | [] => .ok none
  | i :: is =>
    match h.childItem p i with
    | none => .error .unwrapNone
    | some c =>
      if h.nodeType isDoc c = .element then
        match (h.typed isDoc c).intoElement with
        | none => .error .unwrapNone
        | some c => .ok (some c)
      else firstAt p is

/-- `element.rs:283-296 children`. -/
def childrenWalk (x : Nat) : R (List Nat) := h.elemsAt isDoc x (List.range (h.childLen x))

/-- `element.rs:113-134 next_element_sibling`. -/
def nextElemWalk (x : Nat) : R (Option Nat) :=
  match h.parent x with
  | none => .ok none
  | some p => h.firstAt isDoc p (List.range' (h.index x + 1) (h.childLen p - (h.index x + 1)))

/-- `element.rs:137-161 next_element_siblings`. -/
def nextElemsWalk (x : Nat) : R (List Nat) :=
  match h.parent x with
  | none => .ok []
  | some p =>
    if h.childLen p < h.index x + 1 then .error .overflow
    else h.elemsAt isDoc p (List.range' (h.index x + 1) (h.childLen p - (h.index x + 1)))

/-- `element.rs:164-186 previous_element_sibling`. -/
def prevElemWalk (x : Nat) : R (Option Nat) :=
  match h.parent x with
  | none => .ok none
  | some p => if 0 < h.index x then h.firstAt isDoc p (List.range (h.index x)).reverse else .ok none

/-- `element.rs:189-213 previous_element_siblings`. -/
def prevElemsWalk (x : Nat) : R (List Nat) :=
  match h.parent x with
  | none => .ok []
  | some p => if 0 < h.index x then h.elemsAt isDoc p (List.range (h.index x)) else .ok []

/-- `element.rs:216-250 siblings`. -/
def siblingsWalk (x : Nat) : R (List Nat) :=
  match h.parent x with
  | none => .ok []
  | some p =>
    if h.index x = 0 then h.nextElemsWalk isDoc x
    else if h.childLen p = 0 then .error .overflow
    else if h.index x = h.childLen p - 1 then h.prevElemsWalk isDoc x
    else
      match h.elemsAt isDoc p (List.range (h.index x)) with
      | .error e => .error e
      | .ok l =>
        match h.elemsAt isDoc p (List.range' (h.index x + 1) (h.childLen p - (h.index x + 1))) with
        | .error e => .error e
        | .ok l' => .ok (l ++ l')

end Heap

variable (isDoc : Heap → Nat → Bool) (h : Heap) (ct : List Char → Bool)

/-- `lib.rs:1012-1056 loop_handle` with the conversions of the nodes, as `textsLoop` without them. -/
def textsWalk (limit : Option Nat) (handle : Nat → Nat → Bool) (recH : Nat → Bool) : Nat → Nat → Nat → R (List Nat)
  | 0, _, _ => .error .diverge
  | k + 1, depth, x =>
    match h.childNodes x with
    | .error e => .error e
    | .ok nodes =>
      if nodes.isEmpty then
        if ct (h.tagNames x) then
          match h.intoTextElem ct x with
          | none => .error .unwrapNone
          | some y => .ok (if handle depth y then [y] else [])
        else .ok []
      else
        flatMapR (fun c =>
          match h.nodeType isDoc c with
          | .text =>
            match (h.typed isDoc c).intoText with
            | none => .error .unwrapNone
            | some c => .ok (if handle depth c then [c] else [])
          | .element =>
            match (h.typed isDoc c).intoElement with
            | none => .error .unwrapNone
            | some c =>
              if ct (h.tagNames c) then
                match h.intoTextElem ct c with
                | none => .error .unwrapNone
                | some y => .ok (if handle depth y then [y] else [])
              else if belowLimit limit (depth + 1) && recH c then textsWalk limit handle recH k (depth + 1) c
              else .ok []
          | _ => .ok []) nodes

/-- `texts.rs:51-69 Texts::filter_by` with the conversion. -/
def textsFilterWalk (handle : Nat → Nat → Bool) : Nat → List Nat → R (List Nat)
  | _, [] => .ok []
  | i, x :: xs =>
    if handle i x then
      match (h.typed isDoc x).intoText with
      | none => .error .unwrapNone
      | some y => (textsFilterWalk handle (i + 1) xs).map (y :: ·)
    else textsFilterWalk handle (i + 1) xs

end Visdom
