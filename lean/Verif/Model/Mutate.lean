import Verif.Model.Dom
/-!
# Model of the mutations of the node graph (`src/lib.rs`, `elements.rs:3614-3850`)

The reports of `Dom::halt` (`lib.rs:65-73`) are left out here; they are in `Model/Reports.lean`. `RefCell` borrows are checked where two borrows of one node
can meet.
-/
namespace Visdom

/-- What `lib.rs` calls in rphtml, as parameters: `Node::is_document` of an abstract root, `allow_insert` (tag name, and
the node standing for its type), `is_content_tag`, the entity encoder, and `Doc::parse(..).unwrap()` (the heap with the new
nodes, and the root of the parsed document). Called in `lib.rs:130`, `142`, `185`, `259-265`, `330`. -/
structure Ext where
  isDoc : Heap → Nat → Bool
  allow : List Char → Nat → Bool
  contentTag : List Char → Bool
  encode : List Char → List Char
  parse : Heap → List Char → R (Heap × Nat)

/-- `lib.rs:126-139 remove_not_allowed_nodes`: the nodes left, and whether some but not all were removed. -/
def removeNotAllowed (allow : Nat → Bool) (nodes : List Nat) : R (List Nat × Bool) :=
  let idx := (List.range nodes.length).filter fun i => !allow (nodes.getD i 0)
  (retainByIndex nodes idx).map (·, decide (0 < idx.length ∧ idx.length ≠ nodes.length))

namespace Heap

/-- `node.borrow_mut()` followed by an assignment to a field. For example `lib.rs:120-124`, `874`. -/
def upd (h : Heap) (x : Nat) (f : Node → Node) : Heap :=
  { h with node := fun y => if y = x then f (h.node y) else h.node y }

/-- `lib.rs:120-124 reset_next_siblings_index`. -/
def resetIndex (h : Heap) (start : Nat) : List Nat → Heap
  | [] => h
  | x :: xs => resetIndex (h.upd x fun n => { n with index := start }) (start + 1) xs

/-- `for node in &nodes { node.borrow_mut().parent = … }`, `lib.rs:874`, `897`, `971`. -/
def setParent (h : Heap) (p : Nat) : List Nat → Heap
  | [] => h
  | x :: xs => setParent (h.upd x fun n => { n with parent := some p }) p xs

/-- Assignment to `childs`. For example `lib.rs:269`, `276`, `907-914`. -/
def setChilds (h : Heap) (x : Nat) (cs : Option (List Nat)) : Heap := h.upd x fun n => { n with childs := cs }

/-- `lib.rs:439-460 tag_names`. -/
def tagNames (h : Heap) (x : Nat) : List Char := if h.isElem x then lowerStr (h.node x).name else []

/-- `lib.rs:786-802 remove_child`. The borrow of `p` is held while the index of `x` is read and the indexes of the following
siblings are written. -/
def removeChild (h : Heap) (p x : Nat) : R Heap :=
  if h.parent x = some p then
    match (h.node p).childs with
    | none => .ok h
    | some cs =>
      if p = x ∨ p ∈ cs.drop (h.index x + 1) then .error .borrow
      else if cs.length = 0 then .error .overflow
      else if h.index x = cs.length - 1 then .ok (h.setChilds p (some (cs.eraseIdx (h.index x))))
      else if cs.length < h.index x + 1 then .error .outOfBounds
      else .ok ((h.resetIndex (h.index x) (cs.drop (h.index x + 1))).setChilds p (some (cs.eraseIdx (h.index x))))
  else .ok h

/-- `if let Some(parent) = node.parent() { parent.remove_child(node) }`, `elements.rs:3616-3618`, `lib.rs:825-828`,
`948-950`. -/
def detach (h : Heap) (x : Nat) : R Heap :=
  match h.parent x with
  | none => .ok h
  | some p => h.removeChild p x

/-- The loop of `lib.rs:101-114` with a step counter. -/
def hasAncestor (h : Heap) : Nat → Nat → Nat → R Bool
  | 0, _, _ => .error .diverge
  | k + 1, t, n =>
    match h.parent t with
    | none => .ok false
    | some p => if p = n then .ok true else hasAncestor h k p n

/-- `lib.rs:181-199 node_type = DocumentFragement`. -/
def isFragment (h : Heap) (e : Ext) (x : Nat) : Bool := h.isRoot x && !e.isDoc h x

/-- `lib.rs:77-117 validate_dom_change`. -/
def validate (h : Heap) (e : Ext) (t n : Nat) : R Bool :=
  if !h.isElem t then .ok false
  else if h.isRoot n && e.isDoc h n then .ok false
  else if t = n then .ok false
  else (h.hasAncestor (h.size + 1) t n).map (!·)

end Heap

/-- `element.rs:78-83 InsertPosition`. -/
inductive InsertPosition where
  | beforeBegin | afterBegin | beforeEnd | afterEnd
  deriving DecidableEq, Repr

namespace Heap

/-- `lib.rs:815-833`, `938-954`: the nodes to insert; a fragment keeps its list of children. -/
def takeNodes (h : Heap) (e : Ext) (n : Nat) : R (Heap × List Nat) :=
  if h.isFragment e n then .ok (h, h.kids n) else (h.detach n).map (·, [n])

/-- `lib.rs:851-893`: before or after `t`. The borrows of `t` and of its parent are held while the parents of the nodes are
set. -/
def insertBeside (h : Heap) (after : Bool) (t : Nat) (nodes : List Nat) : R Heap :=
  let index := if after then h.index t + 1 else h.index t
  let h := h.resetIndex index nodes
  match h.parent t with
  | none => .ok h
  | some p =>
    if t = p then .error .borrow else
    match (h.node p).childs with
    | none => .ok h
    | some cs =>
      if t ∈ nodes ∨ p ∈ nodes then .error .borrow
      else
        let nexts := if index < cs.length then cs.drop index else []
        let prevs := if index < cs.length then cs.take index else cs
        let h := h.setParent p nodes
        let h := h.setChilds p (some (prevs ++ nodes))
        if nexts.isEmpty then .ok h
        else .ok ((h.resetIndex (index + nodes.length) nexts).setChilds p (some (prevs ++ nodes ++ nexts)))

/-- `lib.rs:894-923`: at the start or at the end of the children of `t`. -/
def insertInside (h : Heap) (atEnd : Bool) (t : Nat) (nodes : List Nat) : R Heap :=
  let h := h.setParent t nodes
  match (h.node t).childs with
  | some cs =>
    if t ∈ nodes then .error .borrow
    else if atEnd then .ok ((h.resetIndex cs.length nodes).setChilds t (some (cs ++ nodes)))
    else if t ∈ cs then .error .borrow
    else .ok (((h.resetIndex 0 nodes).resetIndex nodes.length cs).setChilds t (some (nodes ++ cs)))
  | none => .ok ((h.resetIndex 0 nodes).setChilds t (some nodes))

/-- `lib.rs:834-923`: the nodes that may not stand inside `t` are dropped, the others are put in place. -/
def placeNodes (h : Heap) (e : Ext) (pos : InsertPosition) (t : Nat) (nodes : List Nat) : R Heap :=
  let inside := pos = .afterBegin ∨ pos = .beforeEnd
  let allowed : R (List Nat) :=
    if inside then (removeNotAllowed (e.allow (h.tagNames t)) nodes).map (·.1) else .ok nodes
  match allowed with
  | .error x => .error x
  | .ok nodes =>
    if nodes.isEmpty then .ok h
    else if inside then h.insertInside (pos = .beforeEnd) t nodes
    else h.insertBeside (pos = .afterEnd) t nodes

/-- `lib.rs:806-925 insert_adjacent`. -/
def insertAdjacent (h : Heap) (e : Ext) (pos : InsertPosition) (t n : Nat) : R Heap :=
  match h.validate e t n with
  | .error x => .error x
  | .ok false => .ok h
  | .ok true =>
    match h.takeNodes e n with
    | .error x => .error x
    | .ok (h, nodes) => h.placeNodes e pos t nodes

/-- `lib.rs:927-992 replace_with`: the new heap, and the node the handle refers to afterwards. The borrows of `t` and of its
parent are held throughout. -/
def replaceWith (h : Heap) (e : Ext) (t n : Nat) : R (Heap × Nat) :=
  let single : Option Nat :=
    if h.isFragment e n then (match h.kids n with | [c] => some c | _ => none) else some n
  match h.takeNodes e n with
  | .error x => .error x
  | .ok (h, nodes) =>
    if nodes.isEmpty then .ok (h, t)
    else
      let index := h.index t
      let res : R Heap :=
        match h.parent t with
        | none => .ok h
        | some p =>
          if t = p then .error .borrow else
          match (h.node p).childs with
          | none => .ok h
          | some cs =>
            if t ∈ nodes ∨ p ∈ nodes then .error .borrow
            else if index < cs.length ∧ (t ∈ cs.drop (index + 1) ∨ p ∈ cs.drop (index + 1)) then .error .borrow
            else if cs.length < index + 1 then .error .outOfBounds
            else
              let h := h.resetIndex index nodes
              let h := h.resetIndex (index + nodes.length) (cs.drop (index + 1))
              let h := h.setParent p nodes
              .ok (h.setChilds p (some (cs.take index ++ nodes ++ cs.drop (index + 1))))
      res.map (·, single.getD t)

/-- A new node (`Rc::new(RefCell::new(..))`). `lib.rs:265-269`. -/
def alloc (h : Heap) (n : Node) : Heap × Nat :=
  ({ size := h.size + 1, node := fun y => if y = h.size then n else h.node y }, h.size)

/-- `lib.rs:251-297 set_text`. -/
def setText (h : Heap) (e : Ext) (x : Nat) (s : List Char) : Heap :=
  match (h.node x).kind with
  | .tag =>
    if e.contentTag (h.tagNames x) then h.upd x fun n => { n with content := if s.isEmpty then none else some s }
    else if s.isEmpty then h.setChilds x none
    else
      let (h, c) := h.alloc { kind := .text, content := some (e.encode s), parent := some x }
      h.setChilds x (some [c])
  | .text | .spaces | .comment =>
    if s.isEmpty then h else h.upd x fun n => { n with content := some s }
  | _ => h

/-- `lib.rs:301-316`: the node whose children `set_html` changes. -/
def htmlTarget (h : Heap) (x : Nat) : Option Nat :=
  match (h.node x).kind with
  | .tag => some x
  | .text | .spaces => h.parent x
  | _ => none

/-- `lib.rs:299-393 set_html`. The children of the parsed document are moved out of its root. Simplified: the check that the
target has a tag name. -/
def setHtml (h : Heap) (e : Ext) (x : Nat) (s : List Char) : R Heap :=
  let isElement := h.isElem x
  match h.htmlTarget x with
  | none => .ok h
  | some t =>
    if !h.isElem t then .error .unwrapNone
    else if e.contentTag (h.node t).name then .ok (h.upd t fun n => { n with content := some s })
    else
      match e.parse h s with
      | .error err => .error err
      | .ok (h, root) =>
        match (h.node root).childs with
        | none => .ok (h.setChilds t none)
        | some parsed =>
          let h := h.setChilds root (some [])
          match removeNotAllowed (e.allow (h.node t).name) parsed with
          | .error err => .error err
          | .ok (nodes, notAllowed) =>
            let h := h.setParent t nodes
            if isElement then
              let h := if notAllowed then h.resetIndex 0 nodes else h
              .ok (h.setChilds t (if nodes.isEmpty then none else some nodes))
            else
              match (h.node t).childs with
              | none => .ok h
              | some cs =>
                let index := h.index x
                if cs.length = 0 then .error .overflow
                else if cs.length ≤ index then .error .outOfBounds
                else if t ∈ cs.drop (index + 1) then .error .borrow
                else
                  let h := if index < cs.length - 1 then h.resetIndex (index + nodes.length) (cs.drop (index + 1)) else h
                  let h := h.resetIndex index nodes
                  .ok (h.setChilds t (some (cs.take index ++ nodes ++ cs.drop (index + 1))))

/-- `lib.rs:399-411 remove` of a text node. The borrows of `x` and of its parent are held throughout. -/
def removeText (h : Heap) (x : Nat) : R Heap :=
  match h.parent x with
  | none => .ok h
  | some p =>
    if x = p then .error .borrow else
    match (h.node p).childs with
    | none => .ok h
    | some cs =>
      if cs.length ≤ h.index x then .error .outOfBounds
      else
        let cs' := cs.eraseIdx (h.index x)
        if x ∈ cs'.drop (h.index x) ∨ p ∈ cs'.drop (h.index x) then .error .borrow
        else .ok ((h.setChilds p (some cs')).resetIndex (h.index x) (cs'.drop (h.index x)))

/-- `lib.rs:414-421 append_text`: without content the second `borrow_mut` panics. -/
def appendText (h : Heap) (x : Nat) (s : List Char) : R Heap :=
  match (h.node x).content with
  | some c => .ok (h.upd x fun n => { n with content := some (c ++ s) })
  | none => .error .borrow

/-- `lib.rs:424-431 prepend_text`. -/
def prependText (h : Heap) (x : Nat) (s : List Char) : R Heap :=
  match (h.node x).content with
  | some c => .ok (h.upd x fun n => { n with content := some (s ++ c) })
  | none => .error .borrow

end Heap

/-- `elements.rs:3614-3620 remove`. -/
def removeAll (h : Heap) : List Nat → R Heap
  | [] => .ok h
  | x :: xs =>
    match h.detach x with
    | .error e => .error e
    | .ok h => removeAll h xs

/-- The inner loop of `elements.rs:3663-3669 insert`, over the reversed list. -/
def insertLoop (e : Ext) (pos : InsertPosition) (t : Nat) (h : Heap) : List Nat → R Heap
  | [] => .ok h
  | n :: ns =>
    match h.insertAdjacent e pos t n with
    | .error x => .error x
    | .ok h => insertLoop e pos t h ns

/-- `elements.rs:3663-3669 insert`. -/
def insertAll (e : Ext) (pos : InsertPosition) (dest : List Nat) (h : Heap) : List Nat → R Heap
  | [] => .ok h
  | t :: ts =>
    match insertLoop e pos t h dest.reverse with
    | .error x => .error x
    | .ok h => insertAll e pos dest h ts

/-- The inner loop of `elements.rs:3671-3677 replace`; the handle changes. -/
def replaceLoop (e : Ext) (t : Nat) (h : Heap) : List Nat → R (Heap × Nat)
  | [] => .ok (h, t)
  | n :: ns =>
    match h.replaceWith e t n with
    | .error x => .error x
    | .ok (h, t) => replaceLoop e t h ns

/-- `elements.rs:3671-3677 replace`: the new heap and the set the handles form afterwards. -/
def replaceAll (e : Ext) (dest : List Nat) (h : Heap) : List Nat → R (Heap × List Nat)
  | [] => .ok (h, [])
  | t :: ts =>
    match replaceLoop e t h dest.reverse with
    | .error x => .error x
    | .ok (h, t) =>
      match replaceAll e dest h ts with
      | .error x => .error x
      | .ok (h, l) => .ok (h, t :: l)

/-- `elements.rs:2940-2945 set_text`. -/
def setTextAll (h : Heap) (e : Ext) (X : List Nat) (s : List Char) : Heap := X.foldl (fun h x => h.setText e x s) h

/-- `elements.rs:3655-3658 empty`. -/
def emptyAll (h : Heap) (e : Ext) (X : List Nat) : Heap := setTextAll h e X []

end Visdom
