import Verif.Model.Attr
/-!
# The node graph

rphtml's `Rc<RefCell<Node>>` graph as used by `src/lib.rs`. A node is a number; a heap maps numbers to node
records. `Rc` identity (`Node::is_same`, `lib.rs:1084-1090 is`) is equality of numbers. Simplifications, stated
once: nodes are never freed here, so `Weak::upgrade` (`lib.rs:202-224`) always succeeds (what is seen when they are
is in `Model/Alive.lean`); `Rc` counts and stack depth
are not modelled; recursion along parent links or into children carries a step counter that starts at the
heap size plus one, which is proved sufficient on well formed trees (`Proofs/Tree.lean`).
-/
namespace Visdom

/-- rphtml's `NodeType`, as distinguished by `lib.rs:181-199 node_type`. -/
inductive Kind where
  | root    -- AbstractRoot: document or fragment
  | tag     -- Tag: an element
  | text    -- Text
  | spaces  -- SpacesBetweenTag, also reported as text
  | comment
  | other   -- CDATA, doctype, …
  deriving DecidableEq, Repr

/-- rphtml's `Node`, the fields used by the library. Read and written in `lib.rs:120-1060`. -/
structure Node where
  kind : Kind := .other
  name : List Char := []
  attrs : Meta := {}
  content : Option (List Char) := none
  childs : Option (List Nat) := none
  parent : Option Nat := none
  index : Nat := 0
  root : Option Nat := none

/-- The heap: `size` bounds the ids in use. Simplification: a `RefNode` (`lib.rs:34`) is a number, and what it points to is found in the heap. -/
structure Heap where
  size : Nat
  node : Nat → Node

namespace Heap
variable (h : Heap)

/-- `node.borrow().childs`, a missing list read as empty (`lib.rs:557-563`). -/
def kids (x : Nat) : List Nat := (h.node x).childs.getD []
/-- `lib.rs:181-199`: `INodeType::Element`. -/
def isElem (x : Nat) : Bool := (h.node x).kind == .tag
/-- `lib.rs:1093-1095 is_root_element`. -/
def isRoot (x : Nat) : Bool := (h.node x).kind == .root
/-- `lib.rs:202-209 parent`. -/
def parent (x : Nat) : Option Nat := (h.node x).parent
/-- `lib.rs:152-154 index`. -/
def index (x : Nat) : Nat := (h.node x).index
/-- `element.rs:283-296 children` and `lib.rs:601-609 children_by`: the element children in order. -/
def children (x : Nat) : List Nat := (h.kids x).filter h.isElem
/-- `lib.rs:557-563 child_nodes_length`. -/
def childLen (x : Nat) : Nat := (h.kids x).length

/-- `element.rs:113-134 next_element_sibling`: the first element among the child nodes after the own index. -/
def nextElem (x : Nat) : Option Nat :=
  match h.parent x with
  | none => none
  | some p => ((h.kids p).drop (h.index x + 1)).find? h.isElem

/-- `element.rs:137-161 next_element_siblings`. `total - start_index` underflows on a stale index. -/
def nextElems (x : Nat) : R (List Nat) :=
  match h.parent x with
  | none => .ok []
  | some p =>
    if (h.kids p).length < h.index x + 1 then .error .overflow
    else .ok (((h.kids p).drop (h.index x + 1)).filter h.isElem)

/-- `element.rs:164-186 previous_element_sibling`. An index beyond the child list panics in `expect`. -/
def prevElem (x : Nat) : R (Option Nat) :=
  match h.parent x with
  | none => .ok none
  | some p =>
    if (h.kids p).length < h.index x then .error .unwrapNone
    else .ok (((h.kids p).take (h.index x)).reverse.find? h.isElem)

/-- `element.rs:189-213 previous_element_siblings`. -/
def prevElems (x : Nat) : R (List Nat) :=
  match h.parent x with
  | none => .ok []
  | some p =>
    if (h.kids p).length < h.index x then .error .unwrapNone
    else .ok (((h.kids p).take (h.index x)).filter h.isElem)

/-- `element.rs:216-250 siblings`: first, last and middle position are treated apart. -/
def siblings (x : Nat) : R (List Nat) :=
  match h.parent x with
  | none => .ok []
  | some p =>
    let total := (h.kids p).length
    let index := h.index x
    if index = 0 then h.nextElems x
    else if total = 0 then .error .overflow
    else if index = total - 1 then h.prevElems x
    else if total < index then .error .unwrapNone
    else .ok (((h.kids p).take index).filter h.isElem ++ ((h.kids p).drop (index + 1)).filter h.isElem)

/-- `elements.rs:31-41 get_tree_indexs` with a step counter: the indexes from the root down to the node, the
root's own index first. -/
def pathFuel : Nat → Nat → List Nat
  | 0, _ => []
  | n + 1, x =>
    match h.parent x with
    | some p => pathFuel n p ++ [h.index x]
    | none => [h.index x]

/-- `elements.rs:31-41 get_tree_indexs`. -/
def treeIndexs (x : Nat) : List Nat := h.pathFuel (h.size + 1) x

end Heap
end Visdom
