import Verif.Model.Dom
/-!
# Which nodes are kept in memory, and what is seen through weak pointers

The links `parent` and `root` of a node are `Weak` pointers, and so is the link from a root node to its document
(`lib.rs:202-224`); children are held by their parent (`Rc`, `childs`). A node is freed when nothing holds it any more, and
`Weak::upgrade` then gives nothing. The rest of the model reads the links as they stand; here it is described what is seen when
the program holds only some things. Simplification: what else rphtml's `Doc` holds besides the root (its table of ids) counts as
held nodes.
-/
namespace Visdom

/-- What the program holds. `docs`: the roots of the documents that are held, by the set that `load` returned
(`lib.rs:1104-1107 elements`, `elements.rs:97-103`, field `doc`) or by a `Document`. `nodes`: the nodes in sets, which hold their
nodes but no document (`elements.rs:144-156 with_node`, `with_nodes`). -/
structure Holds where
  docs : List Nat := []
  nodes : List Nat := []

/-- The node is not freed. `lib.rs:34`, `202-209`: nodes are `RefNode` (`Rc<RefCell<Node>>` of rphtml) that hold their children; links to the parent are `Weak`. -/
inductive Live (h : Heap) (M : Holds) : Nat → Prop
  | doc {x : Nat} : x ∈ M.docs → Live h M x
  | node {x : Nat} : x ∈ M.nodes → Live h M x
  | child {p c : Nat} : Live h M p → c ∈ h.kids p → Live h M c

open scoped Classical in
/-- The node with its links as seen through `Weak::upgrade`: `lib.rs:202-209 parent`, `lib.rs:212-225 owner_document`. -/
noncomputable def seenNode (h : Heap) (M : Holds) (n : Node) : Node :=
  { n with
    parent := n.parent.filter fun p => decide (Live h M p)
    root := n.root.filter fun r => decide (Live h M r ∧ r ∈ M.docs) }

open scoped Classical in
/-- The heap as the program sees it. Freed nodes cannot be looked at, so it does not matter what stands there. `lib.rs:202-225 parent`, `owner_document`. -/
noncomputable def seenHeap (h : Heap) (M : Holds) : Heap :=
  { size := h.size, node := fun x => if Live h M x then seenNode h M (h.node x) else h.node x }

/-- `lib.rs:212-225 owner_document`, `docs` being the roots of the documents that are held: the link to the root and the root's link
to its document are upgraded. A document holds its root, so that the first succeeds when the second does. The answer is named by the
root of the document. -/
def Heap.ownerDocument (h : Heap) (docs : List Nat) (x : Nat) : Option Nat := (h.node x).root.filter (docs.contains ·)

/-- `elements.rs:351-358 document`: the first document that an element of the set answers with. -/
def documentOf (h : Heap) (docs : List Nat) (X : List Nat) : Option Nat := X.findSome? (h.ownerDocument docs)

end Visdom
