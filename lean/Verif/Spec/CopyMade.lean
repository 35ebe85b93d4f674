import Verif.Spec.Apart
import Verif.Spec.Forest
/-!
# Specification: what a copy of a node is
-/
namespace Visdom.Spec

/-- `y` is a copy of `x` that has just been made: new nodes have been added to the heap, nothing old has changed, the copy is new and has no parent, and its
subtree looks like that of `x`. (What `Node::clone_node` of rphtml has to do for `lib.rs:165-167 copy_node`.) -/
structure CopyMade (h : Heap) (D : Nat → Prop) (x : Nat) (h1 : Heap) (y : Nat) : Prop where
  size : h.size ≤ h1.size
  old : ∀ z, z < h.size → h1.node z = h.node z
  new : h.size ≤ y ∧ y < h1.size
  free : h1.parent y = none
  ok : HeapOk h1 D
  same : SameTree h h1 x y

end Visdom.Spec
