import Verif.Model.Dom
/-!
# Specification: what a node is, and the children at some positions
-/
namespace Visdom.Spec

/-- The answer of `typed`: an element (also for the root of a document or fragment), a text, or neither. -/
inductive Sort3 where
  | element
  | text
  | neither
  deriving DecidableEq, Repr

/-- What nodes of a kind are. -/
def sortOf : Kind → Sort3
  | .tag | .root => .element
  | .text | .spaces => .text
  | .comment | .other => .neither

/-- The child at the position is an element. -/
def ElemAt (h : Heap) (p i c : Nat) : Prop := (h.kids p)[i]? = some c ∧ (h.node c).kind = .tag

end Visdom.Spec
