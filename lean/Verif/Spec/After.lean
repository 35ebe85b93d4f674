import Verif.Spec.Mutate
import Verif.Spec.Selector
/-!
# Specification: what mutations leave alone
-/
namespace Visdom.Spec

/-- The node is what it was: its kind, its name, its attributes and its root link. -/
def SameNode (h h' : Heap) (x : Nat) : Prop :=
  (h'.node x).kind = (h.node x).kind ∧ (h'.node x).name = (h.node x).name ∧ (h'.node x).attrs = (h.node x).attrs ∧
    (h'.node x).root = (h.node x).root

/-- The attribute tables of all elements of the heap are consistent. -/
def Tables (h : Heap) : Prop := ∀ x, x < h.size → h.isElem x = true → MetaWF (h.node x).attrs

/-- The parser makes consistent attribute tables. -/
def ParseTables (e : Ext) : Prop := ∀ h s h' r, e.parse h s = .ok (h', r) → Tables h → Tables h'

/-- Only attributes have changed. -/
structure OnlyAttrs (h h' : Heap) : Prop where
  size : h'.size = h.size
  node : ∀ x, h'.node x = { h.node x with attrs := (h'.node x).attrs }

end Visdom.Spec
