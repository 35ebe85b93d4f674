import Verif.Spec.Mutate
import Verif.Model.Reports
/-!
# Specification: error reports
-/
namespace Visdom.Spec

/-- The node was loaded with the document of root `r`, and `k` is the handler of that document. -/
def Hears (h : Heap) (H : Handlers) (x k : Nat) : Prop := ∃ r, (h.node x).root = some r ∧ H r = some k

/-- Nobody is told about errors of the node. -/
def Unheard (h : Heap) (H : Handlers) (x : Nat) : Prop := ∀ r, (h.node x).root = some r → H r = none

/-- What is required of the parser of documents: it adds nodes, leaves the old ones, and links the new ones with the new root. -/
def DocOk (p : DocParser) : Prop :=
  ∀ h s h' r, p h s = .ok (h', r) → h.size ≤ h'.size ∧ (∀ y, y < h.size → h'.node y = h.node y) ∧ h.size ≤ r ∧ r < h'.size ∧
    ∀ y, h.size ≤ y → y < h'.size → (h'.node y).root = some r

/-- Something a program does: a mutation, or loading a document with a handler. -/
inductive Event where
  | op (o : Op)
  | load (s : List Char) (k : Nat)

/-- It is done. -/
def Event.run (e : Ext) (p : DocParser) (w : Heap × Handlers) : Event → R (Heap × Handlers)
  | .op o => (o.run e w.1).map (·, w.2)
  | .load s k => .ok ((loadOptionsCatch p w.1 w.2 s k).heap, (loadOptionsCatch p w.1 w.2 s k).handlers)

/-- One after the other. -/
def eventAll (e : Ext) (p : DocParser) (w : Heap × Handlers) : List Event → R (Heap × Handlers)
  | [] => .ok w
  | ev :: evs =>
    match ev.run e p w with
    | .error x => .error x
    | .ok w => eventAll e p w evs

end Visdom.Spec
