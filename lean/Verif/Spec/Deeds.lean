import Verif.Spec.Apart
import Verif.Spec.After
/-!
# Specification: tree changes and attribute changes mixed; what a call may change
-/
namespace Visdom.Spec

/-- A call of an attribute method of a set. -/
inductive AttrCall where
  | setAttr (X : List Nat) (name : List Char) (value : Option (List Char))
  | removeAttr (X : List Nat) (name : List Char)
  | addClass (X : List Nat) (s : List Char)
  | removeClass (X : List Nat) (s : List Char)
  | toggleClass (X : List Nat) (s : List Char)

/-- The call, in the model. -/
def AttrCall.run (a : AttrExt) (h : Heap) : AttrCall → R Heap
  | .setAttr X n v => Heap.setAttr a h X n v
  | .removeAttr X n => Heap.removeAttr h X n
  | .addClass X s => Heap.addClass a h X s
  | .removeClass X s => Heap.removeClass a h X s
  | .toggleClass X s => Heap.toggleClass a h X s

/-- The nodes whose attributes the call is about. -/
def AttrCall.nodes : AttrCall → List Nat
  | .setAttr X _ _ | .removeAttr X _ | .addClass X _ | .removeClass X _ | .toggleClass X _ => X

/-- A change of the tree, or of attributes. -/
inductive Deed where
  | tree (op : Op)
  | attrs (c : AttrCall)

/-- Changes of the tree by usable calls, and changes of attributes of any nodes, in any order; no call panics. From the heap `h`
with used fragments `D` to the heap `h'` with used fragments `D'`. -/
inductive Deeds (e : Ext) (a : AttrExt) : Heap → (Nat → Prop) → List Deed → Heap → (Nat → Prop) → Prop
  | nil {h D} : Deeds e a h D [] h D
  | tree {h D op h1 ds h' D'} : Usable e h D op → op.run e h = .ok h1 → Deeds e a h1 (fun x => Used e h D x op) ds h' D' →
      Deeds e a h D (.tree op :: ds) h' D'
  | attrs {h D c h1 ds h' D'} : c.run a h = .ok h1 → Deeds e a h1 D ds h' D' → Deeds e a h D (.attrs c :: ds) h' D'

/-- The nodes given to a method that writes attributes. -/
def Call.writesAttrs : Call → List Nat
  | .setAttr X _ _ | .removeAttr X _ | .addClass X _ | .removeClass X _ | .toggleClass X _ => X
  | _ => []

/-- The nodes given to a method that writes text. -/
def Call.writesText : Call → List Nat
  | .one (.setText x _) | .one (.appendText x _) | .one (.prependText x _) => [x]
  | .setText X _ => X
  | _ => []

/-- The call is `set_html`. -/
def Call.isHtml : Call → Bool
  | .one (.setHtml ..) | .setHtml .. => true
  | _ => false

/-- The call cannot change parents, children and positions. -/
def Call.keepsLinks : Call → Bool
  | .one (.appendText ..) | .one (.prependText ..) | .one (.load _) => true
  | .setAttr .. | .removeAttr .. | .addClass .. | .removeClass .. | .toggleClass .. | .clone _ => true
  | _ => false

/-- The given nodes, their parents, their children and their siblings. -/
def Near (h : Heap) (G : List Nat) (z : Nat) : Prop :=
  ∃ g ∈ G, z = g ∨ h.parent g = some z ∨ z ∈ h.kids g ∨ ∃ p, h.parent g = some p ∧ z ∈ h.kids p

/-- Parser and copier leave the old nodes as they are. -/
structure World.Adds (w : World) : Prop where
  parse : ∀ h s h' r, w.ext.parse h s = .ok (h', r) → h.size ≤ h'.size ∧ h.size ≤ r ∧ (∀ y < h.size, h'.node y = h.node y) ∧
    ∀ c ∈ h'.kids r, h.size ≤ c
  copy : ∀ h x, h.size ≤ (w.copy h x).1.size ∧ ∀ y < h.size, (w.copy h x).1.node y = h.node y

end Visdom.Spec
