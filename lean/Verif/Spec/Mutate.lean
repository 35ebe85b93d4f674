import Verif.Spec.Forest
import Verif.Model.Mutate
/-!
# Specification: histories of mutations
-/
namespace Visdom.Spec

/-- One call of a mutating method. -/
inductive Op where
  | remove (x : Nat)
  | removeText (x : Nat)
  | insert (pos : InsertPosition) (t n : Nat)
  | replace (t n : Nat)
  | setText (x : Nat) (s : List Char)
  | appendText (x : Nat) (s : List Char)
  | prependText (x : Nat) (s : List Char)
  | setHtml (x : Nat) (s : List Char)
  | load (s : List Char)

/-- The call, in the model. -/
def Op.run (e : Ext) (h : Heap) : Op → R Heap
  | .remove x => h.detach x
  | .removeText x => h.removeText x
  | .insert pos t n => h.insertAdjacent e pos t n
  | .replace t n => (h.replaceWith e t n).map (·.1)
  | .setText x s => .ok (h.setText e x s)
  | .appendText x s => h.appendText x s
  | .prependText x s => h.prependText x s
  | .setHtml x s => h.setHtml e x s
  | .load s => (e.parse h s).map (·.1)

/-- The calls one after the other. -/
def runAll (e : Ext) (h : Heap) : List Op → R Heap
  | [] => .ok h
  | op :: ops =>
    match op.run e h with
    | .error x => .error x
    | .ok h => runAll e h ops

/-- What is required of the parser: it adds new nodes and leaves the old ones, the root of what it has parsed is new, and
the trees it makes are well formed. -/
def ParseOk (e : Ext) : Prop :=
  ∀ h s h' r, e.parse h s = .ok (h', r) → h.size ≤ h'.size ∧ (∀ y, y < h.size → h'.node y = h.node y) ∧ h.size ≤ r ∧
    r < h'.size ∧ (h'.node r).kind = .root ∧ ∀ D, HeapOk h D → HeapOk h' D

/-- The node is a document. -/
def IsDoc (e : Ext) (h : Heap) (n : Nat) : Prop := (h.node n).kind = .root ∧ e.isDoc h n = true

/-- An insertion of `n` at `t` makes sense: `t` is an element, `n` is not a document and `t` is not in the subtree of `n`. -/
def Accepted (e : Ext) (h : Heap) (t n : Nat) : Prop :=
  (h.node t).kind = .tag ∧ ¬ IsDoc e h n ∧ t ≠ n ∧ ¬ Above h n t

/-- The nodes that an insertion of `n` moves: `n`, or all children of `n` when `n` is a fragment. -/
def moved (h : Heap) (n : Nat) : List Nat := if (h.node n).kind = .root then h.kids n else [n]

/-- The nodes given to the call are in place: no handle is used whose node has been removed, replaced or dropped before, no
fragment is used twice; and the call makes sense. `D` are the fragments that have been used. -/
def Usable (e : Ext) (h : Heap) (D : Nat → Prop) : Op → Prop
  | .remove x => Attached h D x
  | .removeText x => Attached h D x
  | .insert _ t n => Attached h D t ∧ Attached h D n ∧ ¬ D n ∧ n < h.size ∧ t < h.size
  | .replace t n => Attached h D t ∧ Attached h D n ∧ ¬ D n ∧ n < h.size ∧ ¬ IsDoc e h n ∧ t ≠ n ∧ ¬ Above h n t
  | .setText x _ => x < h.size
  | .appendText x _ => (h.node x).content.isSome
  | .prependText x _ => (h.node x).content.isSome
  | .setHtml x s => x < h.size ∧ ((h.node x).kind ≠ .tag → Attached h D x) ∧ (∃ r, e.parse h s = .ok r) ∧
      (∀ p, h.parent x = some p → (h.node x).kind ≠ .tag → (h.node p).kind = .tag)
  | .load s => ∃ r, e.parse h s = .ok r

/-- The nodes that the call takes out of their tree. -/
def Lost (e : Ext) (h : Heap) (y : Nat) : Op → Prop
  | .remove x => y = x
  | .removeText x => y = x
  | .insert pos t n => Accepted e h t n ∧ y ∈ moved h n ∧
      (if pos = .afterBegin ∨ pos = .beforeEnd then e.allow (h.tagNames t) y = false else h.parent t = none)
  | .replace t n => y = t ∨ (y ∈ moved h n ∧ h.parent t = none)
  | .setText x _ => y ∈ h.kids x
  | .setHtml x s => y ∈ h.kids x ∨ ((h.node x).kind ≠ .tag ∧ (y = x ∨
      ∃ p h' r, h.parent x = some p ∧ e.parse h s = .ok (h', r) ∧ (h'.node r).childs = none ∧ y ∈ h.kids p))
  | _ => False

/-- The fragments used, after the call. -/
def Used (e : Ext) (h : Heap) (D : Nat → Prop) (x : Nat) : Op → Prop
  | .insert _ t n => D x ∨ (x = n ∧ (h.node n).kind = .root ∧ Accepted e h t n)
  | .replace _ n => D x ∨ (x = n ∧ (h.node n).kind = .root)
  | _ => D x

/-- A history in which every call is usable when it is made. -/
def History (e : Ext) : Heap → (Nat → Prop) → List Op → Prop
  | _, _, [] => True
  | h, D, op :: ops => Usable e h D op ∧ ∀ h', op.run e h = .ok h' → History e h' (fun x => Used e h D x op) ops

/-- The fragments used, after all the calls. -/
def UsedAll (e : Ext) : Heap → (Nat → Prop) → List Op → (Nat → Prop)
  | _, D, [] => D
  | h, D, op :: ops => fun x => match op.run e h with
    | .ok h' => UsedAll e h' (fun x => Used e h D x op) ops x
    | .error _ => D x

end Visdom.Spec
