import Verif.Spec.Mutate
import Verif.Model.Copy
/-!
# Specification: parts of the heap that have nothing to do with each other
-/
namespace Visdom.Spec

/-- One call of a mutating method, on an element or on a set of elements. -/
inductive Call where
  | one (op : Op)
  | remove (X : List Nat)
  | insert (pos : InsertPosition) (X Y : List Nat)
  | replace (X Y : List Nat)
  | setText (X : List Nat) (s : List Char)
  | setHtml (X : List Nat) (s : List Char)
  | setAttr (X : List Nat) (name : List Char) (value : Option (List Char))
  | removeAttr (X : List Nat) (name : List Char)
  | addClass (X : List Nat) (s : List Char)
  | removeClass (X : List Nat) (s : List Char)
  | toggleClass (X : List Nat) (s : List Char)
  | clone (X : List Nat)

/-- The nodes a call is given. -/
def Op.given : Op → List Nat
  | .remove x | .removeText x | .setText x _ | .appendText x _ | .prependText x _ | .setHtml x _ => [x]
  | .insert _ t n | .replace t n => [t, n]
  | .load _ => []

/-- The nodes a call is given to work on; cloning only reads. -/
def Call.given : Call → List Nat
  | .one op => op.given
  | .clone _ => []
  | .insert _ X Y | .replace X Y => X ++ Y
  | .remove X | .setText X _ | .setHtml X _ | .setAttr X _ _ | .removeAttr X _ | .addClass X _ | .removeClass X _ | .toggleClass X _ => X

/-- What the methods call outside of this crate. -/
structure World where
  ext : Ext
  attr : AttrExt
  copy : Copier

/-- The call, in the model. -/
def Call.run (w : World) (h : Heap) : Call → R Heap
  | .one op => op.run w.ext h
  | .remove X => removeAll h X
  | .insert pos X Y => insertAll w.ext pos Y h X
  | .replace X Y => (replaceAll w.ext Y h X).map (·.1)
  | .setText X s => .ok (setTextAll h w.ext X s)
  | .setHtml X s => setHtmlAll w.ext s h X
  | .setAttr X n v => Heap.setAttr w.attr h X n v
  | .removeAttr X n => Heap.removeAttr h X n
  | .addClass X s => Heap.addClass w.attr h X s
  | .removeClass X s => Heap.removeClass w.attr h X s
  | .toggleClass X s => Heap.toggleClass w.attr h X s
  | .clone X => .ok (copyAll w.copy h X).1

/-- The calls one after the other. -/
def callAll (w : World) (h : Heap) : List Call → R Heap
  | [] => .ok h
  | c :: cs =>
    match c.run w h with
    | .error x => .error x
    | .ok h => callAll w h cs

/-- No link and no list of children leads from `Z` to a node outside of `Z` or from outside into `Z`. -/
structure Separate (h : Heap) (Z : Nat → Prop) : Prop where
  parent : ∀ x p, h.parent x = some p → (Z x ↔ Z p)
  kids : ∀ x c, c ∈ h.kids x → (Z x ↔ Z c)
  bound : ∀ x, Z x → x < h.size

/-- New nodes have been added; the old ones are as before, and nothing that is new is linked with anything old. -/
structure Added (h h' : Heap) : Prop where
  size : h.size ≤ h'.size
  old : ∀ y, y < h.size → h'.node y = h.node y
  new : ∀ y, h.size ≤ y → y < h'.size →
    (∀ p, h'.parent y = some p → h.size ≤ p ∧ p < h'.size) ∧ ∀ c ∈ h'.kids y, h.size ≤ c ∧ c < h'.size
  rest : ∀ y, h'.size ≤ y → h'.node y = h.node y

/-- The subtrees of `x` in `h` and of `c` in `h'` are the same down to the given depth, except for the numbers of the nodes. -/
def SameTo (h h' : Heap) : Nat → Nat → Nat → Prop
  | 0, _, _ => True
  | k + 1, x, c => (h'.node c).kind = (h.node x).kind ∧ (h'.node c).name = (h.node x).name ∧ (h'.node c).attrs = (h.node x).attrs ∧
      (h'.node c).content = (h.node x).content ∧ (h'.kids c).length = (h.kids x).length ∧
      ∀ (i a b : Nat), (h.kids x)[i]? = some a → (h'.kids c)[i]? = some b → SameTo h h' k a b

/-- The subtrees are the same. -/
def SameTree (h h' : Heap) (x c : Nat) : Prop := ∀ k, SameTo h h' k x c

/-- The subtree of `x` is finite, and its nodes exist. -/
def FiniteTree (h : Heap) (x : Nat) : Prop := (∀ y, Within h x y → y < h.size) ∧ Acc (fun c p => c ∈ h.kids p) x

/-- What is required of rphtml: parser and copier only add nodes; the root the parser returns and the copy are new; and the copy of a finite subtree looks like
the original. -/
structure World.Ok (w : World) : Prop where
  parse : ∀ h s h' r, w.ext.parse h s = .ok (h', r) → Added h h' ∧ h.size ≤ r ∧ r < h'.size
  added : ∀ h x, Added h (w.copy h x).1
  copy : ∀ h x, x < h.size → h.size ≤ (w.copy h x).2 ∧ (w.copy h x).2 < (w.copy h x).1.size
  same : ∀ h x, FiniteTree h x → SameTree h (w.copy h x).1 x (w.copy h x).2

/-- `x` is `r`, or the parent links lead from `x` to `r`. -/
def Belongs (h : Heap) (r x : Nat) : Prop := x = r ∨ Above h r x

end Visdom.Spec
