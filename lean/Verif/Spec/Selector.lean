import Verif.Spec.Select
import Verif.Spec.AttrRule
import Verif.Spec.Nth
import Verif.Spec.Strings
import Verif.Proofs.Attr
/-!
# Specification: selectors and what they match

The syntax of selectors and the meaning of each part, read off the names, attributes (as `get_attribute`
reads them, `viewOf`) and child lists of a tree. Nothing here refers to the matchers of the library.
-/
namespace Visdom.Spec

/-- What the library takes from rphtml while matching: the element with an id in the tree of a root, whether a root
is a document (not a fragment), and the rendered text of a node. -/
structure Env where
  byId : Nat → List Char → Option Nat
  isDoc : Nat → Bool
  text : Nat → List Char

/-- Simple selectors. A complex selector is a list of compounds, each with the combinator in front of it. -/
inductive Sim where
  /-- `*` -/
  | all
  /-- `div` -/
  | name (n : List Char)
  /-- `.c` -/
  | cls (c : List Char)
  /-- `#i` -/
  | id (i : List Char)
  /-- `[a]` -/
  | attr (key : List Char)
  /-- `[a=v]` and the other tests -/
  | attrTest (key : List Char) (t : AttrTest) (v : List Char)
  /-- `:nth-child(an+b)`, `:nth-last-child`, `:nth-of-type`, `:nth-last-of-type` -/
  | nth (last ofType : Bool) (a b : Int)
  /-- the same with a plain number -/
  | nthIdx (last ofType : Bool) (b : Int)
  /-- `:first-child`, `:last-child`, `:first-of-type`, `:last-of-type` -/
  | edge (last ofType : Bool)
  /-- `:only-child`, `:only-of-type` -/
  | only (ofType : Bool)
  /-- `:root` -/
  | root
  /-- `:empty` -/
  | empty
  /-- `:contains(t)` -/
  | contains (t : List Char)
  /-- `:checked` -/
  | checked
  /-- `:not(s, …)` -/
  | not (sel : List (List (Comb × List Sim)))
  /-- `:has(s, …)` -/
  | has (sel : List (List (Comb × List Sim)))
  /-- an alias for a selector list: `:header`, `:input`, `:submit` -/
  | alias (sel : List (List (Comb × List Sim)))

/-- A complex selector. -/
abbrev Complex := List (Comb × List Sim)

section
variable (h : Heap) (r : Nat)

/-- The element has the tag name, up to letter case. -/
def Named (n : List Char) (x : Nat) : Prop := h.isElem x = true ∧ SameIgnoringCase (h.node x).name n

/-- The element children of `p`, of the type of `x` only if `ofType`, counted from the end if `last`. -/
def group (last ofType : Bool) (p x : Nat) : List Nat :=
  let l := (h.kids p).filter fun y => h.isElem y && (!ofType || decide (SameIgnoringCase (h.node y).name (h.node x).name))
  if last then l.reverse else l

/-- `x` is at the 1-based position `j` among its siblings. -/
def AtPos (last ofType : Bool) (x j : Nat) : Prop :=
  ∃ p i : Nat, Within h r p ∧ x ∈ h.kids p ∧ (group h last ofType p x)[i]? = some x ∧ j = i + 1

/-- The attribute is present. -/
def HasAttr (key : List Char) (x : Nat) : Prop := viewOf (h.node x).attrs key ≠ none

/-- There is a selected `option` at or below the element, not inside another `option`. -/
inductive SelectedIn : Nat → Prop
  | here {y} : Named h "option".toList y → HasAttr h "selected".toList y → SelectedIn y
  | inside {y c} : ¬ Named h "option".toList y → c ∈ h.kids y → h.isElem c = true → SelectedIn c → SelectedIn y

/-- A checked input, a selected option, or the first option of a `select` that has no selected one. -/
def Checked (x : Nat) : Prop :=
  (Named h "input".toList x ∧ (∃ v, viewOf (h.node x).attrs "type".toList = some (some v) ∧
      (SameIgnoringCase v "checkbox".toList ∨ SameIgnoringCase v "radio".toList)) ∧ HasAttr h "checked".toList x) ∨
  (Named h "option".toList x ∧ (HasAttr h "selected".toList x ∨
    ((∃ p, Within h r p ∧ x ∈ h.kids p ∧ Named h "select".toList p ∧ ¬ HasAttr h "multiple".toList p) ∧
      (∀ y, LaterSib h r y x → ¬ Named h "option".toList y) ∧
      ∀ y, LaterSib h r x y → h.isElem y = true → ¬ SelectedIn h y)))

variable (env : Env)

open Classical in
mutual
/-- The element `x` satisfies the simple selector. -/
noncomputable def Sim.Sat : Sim → Nat → Prop
  | .all, _ => True
  | .name n, x => Named h n x
  | .cls c, x => ∃ l, ClassList (viewOf (h.node x).attrs) l ∧ c ∈ l
  | .id i, x => env.byId r i = some x
  | .attr key, x => HasAttr h key x
  | .attrTest key t v, x => t.Holds v (viewOf (h.node x).attrs key)
  | .nth last ofType a b, x => ∃ j, AtPos h r last ofType x j ∧ NthSelects a b j
  | .nthIdx last ofType b, x => ∃ j : Nat, AtPos h r last ofType x j ∧ (j : Int) = b
  | .edge last ofType, x => AtPos h r last ofType x 1
  | .only ofType, x => AtPos h r false ofType x 1 ∧ AtPos h r true ofType x 1
  | .root, x => Named h "html".toList x ∧ x ∈ h.kids r ∧ env.isDoc r = true
  | .empty, x => ∀ c ∈ h.kids x, (h.node c).kind = .comment
  | .contains t, x => ∃ u v, env.text x = u ++ t ++ v
  | .checked, x => Checked h r x
  | .not sel, x => ¬ anySat sel x
  | .has sel, x => ∃ e, Below h x e ∧ h.isElem e = true ∧ anySat sel e
  | .alias sel, x => anySat sel x
/-- The element matches one of the complex selectors, anywhere in the document. -/
noncomputable def anySat : List (List (Comb × List Sim)) → Nat → Prop
  | [], _ => False
  | c :: cs, x => Sel h r (· = r) (steps c) x ∨ anySat cs x
/-- The steps of a complex selector. -/
noncomputable def steps : List (Comb × List Sim) → List (Comb × (Nat → Bool))
  | [] => []
  | s :: l => step s :: steps l
/-- One step. -/
noncomputable def step : Comb × List Sim → Comb × (Nat → Bool)
  | (c, ss) => (c, fun x => decide (cmpdSat ss x))
/-- The element satisfies all simple selectors. -/
noncomputable def cmpdSat : List Sim → Nat → Prop
  | [], _ => True
  | s :: ss, x => s.Sat x ∧ cmpdSat ss x
end

end

/-- The attribute tables of the elements are consistent. -/
def Metas (h : Heap) (r : Nat) : Prop := ∀ x, Within h r x → h.isElem x = true → MetaWF (h.node x).attrs

/-- Every node of the tree knows its root. Nodes moved from another tree do not: the library leaves their link to the old root. -/
def Roots (h : Heap) (r : Nat) : Prop := ∀ x, Within h r x → (h.node x).root = some r

/-- The id leads to an element of the tree, if to anything. -/
def IdOk (h : Heap) (r : Nat) (env : Env) (i : List Char) : Prop := ∀ e, env.byId r i = some e → Within h r e ∧ h.isElem e = true

/-- What is taken for granted of a parsed document: ids lead to elements of the tree, every node knows the root, and
the attribute tables are consistent (`MetaWF` holds after parsing and is kept by the attribute methods, C04–C09). -/
structure EnvOk (h : Heap) (r : Nat) (env : Env) : Prop where
  ids : ∀ i, IdOk h r env i
  roots : Roots h r
  metas : Metas h r

end Visdom.Spec
