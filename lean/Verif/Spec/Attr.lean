import Verif.Spec.Strings
/-!
# Specification: an attribute store is a finite map under ASCII case-insensitive names

Independent of the model. `none`: absent; `some none`: present without a value; `some (some v)`: value `v`.
-/
namespace Visdom.Spec

/-- What a reader sees under a name. -/
abbrev Store := List Char → Option (Option (List Char))

/-- A user-level attribute operation. -/
inductive AttrOp where
  | set (name : List Char) (value : Option (List Char))
  | remove (name : List Char)

/-- Last write wins; a removal erases; other names are untouched. -/
def AttrOp.apply (s : Store) : AttrOp → Store
  | .set n v => fun k => if SameIgnoringCase k n then some v else s k
  | .remove n => fun k => if SameIgnoringCase k n then none else s k

/-- A whole history, oldest operation first. -/
def runStore (s : Store) (ops : List AttrOp) : Store := ops.foldl AttrOp.apply s

/-- The names of the attributes in the order in which they were first written: a new name goes to the end, in lower case;
writing a present name keeps its place; a removed name is gone. -/
def AttrOp.names (l : List (List Char)) : AttrOp → List (List Char)
  | .set n _ => if ∃ k ∈ l, SameIgnoringCase k n then l else l ++ [n.map fun c => Char.ofNat (lowerCode c)]
  | .remove n => l.filter fun k => decide (¬ SameIgnoringCase k n)

/-- The classes of an element with the given attributes, in order: the tokens of `class`. -/
def ClassList (s : Store) (l : List (List Char)) : Prop :=
  match s ['c', 'l', 'a', 's', 's'] with
  | some (some v) => Tokens v l
  | _ => l = []

/-- White space outside the five ASCII ones: vertical tab and the Unicode spaces. -/
def ExoticSpace (c : Char) : Prop :=
  c.toNat = 11 ∨ c.toNat = 0x85 ∨ c.toNat = 0xA0 ∨ c.toNat = 0x1680 ∨ (0x2000 ≤ c.toNat ∧ c.toNat ≤ 0x200A)
    ∨ c.toNat = 0x2028 ∨ c.toNat = 0x2029 ∨ c.toNat = 0x202F ∨ c.toNat = 0x205F ∨ c.toNat = 0x3000
instance (c : Char) : Decidable (ExoticSpace c) := by unfold ExoticSpace; infer_instance

end Visdom.Spec
