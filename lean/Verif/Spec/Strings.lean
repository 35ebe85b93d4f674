/-!
# Specification: tokens, case folding

Independent of the model.
-/
namespace Visdom.Spec

/-- The five ASCII white space characters: space, tab, line feed, form feed, carriage return. -/
def IsSpace (c : Char) : Prop := c.toNat = 32 ∨ c.toNat = 9 ∨ c.toNat = 10 ∨ c.toNat = 12 ∨ c.toNat = 13

/-- A token: not empty, no white space inside. -/
def IsToken (t : List Char) : Prop := t ≠ [] ∧ ∀ c ∈ t, ¬ IsSpace c

instance (c : Char) : Decidable (IsSpace c) := by unfold IsSpace; infer_instance
instance (t : List Char) : Decidable (IsToken t) := by unfold IsToken; infer_instance

/-- `Tokens s l`: `l` lists the maximal space-free runs of `s` from left to right. -/
inductive Tokens : List Char → List (List Char) → Prop
  | blank (g : List Char) (hg : ∀ c ∈ g, IsSpace c) : Tokens g []
  | token (g t rest : List Char) (l : List (List Char)) (hg : ∀ c ∈ g, IsSpace c) (ht : IsToken t)
      (hr : ∀ c, rest.head? = some c → IsSpace c) (h : Tokens rest l) : Tokens (g ++ t ++ rest) (t :: l)

/-- ASCII lower case of one character, by code point. -/
def lowerCode (c : Char) : Nat := if 65 ≤ c.toNat ∧ c.toNat ≤ 90 then c.toNat + 32 else c.toNat

/-- Two strings are the same up to ASCII letter case. -/
def SameIgnoringCase (a b : List Char) : Prop := a.map lowerCode = b.map lowerCode
instance (a b : List Char) : Decidable (SameIgnoringCase a b) := by unfold SameIgnoringCase; infer_instance

end Visdom.Spec
