import Verif.Model.Pattern
/-!
# What the text of a rule denotes
-/
namespace Visdom.Spec

/-- A piece of a rule: a character, a placeholder, or a placeholder with a parameter between `k` hashes and blanks before
the closing brace. -/
inductive Piece where
  | chr (c : Char)
  | hole (name : List Char)
  | quoted (name : List Char) (k : Nat) (param ws : List Char)

/-- How a piece is written; braces are doubled. -/
def Piece.text : Piece → List Char
  | .chr c => if c = '{' ∨ c = '}' then [c, c] else [c]
  | .hole n => '{' :: n ++ ['}']
  | .quoted n k p ws => '{' :: n ++ List.replicate k '#' ++ p ++ List.replicate k '#' ++ ws ++ ['}']

/-- How a sequence of pieces is written. -/
def written (l : List Piece) : List Char := l.flatMap Piece.text

/-- The patterns placeholders stand for. -/
inductive Names : List Char → Pat → Prop
  | identity : Names "identity".toList .identity
  | spaces : Names "spaces".toList .spaces
  | attrKey : Names "attr_key".toList .attrKey
  | nth : Names "nth".toList .nth
  | regexp : Names "regexp".toList (.regexp [])
  | selector : Names "selector".toList .nested

/-- A parameter that can stand between `k` hashes: it is not empty, begins neither with `#` nor with `}`, does not end
with `#` and does not contain `k` hashes in a row. -/
structure Quoted (k : Nat) (p : List Char) : Prop where
  pos : 0 < k
  ne : p ≠ []
  first : p.head? ≠ some '#' ∧ p.head? ≠ some '}'
  last : p.getLast? ≠ some '#'
  inner : ¬ List.replicate k '#' <:+: p

/-- The characters before a placeholder are one literal pattern, unless there are none. -/
def literal (acc : List Char) : List Pat := if acc.isEmpty then [] else [.lit acc]

/-- The patterns a sequence of pieces denotes, given the characters read since the last placeholder. A single character
at the very end is the pattern of a character. -/
inductive Denotes : List Char → List Piece → List Pat → Prop
  | done : Denotes [] [] []
  | one (c : Char) : Denotes [c] [] [.chr c]
  | many (a b : Char) (l : List Char) : Denotes (a :: b :: l) [] [.lit (a :: b :: l)]
  | chr {acc : List Char} {c : Char} {l : List Piece} {ps : List Pat} : Denotes (acc ++ [c]) l ps → Denotes acc (.chr c :: l) ps
  | hole {acc n : List Char} {p : Pat} {l : List Piece} {ps : List Pat} :
      Names n p → Denotes [] l ps → Denotes acc (.hole n :: l) (literal acc ++ p :: ps)
  | quoted {acc : List Char} {k : Nat} {p ws : List Char} {l : List Piece} {ps : List Pat} :
      Quoted k p → (∀ c ∈ ws, c ∈ [' ', '\t', '\n', '\r', '\x0c']) → Denotes [] l ps →
      Denotes acc (.quoted "regexp".toList k p ws :: l) (literal acc ++ .regexp p :: ps)

/-- A name made of letters, digits and underscores. -/
def Wordy (n : List Char) : Prop :=
  n ≠ [] ∧ ∀ c ∈ n, ('a' ≤ c ∧ c ≤ 'z') ∨ ('A' ≤ c ∧ c ≤ 'Z') ∨ ('0' ≤ c ∧ c ≤ '9') ∨ c = '_'

/-- Texts of placeholders that are errors. -/
inductive Wrong : List Char → Prop
  /-- a name that is not registered -/
  | unknown {n : List Char} : Wordy n → (∀ p, ¬ Names n p) → Wrong ('{' :: n ++ ['}'])
  /-- a parameter for a placeholder that takes none -/
  | param {n : List Char} {k : Nat} {p ws : List Char} : Wordy n → n ≠ "regexp".toList → Quoted k p →
      k - 1 ≤ (p.takeWhile (· ≠ '#')).length → (∀ c ∈ ws, c ∈ [' ', '\t', '\n', '\r', '\x0c']) →
      Wrong ('{' :: n ++ List.replicate k '#' ++ p ++ List.replicate k '#' ++ ws ++ ['}'])
  /-- other characters after the name: no placeholder takes a suffix -/
  | suffix {n : List Char} {c : Char} {r : List Char} : Wordy n → ¬ Wordy [c] → (∀ d ∈ c :: r, d ≠ '#' ∧ d ≠ '}') →
      Wrong ('{' :: n ++ c :: r ++ ['}'])
  /-- hashes without a parameter -/
  | hashes {n : List Char} {k : Nat} : Wordy n → 0 < k → Wrong ('{' :: n ++ List.replicate k '#' ++ ['}'])
  /-- something after a parameter -/
  | after {n : List Char} {k : Nat} {p ws : List Char} {c : Char} : Wordy n → Quoted k p →
      k - 1 ≤ (p.takeWhile (· ≠ '#')).length → (∀ c ∈ ws, c ∈ [' ', '\t', '\n', '\r', '\x0c']) →
      c ∉ [' ', '\t', '\n', '\r', '\x0c'] → c ≠ '}' →
      Wrong ('{' :: n ++ List.replicate k '#' ++ p ++ List.replicate k '#' ++ ws ++ [c])

end Visdom.Spec
