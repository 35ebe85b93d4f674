import Verif.Model.Basic
/-!
# Model of `src/mesdoc/utils.rs`
-/
namespace Visdom

/-- `char::is_ascii_whitespace` (std): U+0020, U+0009, U+000A, U+000C, U+000D. `utils.rs:62`, `133`, `pattern.rs:171`, `rule.rs:149`. -/
def isAsciiWs (c : Char) : Bool :=
  c == ' ' || c == '\t' || c == '\n' || c == Char.ofNat 12 || c == '\r'

/-- `char::is_ascii_lowercase` range test `'a'..='z'`. `utils.rs:183`. -/
def isLowerAZ (c : Char) : Bool := 97 ≤ c.toNat && c.toNat ≤ 122
/-- `'A'..='Z'`. `utils.rs:188`. -/
def isUpperAZ (c : Char) : Bool := 65 ≤ c.toNat && c.toNat ≤ 90
/-- `'0'..='9'`. `pattern.rs:198`, `utils.rs:59`. -/
def isDigit09 (c : Char) : Bool := 48 ≤ c.toNat && c.toNat ≤ 57

/-- `char::to_ascii_lowercase`. `utils.rs:189`, `lib.rs:447`. -/
def asciiLower (c : Char) : Char := if isUpperAZ c then Char.ofNat (c.toNat + 32) else c
/-- `char::to_ascii_uppercase`. `utils.rs:184`. -/
def asciiUpper (c : Char) : Char := if isLowerAZ c then Char.ofNat (c.toNat - 32) else c
/-- `char::is_ascii_alphabetic`. `pattern.rs:97`. -/
def isAsciiAlpha (c : Char) : Bool := isLowerAZ c || isUpperAZ c
/-- `char::is_ascii_alphanumeric`. `utils.rs:59`, `pattern.rs:105`, `rule.rs:239`. -/
def isAsciiAlnum (c : Char) : Bool := isAsciiAlpha c || isDigit09 c
/-- `char::is_ascii_control`. `utils.rs:63`. -/
def isAsciiControl (c : Char) : Bool := c.toNat < 32 || c.toNat == 127
/-- `char::is_ascii_punctuation`: 33-47, 58-64, 91-96, 123-126. `utils.rs:65`. -/
def isAsciiPunct (c : Char) : Bool :=
  let n := c.toNat
  (33 ≤ n && n ≤ 47) || (58 ≤ n && n ≤ 64) || (91 ≤ n && n ≤ 96) || (123 ≤ n && n ≤ 126)

/-- `utils.rs:11-51 is_non_character`: U+FDD0..U+FDEF and the last two code points of every plane. -/
def isNonCharacter (c : Char) : Bool :=
  let n := c.toNat
  (0xFDD0 ≤ n && n ≤ 0xFDEF) || n % 0x10000 == 0xFFFE || n % 0x10000 == 0xFFFF

/-- `utils.rs:58-71 is_char_available_in_key`. -/
def isCharAvailableInKey (c : Char) : Bool :=
  if isAsciiAlnum c || ['_', '-', '.', ':'].contains c then true
  else if isAsciiWs c || isAsciiControl c || isNonCharacter c || isAsciiPunct c || c == Char.ofNat 0 then
    false
  else true

/-- `utils.rs:73-77 RoundType`. -/
inductive RoundType | floor | ceil | round
  deriving DecidableEq, Repr

/-- `utils.rs:78-111 divide_isize`. `/` and `%` on `isize` truncate towards zero (`Int.tdiv`, `Int.tmod`).
Simplified: unbounded integers (no overflow of intermediate values; checked in `divideChecked`, `Model/Checked.lean`); `b = 0` panics in Rust and is
not given a panic here because both callers pass a positive divisor. -/
def divideIsize (a b : Int) (r : RoundType) : Int :=
  let res := a.tdiv b
  let rem := a.tmod b
  match r with
  | .floor => if res < 0 ∧ rem ≠ 0 then res - 1 else res
  | .ceil => if res > 0 ∧ rem ≠ 0 then res + 1 else res
  | .round =>
    if res ≠ 0 ∧ rem ≠ 0 then
      let symbol : Int := if res < 0 then -1 else 1
      let total := rem * 2 - symbol * b
      if (total ≥ 0 ∧ a > 0) ∨ (total ≤ 0 ∧ a < 0) then res + symbol else res
    else res

/-- `Vec::remove(i)` (std): out of range panics, otherwise the later elements shift left. `utils.rs:115`. -/
def vecRemove {α : Type} (v : List α) (i : Nat) : R (List α) :=
  if i < v.length then .ok (v.eraseIdx i) else .error .outOfBounds

/-- The loop of `utils.rs:113-125 retain_by_index` from loop counter `i` on:
`v.remove(index - i)`; the subtraction is on `usize`. -/
def retainByIndexFrom {α : Type} (i : Nat) (v : List α) : List Nat → R (List α)
  | [] => .ok v
  | index :: rest =>
    if index < i then .error .overflow
    else match vecRemove v (index - i) with
      | .error e => .error e
      | .ok v' => retainByIndexFrom (i + 1) v' rest

/-- `utils.rs:113-125 retain_by_index`. -/
def retainByIndex {α : Type} (v : List α) (indexs : List Nat) : R (List α) :=
  retainByIndexFrom 0 v indexs

/-- State of the loop of `utils.rs:128-152 get_class_list`: the list so far, the current name, and
`prev_is_whitespace`. -/
structure ClassLoop where
  list : List (List Char) := []
  name : List Char := []
  prevWs : Bool := true

/-- One iteration of the loop of `get_class_list` (`utils.rs:132-146`). -/
def classStep (s : ClassLoop) (ch : Char) : ClassLoop :=
  if isAsciiWs ch then
    if s.prevWs then s
    else { list := s.list ++ [s.name], name := [], prevWs := true }
  else { s with name := s.name ++ [ch], prevWs := false }

/-- `utils.rs:128-152 get_class_list`. -/
def getClassList (attr : List Char) : List (List Char) :=
  let s := attr.foldl classStep {}
  if s.prevWs then s.list else s.list ++ [s.name]

/-- `utils.rs:155-171 class_list_to_string`. The names `class_list[..last]` are each followed by one
space, then the last name. -/
def classListToString (l : List (List Char)) : List Char :=
  match l.getLast? with
  | none => []
  | some last => (l.dropLast.flatMap fun name => name ++ [' ']) ++ last

/-- `utils.rs:173-200 is_equal_chars_ignore_case`. -/
def isEqualCharsIgnoreCase (target cmp : List Char) : Bool :=
  if target.length ≠ cmp.length then false
  else (target.zip cmp).all fun (ch, cmpCh) =>
    cmpCh == ch ||
    (if isLowerAZ cmpCh then asciiUpper cmpCh == ch
     else if isUpperAZ cmpCh then asciiLower cmpCh == ch
     else false)

/-- `utils.rs:202-214 is_equal_chars`. -/
def isEqualChars (target cmp : List Char) : Bool :=
  if target.length = cmp.length then (target.zip cmp).all fun (a, b) => a == b else false

/-- The loop of `utils.rs:216-234 contains_chars_nocheck` from `start_index` on; `k` counts the
remaining start positions (`max_start_index - start_index + 1`). -/
def containsFrom (target search : List Char) : Nat → Nat → Bool
  | 0, _ => false
  | k + 1, start =>
    if (((target.drop start).take search.length).zip search).all (fun (a, b) => a == b) then true
    else containsFrom target search k (start + 1)

/-- `utils.rs:236-243 contains_chars`. -/
def containsChars (target search : List Char) : Bool :=
  if target.length < search.length then false
  else containsFrom target search (target.length - search.length + 1) 0

end Visdom
