import Verif.Spec.White
import Verif.Spec.Selector
import Verif.Spec.Pseudo
/-!
# Specification: the texts of a selector

Which texts denote a selector. White space may be put around combinators, commas, inside brackets and parentheses, at the
beginning and at the end; attribute values may be bare or quoted; characters of identifiers may be escaped.
Nothing here refers to the parser.
-/
namespace Visdom.Spec

/-- CSS white space. -/
def Blank (t : List Char) : Prop := ∀ c ∈ t, c = ' ' ∨ c = '\t' ∨ c = '\n' ∨ c = '\r' ∨ c = Char.ofNat 12

/-- An ASCII letter or `_`. -/
def NameStart (c : Char) : Prop :=
  (97 ≤ c.toNat ∧ c.toNat ≤ 122) ∨ (65 ≤ c.toNat ∧ c.toNat ≤ 90) ∨ c = '_'
/-- An ASCII digit. -/
def Digit (c : Char) : Prop := 48 ≤ c.toNat ∧ c.toNat ≤ 57
/-- A character of an identifier that needs no escape. -/
def NameChar (c : Char) : Prop := NameStart c ∨ Digit c ∨ c = '-'

/-- The rest of an identifier and a text of it. -/
inductive IdTail : List Char → List Char → Prop
  | nil : IdTail [] []
  | plain {c : Char} {n t : List Char} : NameChar c → IdTail n t → IdTail (c :: n) (c :: t)
  | esc {c : Char} {n t : List Char} : IdTail n t → IdTail (c :: n) ('\\' :: c :: t)
/-- An identifier and a text of it. -/
inductive IdText : List Char → List Char → Prop
  | mk {c : Char} {n t : List Char} : NameStart c → IdTail n t → IdText (c :: n) (c :: t)

/-- A character of an attribute name. -/
def KeyChar (c : Char) : Prop :=
  NameChar c ∨ c = '.' ∨ c = ':' ∨
    (128 ≤ c.toNat ∧ ¬ (0xFDD0 ≤ c.toNat ∧ c.toNat ≤ 0xFDEF) ∧ c.toNat % 0x10000 ≠ 0xFFFE ∧ c.toNat % 0x10000 ≠ 0xFFFF)
/-- An attribute name. -/
def KeyText (t : List Char) : Prop := t ≠ [] ∧ ∀ c ∈ t, KeyChar c

/-- `v` can stand between quotes `q`: no line feed, every quote is escaped, and the last character is not a backslash.
`esc`: the character before is a backslash. -/
def Quotable (q : Char) : Bool → List Char → Prop
  | esc, [] => esc = false
  | esc, c :: v => c ≠ '\n' ∧ (c = q → esc = true) ∧ Quotable q (c == '\\') v
/-- A value that needs no quotes. `close` ends the surrounding construct. -/
def BareValue (close : Char) (v : List Char) : Prop :=
  ∀ c ∈ v, ¬ WhiteSpace c ∧ c ≠ close ∧ c ∉ ['\'', '"', '<', '>', '/', '=', '`']
/-- A value and a text of it (escapes inside quotes are part of the value). -/
inductive ValueText (close : Char) : List Char → List Char → Prop
  | bare {v : List Char} : v ≠ [] → BareValue close v → ValueText close v v
  | quoted {q : Char} {v : List Char} : q = '\'' ∨ q = '"' → Quotable q false v → ValueText close v (q :: (v ++ [q]))

/-- The text of the operator of an attribute test, before `=`. -/
def testText : AttrTest → List Char
  | .equals => []
  | .startsWith => ['^']
  | .endsWith => ['$']
  | .contains => ['*']
  | .dashMatch => ['|']
  | .hasWord => ['~']
  | .differs => ['!']

/-- The number a list of decimal digits denotes. -/
def decimal (t : List Char) : Nat := t.foldl (fun a c => a * 10 + (c.toNat - 48)) 0
/-- Decimal digits without a leading zero, in the range of `isize`. -/
def NumText (k : Nat) (t : List Char) : Prop :=
  (∀ c ∈ t, Digit c) ∧ t ≠ [] ∧ (t.head? = some '0' → t = ['0']) ∧ decimal t = k ∧ k < 2 ^ 63
/-- A sign. -/
inductive SignText : Bool → List Char → Prop
  | plus : SignText false ['+']
  | minus : SignText true ['-']
/-- A sign that may be omitted. -/
inductive SignText? : Bool → List Char → Prop
  | none : SignText? false []
  | some {b : Bool} {t : List Char} : SignText b t → SignText? b t
/-- The number with its sign. -/
def signed (neg : Bool) (k : Nat) : Int := if neg then -(k : Int) else k
/-- `a` of `an+b`; it may be omitted if it is 1. -/
inductive CoefText : Nat → List Char → Prop
  | none : CoefText 1 []
  | some {k : Nat} {t : List Char} : NumText k t → CoefText k t

/-- `an+b` and its texts. -/
inductive NthText : Int → Int → List Char → Prop
  | an {neg : Bool} {k : Nat} {s t : List Char} : SignText? neg s → CoefText k t → NthText (signed neg k) 0 (s ++ t ++ ['n'])
  | anb {neg neg' : Bool} {k k' : Nat} {s t w s' w' t' : List Char} : SignText? neg s → CoefText k t → Blank w →
      SignText neg' s' → Blank w' → NumText k' t' →
      NthText (signed neg k) (signed neg' k') (s ++ t ++ 'n' :: (w ++ s' ++ w' ++ t'))
  | even : NthText 2 0 ['e', 'v', 'e', 'n']
  | odd : NthText 2 1 ['o', 'd', 'd']
/-- A plain number and its texts. -/
inductive IdxText : Int → List Char → Prop
  | mk {neg : Bool} {k : Nat} {s t : List Char} : SignText? neg s → NumText k t → IdxText (signed neg k) (s ++ t)

/-- The pseudo-classes of the shape `:nth-child(…)`. -/
def nthHead (last ofType : Bool) : List Char :=
  match last, ofType with
  | false, false => [':', 'n', 't', 'h', '-', 'c', 'h', 'i', 'l', 'd', '(']
  | true, false => [':', 'n', 't', 'h', '-', 'l', 'a', 's', 't', '-', 'c', 'h', 'i', 'l', 'd', '(']
  | false, true => [':', 'n', 't', 'h', '-', 'o', 'f', '-', 't', 'y', 'p', 'e', '(']
  | true, true => [':', 'n', 't', 'h', '-', 'l', 'a', 's', 't', '-', 'o', 'f', '-', 't', 'y', 'p', 'e', '(']
/-- `:first-child` and the like. -/
def edgeText (last ofType : Bool) : List Char :=
  match last, ofType with
  | false, false => [':', 'f', 'i', 'r', 's', 't', '-', 'c', 'h', 'i', 'l', 'd']
  | true, false => [':', 'l', 'a', 's', 't', '-', 'c', 'h', 'i', 'l', 'd']
  | false, true => [':', 'f', 'i', 'r', 's', 't', '-', 'o', 'f', '-', 't', 'y', 'p', 'e']
  | true, true => [':', 'l', 'a', 's', 't', '-', 'o', 'f', '-', 't', 'y', 'p', 'e']
/-- `:only-child`, `:only-of-type`. -/
def onlyText (ofType : Bool) : List Char :=
  if ofType then [':', 'o', 'n', 'l', 'y', '-', 'o', 'f', '-', 't', 'y', 'p', 'e']
  else [':', 'o', 'n', 'l', 'y', '-', 'c', 'h', 'i', 'l', 'd']

/-- A simple selector and its texts. `P` is the relation for nested selectors. -/
inductive SimText (P : List Complex → List Char → Prop) : Sim → List Char → Prop
  | all : SimText P .all ['*']
  | name {n t : List Char} : IdText n t → SimText P (.name n) t
  | cls {n t : List Char} : IdText n t → SimText P (.cls n) ('.' :: t)
  | id {n t : List Char} : IdText n t → SimText P (.id n) ('#' :: t)
  | attr {w k w' : List Char} : Blank w → KeyText k → Blank w' → SimText P (.attr k) ('[' :: (w ++ k ++ w' ++ [']']))
  | attrTest {w k w' w'' v t w''' : List Char} {o : AttrTest} : Blank w → KeyText k → Blank w' → Blank w'' →
      ValueText ']' v t → Blank w''' →
      SimText P (.attrTest k o v) ('[' :: (w ++ k ++ w' ++ (testText o ++ '=' :: (w'' ++ t)) ++ w''' ++ [']']))
  | nth {last ofType : Bool} {a b : Int} {w t w' : List Char} : Blank w → NthText a b t → Blank w' →
      SimText P (.nth last ofType a b) (nthHead last ofType ++ (w ++ t ++ w' ++ [')']))
  | nthIdx {last ofType : Bool} {b : Int} {w t w' : List Char} : Blank w → IdxText b t → Blank w' →
      SimText P (.nthIdx last ofType b) (nthHead last ofType ++ (w ++ t ++ w' ++ [')']))
  | edge {last ofType : Bool} : SimText P (.edge last ofType) (edgeText last ofType)
  | only {ofType : Bool} : SimText P (.only ofType) (onlyText ofType)
  | root : SimText P .root [':', 'r', 'o', 'o', 't']
  | empty : SimText P .empty [':', 'e', 'm', 'p', 't', 'y']
  | contains {w v t w' : List Char} : Blank w → ValueText ')' v t → Blank w' →
      SimText P (.contains v) ([':', 'c', 'o', 'n', 't', 'a', 'i', 'n', 's', '('] ++ (w ++ t ++ w' ++ [')']))
  | checked : SimText P .checked [':', 'c', 'h', 'e', 'c', 'k', 'e', 'd']
  | header : SimText P (.alias headerSel) [':', 'h', 'e', 'a', 'd', 'e', 'r']
  | input : SimText P (.alias inputSel) [':', 'i', 'n', 'p', 'u', 't']
  | submit : SimText P (.alias submitSel) [':', 's', 'u', 'b', 'm', 'i', 't']
  | not {sel : List Complex} {w t w' : List Char} : Blank w → P sel t → Blank w' →
      SimText P (.not sel) ([':', 'n', 'o', 't', '('] ++ (w ++ t ++ w' ++ [')']))
  | has {sel : List Complex} {w t w' : List Char} : Blank w → P sel t → Blank w' →
      SimText P (.has sel) ([':', 'h', 'a', 's', '('] ++ (w ++ t ++ w' ++ [')']))

/-- The text of the selector ends with an identifier, which a following type selector would extend. -/
def Sim.endsIdent : Sim → Bool
  | .name _ | .cls _ | .id _ => true
  | _ => false
/-- A type selector. -/
def Sim.isName : Sim → Bool
  | .name _ => true
  | _ => false

/-- A compound selector and its texts: the simple selectors one after the other. -/
inductive CmpdText (P : List Complex → List Char → Prop) : List Sim → List Char → Prop
  | one {s : Sim} {t : List Char} : SimText P s t → CmpdText P [s] t
  | cons {s s' : Sim} {l : List Sim} {t u : List Char} : SimText P s t → (s'.isName = true → s.endsIdent = false) →
      CmpdText P (s' :: l) u → CmpdText P (s :: s' :: l) (t ++ u)

/-- The character of a combinator. -/
def combChar : Comb → Option Char
  | .children => some '>'
  | .nextAll => some '~'
  | .next => some '+'
  | _ => none
/-- A combinator between compounds: the descendant combinator is white space. -/
inductive CombText : Comb → List Char → Prop
  | desc {w : List Char} : w ≠ [] → Blank w → CombText .childrenAll w
  | sign {c : Comb} {x : Char} {w w' : List Char} : combChar c = some x → Blank w → Blank w' → CombText c (w ++ x :: w')
/-- A combinator at the beginning of a selector. -/
inductive HeadText : Comb → List Char → Prop
  | desc : HeadText .childrenAll []
  | sign {c : Comb} {x : Char} {w : List Char} : combChar c = some x → Blank w → HeadText c (x :: w)

/-- The compounds after the first one. -/
inductive StepsText (P : List Complex → List Char → Prop) : Complex → List Char → Prop
  | nil : StepsText P [] []
  | cons {c : Comb} {ss : List Sim} {l : Complex} {t u v : List Char} : CombText c t → CmpdText P ss u →
      StepsText P l v → StepsText P ((c, ss) :: l) (t ++ (u ++ v))
/-- The complex selectors after the first one. They begin without a combinator. -/
inductive AltsText (P : List Complex → List Char → Prop) : List Complex → List Char → Prop
  | nil : AltsText P [] []
  | cons {ss : List Sim} {l : Complex} {sel : List Complex} {w w' u v z : List Char} : Blank w → Blank w' →
      CmpdText P ss u → StepsText P l v → AltsText P sel z →
      AltsText P (((.childrenAll, ss) :: l) :: sel) (w ++ ',' :: (w' ++ (u ++ (v ++ z))))
/-- A selector list without white space around it. -/
inductive CoreText (P : List Complex → List Char → Prop) : List Complex → List Char → Prop
  | mk {c : Comb} {ss : List Sim} {l : Complex} {sel : List Complex} {t u v z : List Char} : HeadText c t →
      CmpdText P ss u → StepsText P l v → AltsText P sel z →
      CoreText P (((c, ss) :: l) :: sel) (t ++ (u ++ (v ++ z)))

/-- `:not` or `:has`. -/
def Sim.isNest : Sim → Bool
  | .not _ | .has _ => true
  | _ => false
/-- All simple selectors, in order. -/
def simsOf (sel : List Complex) : List Sim := sel.flatMap fun c => c.flatMap (·.2)
/-- A selector with a nested selector in it can itself be nested only if nothing follows it. -/
def NestLast (sel : List Complex) : Prop := ∀ s ∈ (simsOf sel).dropLast, s.isNest = false

/-- The texts of selectors in which `:not` and `:has` are nested to a depth below `d`. -/
def CoreD : Nat → List Complex → List Char → Prop
  | 0 => CoreText fun _ _ => False
  | d + 1 => CoreText fun sel t => CoreD d sel t ∧ NestLast sel

/-- A selector list and its texts. -/
def SelText (sel : List Complex) (text : List Char) : Prop :=
  ∃ d w t w', CoreD d sel t ∧ Blank w ∧ Blank w' ∧ text = w ++ t ++ w'

/-- The texts of all selectors, also those with something after a nested `:not` or `:has`. -/
def FullD : Nat → List Complex → List Char → Prop
  | 0 => CoreText fun _ _ => False
  | d + 1 => CoreText (FullD d)

end Visdom.Spec
