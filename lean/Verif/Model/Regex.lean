import Verif.Model.Attr
/-!
# The regular expressions of the selector parser

The `regex` crate is a dependency. Its documented semantics for a search anchored with `^` is modelled: leftmost-first,
that is, the match a backtracking matcher tries first (alternatives left to right, greedy repetitions longest first, lazy
ones shortest first). An iteration of a repetition that consumes nothing is not repeated. The four expressions the
library uses are transcribed by hand, each next to its text.
-/
namespace Visdom

/-- Regular expressions. `one` is a character class. For the texts of `attr.rs:11`, `pseudo.rs:857`, `pattern.rs:198`, `selector/mod.rs:16`. -/
inductive Re where
  | one (p : Char → Bool)
  | seq (a b : Re)
  | alt (a b : Re)
  /-- `a?` -/
  | opt (a : Re)
  /-- `a*` -/
  | many (a : Re)
  /-- `a*?` -/
  | lazy (a : Re)
  /-- the capturing group number `n` -/
  | grp (n : Nat) (a : Re)

/-- Captured groups, the latest first. Read in `pattern.rs:211-241`, `354-376`. -/
abbrev Caps := List (Nat × List Char)

/-- A group of `regex::Captures`. `pattern.rs:358-365`. -/
def capGet (c : Caps) (n : Nat) : Option (List Char) := (c.find? fun p => p.1 == n).map (·.2)

variable {α : Type}

/-- A greedy repetition of the matcher `f`. The first argument bounds the number of iterations. `*` and `+` in `attr.rs:11`, `pseudo.rs:857`, `pattern.rs:198`, `selector/mod.rs:16`. -/
def manyRun (f : Caps → List Char → (Caps → List Char → Option α) → Option α) :
    Nat → Caps → List Char → (Caps → List Char → Option α) → Option α
  | 0, c, s, k => k c s
  | n + 1, c, s, k =>
    match f c s fun c' s' => if s'.length < s.length then manyRun f n c' s' k else none with
    | some a => some a
    | none => k c s

/-- A lazy repetition of the matcher `f`. `*?` in `attr.rs:11` and `pseudo.rs:857`. -/
def lazyRun (f : Caps → List Char → (Caps → List Char → Option α) → Option α) :
    Nat → Caps → List Char → (Caps → List Char → Option α) → Option α
  | 0, c, s, k => k c s
  | n + 1, c, s, k =>
    match k c s with
    | some a => some a
    | none => f c s fun c' s' => if s'.length < s.length then lazyRun f n c' s' k else none

/-- The backtracking matcher: the first way to match the expression at the beginning of `s` that the continuation `k`
accepts. Called by `pattern.rs:195-241`, `354-376`. -/
def Re.run : Re → Caps → List Char → (Caps → List Char → Option α) → Option α
  | .one p, c, s, k =>
    match s with
    | x :: s' => if p x then k c s' else none
    | [] => none
  | .seq a b, c, s, k => a.run c s fun c' s' => b.run c' s' k
  | .alt a b, c, s, k =>
    match a.run c s k with
    | some x => some x
    | none => b.run c s k
  | .opt a, c, s, k =>
    match a.run c s k with
    | some x => some x
    | none => k c s
  | .many a, c, s, k => manyRun (fun c s k => a.run c s k) s.length c s k
  | .lazy a, c, s, k => lazyRun (fun c s k => a.run c s k) s.length c s k
  | .grp n a, c, s, k => a.run c s fun c' s' => k ((n, s.take (s.length - s'.length)) :: c') s'

/-- `a+`. In `attr.rs:11`, `selector/mod.rs:16`. -/
def Re.plus (a : Re) : Re := .seq a (.many a)
/-- One given character. In `attr.rs:11`, `pseudo.rs:857`, `pattern.rs:198`. -/
def Re.chr (x : Char) : Re := .one (· == x)

/-- `Regex::captures` of `^` followed by the expression: the number of characters matched and the groups. `pattern.rs:358`. -/
def Re.captures (re : Re) (s : List Char) : Option (Nat × Caps) :=
  re.run [] s fun c s' => some (s.length - s'.length, c)

/-- `\d`: the decimal digits (`Nd`) of Unicode 15: runs of ten from these code points, and 1D7CE-1D7FF. In `pattern.rs:198`. -/
def uniDigitZeros : List Nat :=
  [0x30, 0x660, 0x6F0, 0x7C0, 0x966, 0x9E6, 0xA66, 0xAE6, 0xB66, 0xBE6, 0xC66, 0xCE6, 0xD66, 0xDE6, 0xE50, 0xED0, 0xF20,
   0x1040, 0x1090, 0x17E0, 0x1810, 0x1946, 0x19D0, 0x1A80, 0x1A90, 0x1B50, 0x1BB0, 0x1C40, 0x1C50, 0xA620, 0xA8D0, 0xA900,
   0xA9D0, 0xA9F0, 0xAA50, 0xABF0, 0xFF10, 0x104A0, 0x10D30, 0x11066, 0x110F0, 0x11136, 0x111D0, 0x112F0, 0x11450,
   0x114D0, 0x11650, 0x116C0, 0x11730, 0x118E0, 0x11950, 0x11C50, 0x11D50, 0x11DA0, 0x11F50, 0x16A60, 0x16AC0, 0x16B50,
   0x1D7CE, 0x1D7D8, 0x1D7E2, 0x1D7EC, 0x1D7F6, 0x1E140, 0x1E2F0, 0x1E4F0, 0x1E950, 0x1FBF0]
/-- `\d`. In `pattern.rs:198`. -/
def isReDigit (c : Char) : Bool := uniDigitZeros.any fun z => z ≤ c.toNat && c.toNat ≤ z + 9
/-- `\s` (Unicode `White_Space`). In `attr.rs:11`, `pseudo.rs:857`, `pattern.rs:198`, `selector/mod.rs:16`. -/
def isReSpace (c : Char) : Bool := isUnicodeWs c
/-- `.`: anything but a line feed. In `attr.rs:11`, `pseudo.rs:857`. -/
def isReDot (c : Char) : Bool := !(c == '\n')
/-- `[1-9]`. In `pattern.rs:198`. -/
def isDigit19 (c : Char) : Bool := 49 ≤ c.toNat && c.toNat ≤ 57

/-- `[>,~+]`. In `selector/mod.rs:16`. -/
def isOp (c : Char) : Bool := ['>', ',', '~', '+'].contains c
/-- `[*^$~|!]`. In `attr.rs:11`. -/
def isAttrOp (c : Char) : Bool := ['*', '^', '$', '~', '|', '!'].contains c
/-- `[-+]`. In `pattern.rs:198`. -/
def isSign (c : Char) : Bool := ['-', '+'].contains c

/-- `selector/mod.rs:15`: `(\s*[>,~+]\s*|\s+)`. -/
def splitterRe : Re :=
  .grp 1 (.alt
    (.seq (.many (.one isReSpace)) (.seq (.one isOp) (.many (.one isReSpace))))
    (.plus (.one isReSpace)))

/-- `((?:\\?+.)*?)` between quotes `q`, as group `n` (`attr.rs:11`, `pseudo.rs:857`). `?+` is the repetition of an option. -/
def quotedRe (n : Nat) (q : Char) : Re :=
  .seq (.chr q) (.seq (.grp n (.lazy (.seq (.plus (.opt (.chr '\\'))) (.one isReDot)))) (.chr q))

/-- ``[^\s\]'"<>/=`]``. In `attr.rs:11`. -/
def isBareAttr (c : Char) : Bool := !(isReSpace c || [']', '\'', '"', '<', '>', '/', '=', '`'].contains c)
/-- ``[^)\s'"<>/=`]``. In `pseudo.rs:857`. -/
def isBareText (c : Char) : Bool := !(isReSpace c || [')', '\'', '"', '<', '>', '/', '=', '`'].contains c)

/-- `attr.rs:11`: ``(?:([*^$~|!]?)=\s*(?:'((?:\\?+.)*?)'|([^\s\]'"<>/=`]+)|"((?:\\?+.)*?)"))?``. -/
def attrRe : Re :=
  .opt (.seq (.grp 1 (.opt (.one isAttrOp)))
    (.seq (.chr '=') (.seq (.many (.one isReSpace))
      (.alt (quotedRe 2 '\'') (.alt (.grp 3 (.plus (.one isBareAttr))) (quotedRe 4 '"'))))))

/-- `pseudo.rs:857`: ``(?:'((?:\\?+.)*?)'|"((?:\\?+.)*?)"|([^)\s'"<>/=`]*))``. -/
def containsRe : Re :=
  .alt (quotedRe 1 '\'') (.alt (quotedRe 2 '"') (.grp 3 (.many (.one isBareText))))

/-- `([1-9]\d+|[0-9])` as group `n` (`pattern.rs:198`). -/
def numberRe (n : Nat) : Re := .grp n (.alt (.seq (.one isDigit19) (.plus (.one isReDigit))) (.one isDigit09))
/-- `([-+])` as group `n`. In `pattern.rs:198`. -/
def signRe (n : Nat) : Re := .grp n (.one isSign)

/-- `pattern.rs:198`: `(?:([-+])?([1-9]\d+|[0-9])?n(?:\s*([+-])\s*([1-9]\d+|[0-9]))?|([-+])?([1-9]\d+|[0-9]))`. -/
def nthRe : Re :=
  .alt
    (.seq (.opt (signRe 1)) (.seq (.opt (numberRe 2)) (.seq (.chr 'n')
      (.opt (.seq (.many (.one isReSpace)) (.seq (signRe 3) (.seq (.many (.one isReSpace)) (numberRe 4))))))))
    (.seq (.opt (signRe 5)) (numberRe 6))

end Visdom
