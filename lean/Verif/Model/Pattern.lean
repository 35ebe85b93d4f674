import Verif.Model.Regex
import Verif.Model.Utils
/-!
# Model of `src/mesdoc/selector/pattern.rs`: the patterns of the selector rules
-/
namespace Visdom

/-- `pattern.rs:22-28 Matched`. `name` is not used by any caller and left out. `data` is keyed by strings in Rust: the
numbers of the groups for `RegExp`, `"n"` and `"index"` for `Nth`. -/
structure Matched where
  chars : List Char
  ignore : Nat := 0
  groups : Caps := []
  n : Option (List Char) := none
  index : Option (List Char) := none
  deriving DecidableEq, Repr

/-- The implementations of the trait `Pattern`, `pattern.rs:30-420`. `regexp` carries the text of the expression. -/
inductive Pat where
  /-- `impl Pattern for char` -/
  | chr (c : Char)
  /-- `impl Pattern for Vec<char>` -/
  | lit (cs : List Char)
  | identity
  | attrKey
  | spaces
  | nth
  | regexp (ctx : List Char)
  /-- `NestedSelector` -/
  | nested
  deriving DecidableEq, Repr

/-- The text of the expression of the splitter, `selector/mod.rs:15`. -/
def splitterCtx : List Char := "(\\s*[>,~+]\\s*|\\s+)".toList
/-- The text of the expression of the attribute rule, `attr.rs:11`. -/
def attrCtx : List Char := "(?:([*^$~|!]?)=\\s*(?:'((?:\\\\?+.)*?)'|([^\\s\\]'\"<>/=`]+)|\"((?:\\\\?+.)*?)\"))?".toList
/-- The text of the expression of `:contains`, `pseudo.rs:857`. -/
def containsCtx : List Char := "(?:'((?:\\\\?+.)*?)'|\"((?:\\\\?+.)*?)\"|([^)\\s'\"<>/=`]*))".toList

/-- `pattern.rs:387-401 get_rule`: the expression compiled from a text. Simplified: only the three texts that occur in
rules are known; compiling another one counts as the panic of `Regex::new(..).expect(..)`. The cache is left out. -/
def getRule (ctx : List Char) : R Re :=
  if ctx = splitterCtx then .ok splitterRe
  else if ctx = attrCtx then .ok attrRe
  else if ctx = containsCtx then .ok containsRe
  else .error .unwrapNone

/-- `pattern.rs:103-117`, the loop of `Identity::matched`: the characters kept, the number of backslashes. -/
def identLoop (inTranslate : Bool) : List Char → List Char × Nat
  | [] => ([], 0)
  | c :: cs =>
    if inTranslate then
      let (r, k) := identLoop false cs
      (c :: r, k)
    else if isAsciiAlnum c || c == '-' || c == '_' then
      let (r, k) := identLoop false cs
      (c :: r, k)
    else if c == '\\' then
      let (r, k) := identLoop true cs
      (r, k + 1)
    else ([], 0)

/-- `pattern.rs:92-129 Identity::matched`: `chars[0]` panics when nothing is left. -/
def identMatched (cs : List Char) : R (Option Matched) :=
  match cs with
  | [] => .error .outOfBounds
  | c :: _ =>
    if isAsciiAlpha c || c == '_' then
      let (r, k) := identLoop false cs
      .ok (some { chars := r, ignore := k })
    else .ok none

/-- `pattern.rs:250-262 get_number`. -/
def nthNumber (g : Caps) (num sign : Nat) (dflt : Option (List Char)) : Option (List Char) :=
  match (capGet g num).or dflt with
  | none => none
  | some idx => some (if capGet g sign = some ['-'] then '-' :: idx else idx)

/-- `pattern.rs:194-242 Nth::matched`. -/
def nthMatched (cs : List Char) : Option Matched :=
  match nthRe.captures cs with
  | some (len, g) =>
    let onlyIndex := (capGet g 6).isSome
    let index := if onlyIndex then nthNumber g 6 5 none else nthNumber g 4 3 none
    let n := if onlyIndex then none else nthNumber g 2 1 (some ['1'])
    if index.isSome || n.isSome then some { chars := cs.take len, n := n, index := index } else none
  | none =>
    if ['e', 'v', 'e', 'n'].isPrefixOf cs then some { chars := ['e', 'v', 'e', 'n'], n := some ['2'], index := some ['0'] }
    else if ['o', 'd', 'd'].isPrefixOf cs then some { chars := ['o', 'd', 'd'], n := some ['2'], index := some ['1'] }
    else none

/-- `Pattern::matched` of every pattern: `pattern.rs:45-56` (`char`: `chars[0]` panics when nothing is left), `58-80`
(`&[char]`), `92-129`, `139-157`, `167-182`, `194-242`, `354-375`, `408-411`. -/
def Pat.matched (p : Pat) (cs : List Char) : R (Option Matched) :=
  match p with
  | .chr c =>
    match cs with
    | [] => .error .outOfBounds
    | x :: _ => .ok (if c = x then some { chars := [x] } else none)
  | .lit l => .ok (if l.isPrefixOf cs then some { chars := l } else none)
  | .identity => identMatched cs
  | .attrKey =>
    let r := cs.takeWhile isCharAvailableInKey
    .ok (if r.isEmpty then none else some { chars := r })
  | .spaces => .ok (some { chars := cs.takeWhile isAsciiWs })
  | .nth => .ok (nthMatched cs)
  | .regexp ctx =>
    (getRule ctx).map fun re =>
      match re.captures cs with
      | some (len, g) => some { chars := cs.take len, groups := g }
      | none => none
  | .nested => .ok none

/-- `pattern.rs:33-35`, `417-419`. -/
def Pat.isNested : Pat → Bool
  | .nested => true
  | _ => false

/-- `pattern.rs:449-463 exec`: the matched items, the number of characters consumed, the number of patterns matched. -/
def execPats : List Pat → List Char → R (List Matched × Nat × Nat)
  | [], _ => .ok ([], 0, 0)
  | p :: ps, cs =>
    match p.matched cs with
    | .error e => .error e
    | .ok none => .ok ([], 0, 0)
    | .ok (some m) =>
      let used := m.chars.length + m.ignore
      match execPats ps (cs.drop used) with
      | .error e => .error e
      | .ok (ms, len, num) => .ok (m :: ms, used + len, num + 1)

/-- `rule.rs:279-289 exec_queues`. -/
def execQueues (ps : List Pat) (cs : List Char) : R (Option (List Matched × Nat × Nat)) :=
  (execPats ps cs).map fun r => if r.2.1 > 0 then some r else none

end Visdom
