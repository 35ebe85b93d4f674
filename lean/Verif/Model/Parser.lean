import Verif.Model.Pattern
import Verif.Model.AttrRule
import Verif.Spec.Selector
/-!
# Model of the selector parser (`selector/mod.rs:91-381`) and of the table of rules (`rules/*.rs`)
-/
namespace Visdom
open Spec

/-- The rules, in the order in which they are added (`rules/mod.rs:8-22`, `pseudo.rs:1054-1088`). -/
inductive RuleId where
  | cls | id | name | attr
  | root | empty
  | firstChild | lastChild | onlyChild | nthChild | nthLastChild
  | firstOfType | lastOfType | nthOfType | nthLastOfType | onlyOfType
  | not | contains | has | checked | header | input | submit
  | all
  deriving DecidableEq, Repr

/-- `rule.rs:114-119 Rule`: here only the patterns. The handle is `makePart`. -/
structure ParseRule where
  id : RuleId
  queues : List Pat
  deriving DecidableEq, Repr

/-- The patterns of `name({spaces}{p}{spaces})`. `pseudo.rs:337-339` and the other templates with parameters. -/
def callQueues (head : List Char) (p : Pat) : List Pat := [.lit head, .spaces, p, .spaces, .chr ')']

/-- `RULES` after `rules/mod.rs:8-22 init`; the queues are the templates compiled by `Rule::get_queues` (the theorem
`C47_rule_table` relates them to the text of the templates). -/
def ruleTable : List ParseRule :=
  [ ⟨.cls, [.lit ['.'], .identity]⟩,
    ⟨.id, [.lit ['#'], .identity]⟩,
    ⟨.name, [.identity]⟩,
    ⟨.attr, [.lit ['['], .spaces, .attrKey, .spaces, .regexp attrCtx, .spaces, .chr ']']⟩,
    ⟨.root, [.lit [':', 'r', 'o', 'o', 't']]⟩,
    ⟨.empty, [.lit [':', 'e', 'm', 'p', 't', 'y']]⟩,
    ⟨.firstChild, [.lit [':', 'f', 'i', 'r', 's', 't', '-', 'c', 'h', 'i', 'l', 'd']]⟩,
    ⟨.lastChild, [.lit [':', 'l', 'a', 's', 't', '-', 'c', 'h', 'i', 'l', 'd']]⟩,
    ⟨.onlyChild, [.lit [':', 'o', 'n', 'l', 'y', '-', 'c', 'h', 'i', 'l', 'd']]⟩,
    ⟨.nthChild, callQueues [':', 'n', 't', 'h', '-', 'c', 'h', 'i', 'l', 'd', '('] .nth⟩,
    ⟨.nthLastChild, callQueues [':', 'n', 't', 'h', '-', 'l', 'a', 's', 't', '-', 'c', 'h', 'i', 'l', 'd', '('] .nth⟩,
    ⟨.firstOfType, [.lit [':', 'f', 'i', 'r', 's', 't', '-', 'o', 'f', '-', 't', 'y', 'p', 'e']]⟩,
    ⟨.lastOfType, [.lit [':', 'l', 'a', 's', 't', '-', 'o', 'f', '-', 't', 'y', 'p', 'e']]⟩,
    ⟨.nthOfType, callQueues [':', 'n', 't', 'h', '-', 'o', 'f', '-', 't', 'y', 'p', 'e', '('] .nth⟩,
    ⟨.nthLastOfType,
      callQueues [':', 'n', 't', 'h', '-', 'l', 'a', 's', 't', '-', 'o', 'f', '-', 't', 'y', 'p', 'e', '('] .nth⟩,
    ⟨.onlyOfType, [.lit [':', 'o', 'n', 'l', 'y', '-', 'o', 'f', '-', 't', 'y', 'p', 'e']]⟩,
    ⟨.not, callQueues [':', 'n', 'o', 't', '('] .nested⟩,
    ⟨.contains, callQueues [':', 'c', 'o', 'n', 't', 'a', 'i', 'n', 's', '('] (.regexp containsCtx)⟩,
    ⟨.has, callQueues [':', 'h', 'a', 's', '('] .nested⟩,
    ⟨.checked, [.lit [':', 'c', 'h', 'e', 'c', 'k', 'e', 'd']]⟩,
    ⟨.header, [.lit [':', 'h', 'e', 'a', 'd', 'e', 'r']]⟩,
    ⟨.input, [.lit [':', 'i', 'n', 'p', 'u', 't']]⟩,
    ⟨.submit, [.lit [':', 's', 'u', 'b', 'm', 'i', 't']]⟩,
    ⟨.all, [.chr '*']⟩ ]

/-- `SPLITTER`, `selector/mod.rs:14-15`. -/
def splitterQueues : List Pat := [.regexp splitterCtx]

/-- What a rule makes of its matched data: the parameters captured by the closures of its `Matcher`. Nested selectors
stay text: `eles.not(&selector)` and `eles.has(&selector)` parse them when they are applied. `rule.rs:291-297 make`, and the closures of `rules/*.rs`. -/
inductive Part where
  | all
  | name (n : List Char)
  | cls (c : List Char)
  | id (i : List Char)
  | attr (key : List Char) (mode : AttrMode) (value : Option (List Char))
  | nth (last ofType : Bool) (n index : Option (List Char))
  | edge (last ofType : Bool)
  | only (ofType : Bool)
  | root
  | empty
  | contains (chars : List Char)
  | checked
  | not (text : List Char)
  | has (text : List Char)
  | header
  | input
  | submit
  deriving DecidableEq, Repr

/-- `str::parse::<isize>` on a 64-bit target. `pseudo.rs:18-24`, `pattern.rs:269-275`, `333-338`. -/
def parseIsize (s : List Char) : Option Int :=
  let (neg, ds) := match s with
    | '-' :: r => (true, r)
    | '+' :: r => (false, r)
    | r => (false, r)
  if ds.isEmpty || !ds.all isDigit09 then none
  else
    let v : Nat := ds.foldl (fun a c => a * 10 + (c.toNat - 48)) 0
    if neg then (if v ≤ 2 ^ 63 then some (-(v : Int)) else none)
    else (if v < 2 ^ 63 then some (v : Int) else none)

/-- `attr.rs:31-83`: group 1 of the expression. Anything but the six characters is the test for equality. -/
def attrModeOf (s : List Char) : AttrMode :=
  match s with
  | ['^'] => .prefix
  | ['$'] => .suffix
  | ['*'] => .contains
  | ['|'] => .dash
  | ['~'] => .word
  | ['!'] => .ne
  | _ => .eq

/-- `data[i].chars`. `class.rs:15`, `id.rs:16`, `name.rs:12`, `attr.rs:15`, `pseudo.rs:844`, `863`, `907`. -/
def charsAt (data : List Matched) (i : Nat) : R (List Char) :=
  match data[i]? with
  | some m => .ok m.chars
  | none => .error .outOfBounds

/-- `pseudo.rs:337-355`, `599-614`: a plain number is parsed when the selector is parsed. -/
def makeNth (last ofType : Bool) (data : List Matched) : R Part :=
  match data[2]? with
  | none => .error .outOfBounds
  | some m =>
    match m.n with
    | some _ => .ok (.nth last ofType m.n m.index)
    | none =>
      match m.index.bind parseIsize with
      | some _ => .ok (.nth last ofType m.n m.index)
      | none => .error .unwrapNone

/-- `rule.rs:291-297 make`: the handles of the rules, as far as they read the matched data: `class.rs:13-15`,
`id.rs:15-16`, `name.rs:11-12`, `attr.rs:13-22`, `pseudo.rs:337-355`, `599-614`, `844`, `862-871`, `907`; the others
do not read it. -/
def makePart (r : RuleId) (data : List Matched) : R Part :=
  match r with
  | .cls => (charsAt data 1).map .cls
  | .id => (charsAt data 1).map .id
  | .name => (charsAt data 0).map .name
  | .attr =>
    match data[2]?, data[4]? with
    | some k, some v =>
      let value := ((capGet v.groups 2).or (capGet v.groups 3)).or (capGet v.groups 4)
      .ok (.attr k.chars (attrModeOf ((capGet v.groups 1).getD [])) value)
    | _, _ => .error .outOfBounds
  | .root => .ok .root
  | .empty => .ok .empty
  | .firstChild => .ok (.edge false false)
  | .lastChild => .ok (.edge true false)
  | .onlyChild => .ok (.only false)
  | .nthChild => makeNth false false data
  | .nthLastChild => makeNth true false data
  | .firstOfType => .ok (.edge false true)
  | .lastOfType => .ok (.edge true true)
  | .nthOfType => makeNth false true data
  | .nthLastOfType => makeNth true true data
  | .onlyOfType => .ok (.only true)
  | .not => (charsAt data 2).map .not
  | .contains => (charsAt data 2).map .contains
  | .has => (charsAt data 2).map .has
  | .checked => .ok .checked
  | .header => .ok .header
  | .input => .ok .input
  | .submit => .ok .submit
  | .all => .ok .all

/-- `error.rs InvalidSelector`; the reasons of `selector/mod.rs` (without the positions in their texts). `error.rs:5-6`, `selector/mod.rs:113-200`. -/
inductive ParseErr where
  | wrongCombinator | emptyBeforeComma | unrecognized | atLast | nested
  deriving DecidableEq, Repr

/-- The loop `for (_, r) in rules.iter()` up to its first hit (`mod.rs:156-157`, `333-334`). -/
def findRule : List ParseRule → List Char → R (Option (ParseRule × List Matched × Nat × Nat))
  | [], _ => .ok none
  | r :: rs, cs =>
    match execQueues r.queues cs with
    | .error e => .error e
    | .ok (some (m, len, num)) => .ok (some (r, m, len, num))
    | .ok none => findRule rs cs

/-- `mod.rs:354-378`: no rule was found (or one with a nested selector), the closing patterns must follow. `chars` is
the whole slice, `rest` what follows position `idx`. -/
def untilEnd (chars rest : List Char) (idx : Nat) (untl : List Pat) (level : Nat) :
    R (Except ParseErr (Nat × List Matched)) :=
  let sel : List Matched := if level = 0 then [{ chars := chars.take idx }] else []
  if untl.isEmpty then .ok (.ok (idx, sel))
  else match execPats untl rest with
    | .error e => .error e
    | .ok (m, count, num) =>
      if num ≠ untl.length then .ok (.error .nested)
      else .ok (.ok (idx + count, if level = 0 then sel ++ m else sel))

/-- `mod.rs:316-381 parse_until`. `chars` is the whole slice, `rest` what follows position `idx`. The first argument
bounds the number of steps (each step consumes a character). -/
def parseUntil : Nat → List Char → List Char → Nat → List Pat → Nat → R (Except ParseErr (Nat × List Matched))
  | 0, _, _, _, _, _ => .error .diverge
  | f + 1, chars, rest, idx, untl, level =>
    if rest.isEmpty then .ok (.ok (idx, []))
    else match execQueues splitterQueues rest with
      | .error e => .error e
      | .ok (some (_, len, _)) => parseUntil f chars (rest.drop len) (idx + len) untl level
      | .ok none =>
        match findRule ruleTable rest with
        | .error e => .error e
        | .ok none => untilEnd chars rest idx untl level
        | .ok (some (r, _, len, num)) =>
          if num = r.queues.length then parseUntil f chars (rest.drop len) (idx + len) untl level
          else match parseUntil f (rest.drop len) (rest.drop len) 0 (r.queues.drop (num + 1)) (level + 1) with
            | .error e => .error e
            | .ok (.error e) => .ok (.error e)
            | .ok (.ok (count, _)) => untilEnd chars (rest.drop (len + count)) (idx + len + count) untl level

/-- `mod.rs:384-389 PrevInSelector`. -/
inductive PrevIn where
  | begin | splitter | selector
  deriving DecidableEq, Repr

/-- The groups as parsed: per group the compounds, per compound the segments. `selector/mod.rs:206-218`: `SelectorGroups`. -/
abbrev PGroups := List (List (List (Part × Comb)))

/-- `last_mut` followed by a change of the element. `selector/mod.rs:210-218`. -/
def onLast {α : Type} (f : α → α) : List α → List α
  | [] => []
  | [x] => [f x]
  | x :: y :: l => x :: onLast f (y :: l)

/-- `mod.rs:210-218 add_group_item`. -/
def addGroupItem (g : PGroups) (item : Part × Comb) (isNew : Bool) : PGroups :=
  onLast (fun grp => if isNew then grp ++ [[item]] else onLast (· ++ [item]) grp) g

/-- `mod.rs:45-57 From<&str> for Combinator`. -/
def combOf (op : List Char) : R Comb :=
  match op with
  | [] => .ok .childrenAll
  | ['>'] => .ok .children
  | ['~'] => .ok .nextAll
  | ['+'] => .ok .next
  | _ => .error .explicit

/-- The state of the loop of `from_str`; `rest` is `&chars[index..]`. `selector/mod.rs:96-100`. -/
structure PState where
  rest : List Char
  comb : Comb := .childrenAll
  prevIn : PrevIn := .begin
  lastIn : PrevIn := .begin
  groups : PGroups := [[]]
  deriving DecidableEq, Repr

/-- `mod.rs:107-145`: a combinator or a comma of `len` characters was matched. -/
def splitterStep (st : PState) (m : List Matched) (len : Nat) : R (Except ParseErr PState) :=
  match m[0]? with
  | none => .error .outOfBounds
  | some m0 =>
    let op := trim m0.chars
    if st.prevIn = .splitter then .ok (.error .wrongCombinator)
    else
      let lastIn := if op.isEmpty then st.prevIn else .splitter
      if op = [','] then
        if st.prevIn ≠ .selector then .ok (.error .emptyBeforeComma)
        else .ok (.ok { rest := st.rest.drop len, comb := .childrenAll, prevIn := .splitter, lastIn := lastIn,
                        groups := st.groups ++ [[]] })
      else match combOf op with
        | .error e => .error e
        | .ok c => .ok (.ok { st with rest := st.rest.drop len, comb := c, prevIn := .splitter, lastIn := lastIn })

/-- `mod.rs:147-192`: a simple selector. -/
def selectorStep (st : PState) : R (Except ParseErr PState) :=
  let isNew := !(st.prevIn == .selector)
  let comb : Comb := if isNew then st.comb else .chain
  let st' (p : Part) (rest : List Char) : PState :=
    { rest := rest, comb := comb, prevIn := .selector, lastIn := if isNew then .selector else st.lastIn,
      groups := addGroupItem st.groups (p, comb) isNew }
  match findRule ruleTable st.rest with
  | .error e => .error e
  | .ok none => .ok (.error .unrecognized)
  | .ok (some (r, m, len, num)) =>
    let rest := st.rest.drop len
    if num = r.queues.length then (makePart r.id m).map fun p => .ok (st' p rest)
    else match r.queues[num]? with
      | none => .error .outOfBounds
      | some q =>
        if q.isNested then
          match parseUntil (rest.length + 1) rest rest 0 (r.queues.drop (num + 1)) 0 with
          | .error e => .error e
          | .ok (.error e) => .ok (.error e)
          | .ok (.ok (count, nm)) => (makePart r.id (m ++ nm)).map fun p => .ok (st' p (rest.drop count))
        else .ok (.error .unrecognized)

/-- One round of the loop of `from_str`, `mod.rs:104-193`. -/
def parseStep (st : PState) : R (Except ParseErr PState) :=
  match execQueues splitterQueues st.rest with
  | .error e => .error e
  | .ok (some (m, len, _)) => splitterStep st m len
  | .ok none => selectorStep st

/-- The loop of `from_str`. The first argument bounds the number of rounds (each consumes a character). `selector/mod.rs:104-192`. -/
def parseLoop : Nat → PState → R (Except ParseErr PState)
  | 0, st => if st.rest.isEmpty then .ok (.ok st) else .error .diverge
  | f + 1, st =>
    if st.rest.isEmpty then .ok (.ok st)
    else match parseStep st with
      | .error e => .error e
      | .ok (.error e) => .ok (.error e)
      | .ok (.ok st') => parseLoop f st'

/-- `mod.rs:91-200 from_str`, up to `optimize`: the groups of the selector. The empty text gives no groups. The locks
are the subject of `Model/Locks.lean`. -/
def parseGroups (text : List Char) : R (Except ParseErr PGroups) :=
  if text.isEmpty then .ok (.ok [])
  else match parseLoop text.length { rest := text } with
    | .error e => .error e
    | .ok (.error e) => .ok (.error e)
    | .ok (.ok st) => if st.lastIn ≠ .selector then .ok (.error .atLast) else .ok (.ok st.groups)

end Visdom
