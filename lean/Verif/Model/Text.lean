import Verif.Model.Parser
import Verif.Model.Compile
/-!
# From the text of a selector to its matchers

`Selector::from_str` with the matchers of the rules, and the methods of `Elements` called with a text.
Nested selectors are parsed each time their matcher is applied (`pseudo.rs:846`, `909`, `rule.rs:305`).
-/
namespace Visdom
open Spec

variable (h : Heap) (env : Env)

/-- `pseudo.rs:337-379`, `599-651`. The texts of `an+b` are parsed by `get_allowed_indexs` (`pattern.rs:271-275`)
when the matcher is applied: a number out of range panics then. -/
def textNthMatcher (last ofType : Bool) (n index : Option (List Char)) : Matcher :=
  let bad : Bool := (n.map parseIsize == some none) || (index.map parseIsize == some none)
  if bad then
    { all := some fun l isAll =>
        match isAll with
        | none => groupDo h (fun _ => .error .unwrapNone)
            (if ofType then handleNthOfType h (!last) l else handleNthChild h (!last) l) l
        | some _ => .error .unwrapNone
      priority := 10 }
  else
    (if ofType then nthOfTypeMatcher else nthChildMatcher) h (!last) (n.bind parseIsize) (index.bind parseIsize)

/-- `constants.rs:24`. -/
def headerText : List Char := "h1,h2,h3,h4,h5,h6".toList
/-- `constants.rs:27`. -/
def inputText : List Char := "input,select,textarea,button".toList
/-- `constants.rs:25-26`. -/
def submitText : List Char := "input[type='submit'],button[type='submit']".toList

/-- A matcher that calls a method with a text: `trigger_method` (`elements.rs:110-124`) does nothing on an empty set;
a text that does not parse is reported and gives the empty set. -/
def textApply (rd : List Char → R (Except ParseErr (List Proc))) (f : List Nat → List Proc → R (List Nat))
    (text : List Char) : Matcher :=
  { all := some fun l _ =>
      if l.isEmpty then .ok []
      else match rd text with
        | .error e => .error e
        | .ok (.error _) => .ok []
        | .ok (.ok sel) => f l sel
    priority := 10 }

/-- The matcher a rule makes. `rd` parses a nested text. `rule.rs:291-297 make`. -/
def partMatcher (rd : List Char → R (Except ParseErr (List Proc))) : Part → Matcher
  | .all => allMatcher
  | .name n => nameMatcher h n
  | .cls c => classMatcher h c
  | .id i => idMatcher h env.byId i
  | .attr key mode value => attrMatcher h key mode value
  | .nth last ofType n index => textNthMatcher h last ofType n index
  | .edge last ofType => if ofType then edgeOfTypeMatcher h (!last) else edgeChildMatcher h (!last)
  | .only ofType => if ofType then onlyOfTypeMatcher h else onlyChildMatcher h
  | .root => rootMatcher h env.isDoc
  | .empty => emptyMatcher h
  | .contains chars => containsMatcher env.text chars
  | .checked => checkedMatcher h
  | .not t => textApply rd (notSel h) t
  | .has t => textApply rd (hasSel h) t
  | .header => textApply rd (filterSel h) headerText
  | .input => textApply rd (filterSel h) inputText
  | .submit => textApply rd (filterSel h) submitText

/-- The segments with their matchers. `selector/mod.rs:163-184`. -/
def groupCmpds (rd : List Char → R (Except ParseErr (List Proc))) (g : List (List (Part × Comb))) : List Cmpd :=
  g.map fun c => c.map fun s => (partMatcher h env rd s.1, s.2)

/-- `mod.rs:91-204 from_str`. The first argument bounds the depth of nesting. -/
def fromStr : Nat → Bool → List Char → R (Except ParseErr (List Proc))
  | 0, _, _ => .error .diverge
  | d + 1, lookup, text =>
    match parseGroups text with
    | .error e => .error e
    | .ok (.error e) => .ok (.error e)
    | .ok (.ok gs) => .ok (.ok (gs.map fun g => optimizeGroup lookup (groupCmpds h env (fromStr d false) g)))

end Visdom
