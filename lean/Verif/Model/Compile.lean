import Verif.Model.Rules
import Verif.Spec.Selector
/-!
# What the parser builds from the parts of a selector

`Selector::from_str` turns every simple selector into the matcher of its rule and groups the matchers into compounds
and processes (`selector/mod.rs:91-204`, `Rule::make`, `rule.rs:291-297`). Here this is done from the syntax tree;
that the text of a selector leads to the same matchers is the subject of the parser model. Numbers of `an+b` are given
as integers, the text of `:contains` in quotes.
-/
namespace Visdom
open Spec

/-- Group 1 of the regular expression of `attr.rs:11` belonging to a test. -/
def testMode : AttrTest → AttrMode
  | .equals => .eq
  | .startsWith => .prefix
  | .endsWith => .suffix
  | .contains => .contains
  | .dashMatch => .dash
  | .hasWord => .word
  | .differs => .ne

variable (h : Heap) (env : Env)

mutual
/-- The matcher of a simple selector (the `handle` of its rule, `rules/*.rs`). `name.rs:6-21`, `class.rs:7-30`, `id.rs:9-52`, `attr.rs:8-95`, `all.rs:5-17`, `pseudo.rs:26-1088`. -/
def simMatcher : Sim → Matcher
  | .all => allMatcher
  | .name n => nameMatcher h n
  | .cls c => classMatcher h c
  | .id i => idMatcher h env.byId i
  | .attr key => attrMatcher h key .eq none
  | .attrTest key t v => attrMatcher h key (testMode t) (some v)
  | .nth last false a b => nthChildMatcher h (!last) (some a) (some b)
  | .nth last true a b => nthOfTypeMatcher h (!last) (some a) (some b)
  | .nthIdx last false b => nthChildMatcher h (!last) none (some b)
  | .nthIdx last true b => nthOfTypeMatcher h (!last) none (some b)
  | .edge last false => edgeChildMatcher h (!last)
  | .edge last true => edgeOfTypeMatcher h (!last)
  | .only false => onlyChildMatcher h
  | .only true => onlyOfTypeMatcher h
  | .root => rootMatcher h env.isDoc
  | .empty => emptyMatcher h
  | .contains t => containsMatcher env.text ('"' :: t ++ ['"'])
  | .checked => checkedMatcher h
  | .not sel => notMatcher h (innerSel sel)
  | .has sel => hasMatcher h (innerSel sel)
  | .alias sel => aliasMatcher h (innerSel sel)
/-- A selector list parsed without look-up optimisation (`filter`, `not`, `is`, `has`: `from_str(selector, false)`). `selector/mod.rs:91-204`. -/
def innerSel : List (List (Comb × List Sim)) → List Proc
  | [] => []
  | c :: cs => optimizeGroup false (cplxCmpds c) :: innerSel cs
/-- The compounds of a complex selector as parsed. `selector/mod.rs:206-218`. -/
def cplxCmpds : List (Comb × List Sim) → List Cmpd
  | [] => []
  | s :: l => stepCmpd s :: cplxCmpds l
/-- One compound as parsed. `selector/mod.rs:210-218 add_group_item`. -/
def stepCmpd : Comb × List Sim → Cmpd
  | (c, ss) => simSegs c ss
/-- The segments of a compound: the first carries the combinator, the others are chained. `selector/mod.rs:146-155`. -/
def simSegs (c : Comb) : List Sim → Cmpd
  | [] => []
  | s :: ss => (simMatcher s, c) :: simSegs .chain ss
end

/-- A selector list parsed with look-up optimisation (`find`: `from_str(selector, true)`). `elements.rs:1097-1104`, `selector/mod.rs:91-204`. -/
def findSel (sel : List Complex) : List Proc := sel.map fun c => optimizeGroup true (cplxCmpds h env c)

/-- `elements.rs:1097-1104 find` of a selector that parses. -/
def find (S : List Nat) (sel : List Complex) : R (List Nat) := findSelector h S (findSel h env sel)

/-- `elements.rs:1136-1141 filter` of a selector that parses. -/
def filterQ (X : List Nat) (sel : List Complex) : R (List Nat) := filterSel h X (innerSel h env sel)
/-- `elements.rs:2234-2239 not`. -/
def notQ (X : List Nat) (sel : List Complex) : R (List Nat) := notSel h X (innerSel h env sel)
/-- `elements.rs:1987-1992 is`. -/
def isQ (X : List Nat) (sel : List Complex) : R Bool := isSel h X (innerSel h env sel)
/-- `elements.rs:2109-2114 is_all`. -/
def isAllQ (X : List Nat) (sel : List Complex) : R Bool := isAllSel h X (innerSel h env sel)
/-- `elements.rs:2347-2367 has`. -/
def hasQ (X : List Nat) (sel : List Complex) : R (List Nat) := hasSel h X (innerSel h env sel)

/-- `elements.rs:1261 children`; `none` is the empty selector (here and below). -/
def childrenQ (X : List Nat) (sel : Option (List Complex)) : R (List Nat) := childrenSel h X (sel.map (innerSel h env))
/-- `elements.rs:1294 prev`. -/
def prevQ (X : List Nat) (sel : Option (List Complex)) : R (List Nat) := prevSel h X (sel.map (innerSel h env))
/-- `elements.rs:1329 prev_all`. -/
def prevAllQ (X : List Nat) (sel : Option (List Complex)) : R (List Nat) := prevAllSel h X (sel.map (innerSel h env))
/-- `elements.rs:1408 next`. -/
def nextQ (X : List Nat) (sel : Option (List Complex)) : R (List Nat) := nextSel h X (sel.map (innerSel h env))
/-- `elements.rs:1442 next_all`. -/
def nextAllQ (X : List Nat) (sel : Option (List Complex)) : R (List Nat) := nextAllSel h X (sel.map (innerSel h env))
/-- `elements.rs:1598 parent`. -/
def parentQ (X : List Nat) (sel : Option (List Complex)) : R (List Nat) := parentSel h X (sel.map (innerSel h env))
/-- `elements.rs:1635 parents`. -/
def parentsQ (X : List Nat) (sel : Option (List Complex)) : R (List Nat) := parentsSel h X (sel.map (innerSel h env))
/-- `elements.rs:1515 siblings`: the selector is parsed with look-up optimisation (`str::parse`, `selector/mod.rs:393`). -/
def siblingsQ (X : List Nat) (sel : Option (List Complex)) : R (List Nat) := siblingsSel h X (sel.map (findSel h env))
/-- `elements.rs:1719 closest`, with look-up optimisation. -/
def closestQ (X : List Nat) (sel : Option (List Complex)) : R (List Nat) := closest h X (sel.map (findSel h env))
/-- `elements.rs:1479 next_until`, both selectors with look-up optimisation (here and below). -/
def nextUntilQ (X : List Nat) (u : List Complex) (f : Option (List Complex)) (contains : Bool) : R (List Nat) :=
  nextUntil h X (findSel h env u) (f.map (findSel h env)) contains
/-- `elements.rs:1367 prev_until`. -/
def prevUntilQ (X : List Nat) (u : List Complex) (f : Option (List Complex)) (contains : Bool) : R (List Nat) :=
  prevUntil h X (findSel h env u) (f.map (findSel h env)) contains
/-- `elements.rs:1673 parents_until`. -/
def parentsUntilQ (X : List Nat) (u : List Complex) (f : Option (List Complex)) (contains : Bool) : R (List Nat) :=
  parentsUntil h X (findSel h env u) (f.map (findSel h env)) contains

end Visdom
