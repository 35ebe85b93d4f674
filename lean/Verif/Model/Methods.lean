import Verif.Model.Text
/-!
# The methods of `Elements` that take the text of a selector

The result is paired with the number of errors reported to the handler of the document. Simplification: errors of texts
nested in `:not(…)` and `:has(…)`, which are reported each time their matcher is applied, are not counted.
-/
namespace Visdom
open Spec

variable (h : Heap) (env : Env) (own : Nat → Bool)

/-- `Selector::from_str(selector, use_lookup)`, `selector/mod.rs:91`; `str::parse` (`mod.rs:391-396`) uses `true`. The
bound on the depth of nesting is large enough for every text. -/
def parseSel (lookup : Bool) (text : List Char) : R (Except ParseErr (List Proc)) := fromStr h env (text.length + 2) lookup text

/-- `elements.rs:126-137 trigger_method_throw_error` followed by the default result. `own x` says that the document of
`x` is alive and has an error handler (`lib.rs:212-225`, `document.rs:51-55`). -/
def throwErr {α : Type} (X : List Nat) (d : α) : R (α × Nat) :=
  match X with
  | [] => .error .unwrapNone
  | x :: _ => .ok (d, if own x then 1 else 0)

/-- `elements.rs:110-124 trigger_method`. -/
def triggerMethod {α : Type} (X : List Nat) (text : List Char) (d : α) (handle : List Proc → R α) : R (α × Nat) :=
  if X.isEmpty then .ok (d, 0)
  else match parseSel h env false text with
    | .error e => .error e
    | .ok (.error _) => throwErr own X d
    | .ok (.ok sel) => (handle sel).map (·, 0)

/-- `elements.rs:1097-1104 find`. -/
def findText (X : List Nat) (text : List Char) : R (List Nat × Nat) :=
  match parseSel h env true text with
  | .error e => .error e
  | .ok (.error _) => throwErr own X []
  | .ok (.ok sel) => (findSelector h X sel).map (·, 0)

/-- `elements.rs:1136-1141 filter`. -/
def filterText (X : List Nat) (text : List Char) : R (List Nat × Nat) := triggerMethod h env own X text [] (filterSel h X)
/-- `elements.rs:2234-2239 not`. -/
def notText (X : List Nat) (text : List Char) : R (List Nat × Nat) := triggerMethod h env own X text [] (notSel h X)
/-- `elements.rs:1987-1992 is`. -/
def isText (X : List Nat) (text : List Char) : R (Bool × Nat) := triggerMethod h env own X text false (isSel h X)
/-- `elements.rs:2109-2114 is_all`. -/
def isAllText (X : List Nat) (text : List Char) : R (Bool × Nat) := triggerMethod h env own X text false (isAllSel h X)
/-- `elements.rs:2347-2367 has`. -/
def hasText (X : List Nat) (text : List Char) : R (List Nat × Nat) := triggerMethod h env own X text [] (hasSel h X)

/-- `elements.rs:502-512 select_with_comb` called on `U`; `f` is the selection, with `none` for the empty text. -/
def navText (U : List Nat) (text : List Char) (f : Option (List Proc) → R (List Nat)) : R (List Nat × Nat) :=
  if text.isEmpty then (f none).map (·, 0) else triggerMethod h env own U text [] fun sel => f (some sel)

/-- `elements.rs:1261 children`. -/
def childrenText (X : List Nat) (text : List Char) : R (List Nat × Nat) := navText h env own X text (childrenSel h X)
/-- `elements.rs:1294 prev`. -/
def prevText (X : List Nat) (text : List Char) : R (List Nat × Nat) := navText h env own X text (prevSel h X)
/-- `elements.rs:1408 next`. -/
def nextText (X : List Nat) (text : List Char) : R (List Nat × Nat) := navText h env own X text (nextSel h X)
/-- `elements.rs:1329-1332 prev_all`. -/
def prevAllText (X : List Nat) (text : List Char) : R (List Nat × Nat) :=
  navText h env own (uniqueSiblingLast h X) text (prevAllSel h X)
/-- `elements.rs:1442-1446 next_all`. -/
def nextAllText (X : List Nat) (text : List Char) : R (List Nat × Nat) :=
  navText h env own (uniqueSiblingFirst h X) text (nextAllSel h X)
/-- `elements.rs:1598-1602 parent`. -/
def parentText (X : List Nat) (text : List Char) : R (List Nat × Nat) :=
  navText h env own (uniqueSiblingFirst h X) text (parentSel h X)
/-- `elements.rs:1635-1641 parents`. -/
def parentsText (X : List Nat) (text : List Char) : R (List Nat × Nat) :=
  navText h env own (uniqueSiblingFirst h X) text (parentsSel h X)

/-- `elements.rs:1515-1566 siblings`: the text is trimmed. -/
def siblingsText (X : List Nat) (text : List Char) : R (List Nat × Nat) :=
  if (trim text).isEmpty then (siblingsSel h X none).map (·, 0)
  else match parseSel h env true (trim text) with
    | .error e => .error e
    | .ok (.error _) => throwErr own X []
    | .ok (.ok sel) => (siblingsSel h X (some sel)).map (·, 0)

/-- `elements.rs:1719-1774 closest`. -/
def closestText (X : List Nat) (text : List Char) : R (List Nat × Nat) :=
  if text.isEmpty then .ok ([], 0)
  else match parseSel h env true text with
    | .error e => .error e
    | .ok (.error _) => throwErr own X []
    | .ok (.ok sel) => (closest h X (some sel)).map (·, 0)

/-- `elements.rs:515-583 select_with_comb_until` called on `U`. -/
def untilText (U : List Nat) (text filter : List Char) (f : List Proc → Option (List Proc) → R (List Nat)) : R (List Nat × Nat) :=
  match parseSel h env true text with
  | .error e => .error e
  | .ok (.error _) => throwErr own U []
  | .ok (.ok sel) =>
    if filter.isEmpty then (f sel none).map (·, 0)
    else match parseSel h env true filter with
      | .error e => .error e
      | .ok (.error _) => throwErr own U []
      | .ok (.ok flt) => (f sel (some flt)).map (·, 0)

/-- `elements.rs:1367-1377 prev_until`. -/
def prevUntilText (X : List Nat) (text filter : List Char) (contains : Bool) : R (List Nat × Nat) :=
  untilText h env own (uniqueSiblingLast h X) text filter fun u f => prevUntil h X u f contains
/-- `elements.rs:1479-1483 next_until`. -/
def nextUntilText (X : List Nat) (text filter : List Char) (contains : Bool) : R (List Nat × Nat) :=
  untilText h env own (uniqueSiblingFirst h X) text filter fun u f => nextUntil h X u f contains
/-- `elements.rs:1673-1687 parents_until`. -/
def parentsUntilText (X : List Nat) (text filter : List Char) (contains : Bool) : R (List Nat × Nat) :=
  untilText h env own (uniqueSiblingFirst h X) text filter fun u f => parentsUntil h X u f contains

end Visdom
