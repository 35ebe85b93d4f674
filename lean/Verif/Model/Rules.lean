import Verif.Model.Query
import Verif.Model.AttrRule
import Verif.Model.Nth
/-!
# The matchers made by the rules

Model of `src/mesdoc/rules/*.rs`: the matcher each rule builds from the matched text. The matched text itself is the
parser model. Every matcher carries the priority and the cache flag of its rule (`rule.rs:288-296`).
-/
namespace Visdom

variable (h : Heap)

/-- `lib.rs:439-460 tag_names`: the name of an element, the empty string for a root. Simplification: for other kinds of
node the code also answers with the empty string, after a call of `halt` that may report the misuse; the report is not
modelled. -/
def tagNames (x : Nat) : List Char := if h.isElem x then (h.node x).name.map asciiLower else []
/-- `element.rs:253-259 tag_name`. -/
def tagName (x : Nat) : List Char := (tagNames h x).map asciiUpper
/-- `element.rs:302-304 has_attribute`. Simplified: the panic on a node without attribute data (`lib.rs:614-617`) is left
out here, every caller in this file has seen the tag name of an element before. -/
def hasAttr (x : Nat) (name : List Char) : R Bool := (getAttribute (h.node x).attrs name).map Option.isSome

/-- `rules/name.rs`. `name.rs:6-21`. -/
def nameMatcher (name : List Char) : Matcher :=
  { one := some fun x => .ok (nameRuleOne name (tagNames h x)), priority := 100 }
/-- `rules/class.rs`. The attribute is read by `lib.rs:611-633 get_attribute`, which panics on a node that has no attribute
data: only elements have it, a document root has not. -/
def classMatcher (name : List Char) : Matcher :=
  { one := some fun x => if h.isElem x then classRuleOne name (h.node x).attrs else .error .unwrapNone, priority := 1000 }
/-- `rules/attr.rs`, reading the attribute likewise. `attr.rs:8-95`. -/
def attrMatcher (key : List Char) (mode : AttrMode) (operand : Option (List Char)) : Matcher :=
  { one := some fun x => if h.isElem x then attrRuleOne key mode operand (h.node x).attrs else .error .unwrapNone
    priority := 10 }

/-- `rules/id.rs`. `byId root id` is the answer of the document with that root (`lib.rs:1116-1121`, rphtml's index). -/
def idMatcher (byId : Nat → List Char → Option Nat) (id : List Char) : Matcher :=
  { all := some fun l cache => .ok <|
      match l with
      | [] => []
      | x :: _ =>
        match (h.node x).root.bind fun r => byId r id with
        | none => []
        | some e => if cache.isSome then [e] else if e ∈ l then [e] else []
    priority := 10000
    inCache := true }

/-- `pseudo.rs:27-66 :root`. `isDoc` tells documents from fragments (`lib.rs:184-191`). -/
def rootMatcher (isDoc : Nat → Bool) : Matcher :=
  { spec := some fun x => .ok <|
      if h.isRoot x then
        ((h.children x).filter fun c => tagName h c == "HTML".toList).map fun c => (c, true, false)
      else []
    one := some fun x => .ok (tagName h x == "HTML".toList && match h.parent x with
      | some p => h.isRoot p && isDoc p
      | none => false)
    priority := 10 }

/-- `pseudo.rs:69-99 :empty`. -/
def emptyMatcher : Matcher :=
  { one := some fun x => .ok ((h.kids x).all fun c => (h.node c).kind == .comment), priority := 10 }

/-- `pseudo.rs:102-106 SiblingsNodeData`. -/
structure SibData where
  start : Nat := 0
  stop : Nat := 0
  allow : Option (List Nat) := none
  parent : Option Nat := none

/-- `pseudo.rs:108-150 group_siblings_then_done`: the data passed to the callback, in order. Simplification: the
callbacks run after the grouping, not in between; they do not influence it. -/
def groupLoop (allowFn : Nat → R (Option (List Nat))) : List Nat → Nat → SibData → R (List SibData)
  | [], _, d => .ok (if d.start < d.stop then [d] else [])
  | x :: l, i, d =>
    match h.parent x with
    | none => groupLoop allowFn l (i + 1) d
    | some p =>
      if d.parent = some p then groupLoop allowFn l (i + 1) { d with stop := i + 1 }
      else
        match allowFn (h.children p).length with
        | .error e => .error e
        | .ok a =>
          match groupLoop allowFn l (i + 1) { start := i, stop := i + 1, allow := a, parent := some p } with
          | .error e => .error e
          | .ok ds => .ok (if d.parent.isSome then d :: ds else ds)

/-- `group_siblings_then_done` with a callback that adds elements to the result. `pseudo.rs:108-150`. -/
def groupDo (allowFn : Nat → R (Option (List Nat))) (cb : SibData → R (List Nat)) (l : List Nat) : R (List Nat) :=
  match groupLoop h allowFn l 0 {} with
  | .error e => .error e
  | .ok ds => flatMapR cb ds

/-- `eles[range.start..range.end]`. `pseudo.rs:238`, `289`. -/
def slice (l : List Nat) (d : SibData) : List Nat := (l.take d.stop).drop d.start

/-- `childs[index]` for each index. `pseudo.rs:233-235`. -/
def atAll (childs : List Nat) (is : List Nat) : R (List Nat) :=
  flatMapR (fun i => match childs[i]? with
    | some c => .ok [c]
    | none => .error .outOfBounds) is

/-- `pseudo.rs:246-263`: compare the position with the allowed ones: matched, remaining ones, stop. -/
def allowStep (pos : Nat) : List Nat → Bool × List Nat × Bool
  | [] => (false, [], false)
  | a :: rest =>
    if a = pos then (true, rest, false)
    else if a < pos then (if rest.isEmpty then (false, [], true) else allowStep pos rest)
    else (false, a :: rest, false)

/-- `pseudo.rs:242-268`: the loop over the siblings; `childs` are the children from `start` on. -/
def ascLoop : List Nat → List Nat → Nat → List Nat → List Nat
  | [], _, _, _ => []
  | x :: sibs, childs, start, allow =>
    match childs.idxOf? x with
    | none => ascLoop sibs childs start allow
    | some i =>
      let s := allowStep (start + i) allow
      let rest := if s.2.2 then [] else ascLoop sibs (childs.drop (i + 1)) (start + i + 1) s.2.1
      if s.1 then x :: rest else rest

/-- The part of a list before the last occurrence of an element. `pseudo.rs:297-303`: the search from the end for the position of the child. -/
def beforeLast (x : Nat) (l : List Nat) : Option (List Nat) :=
  match l.reverse.dropWhile (· ≠ x) with
  | [] => none
  | _ :: t => some t.reverse

/-- `pseudo.rs:291-308`: the loop over the reversed children with their positions from the end. Simplification:
`binary_search(..).is_ok()` is membership; that this is so for the lists at hand is `C01_search`. -/
def descLoop (allow : List Nat) : List Nat → Nat → List Nat → List Nat
  | [], _, _ => []
  | c :: cs, i, sibs =>
    if i ∈ allow then
      match beforeLast c sibs with
      | some pre => c :: (if pre.isEmpty then [] else descLoop allow cs (i + 1) pre)
      | none => if sibs.isEmpty then [] else descLoop allow cs (i + 1) sibs
    else descLoop allow cs (i + 1) sibs

/-- `pseudo.rs:219-315 make_asc_or_desc_nth_child_handle`. -/
def nthChildHandle (asc : Bool) (sibs allow childs : List Nat) : R (List Nat) :=
  if asc then
    if sibs.length = childs.length then atAll childs allow
    else .ok (ascLoop sibs childs 0 allow)
  else if sibs.length = childs.length then
    flatMapR (fun i => if childs.length < i + 1 then .error .overflow
      else match childs[childs.length - i - 1]? with
        | some c => .ok [c]
        | none => .error .outOfBounds) allow.reverse
  else .ok (descLoop allow childs.reverse 0 sibs).reverse

/-- `pseudo.rs:318-335 handle_nth_child`. -/
def handleNthChild (asc : Bool) (l : List Nat) (d : SibData) : R (List Nat) :=
  match d.allow with
  | none => .error .unwrapNone
  | some [] => .ok []
  | some allow =>
    match d.parent with
    | none => .error .unwrapNone
    | some p => nthChildHandle asc (slice l d) allow (h.children p)

/-- The element children with their position, counted from the end for `asc = false`; the reversed pass of
`pseudo.rs:178-188` starts at `total - 1`. -/
def specPass (asc : Bool) (mark : List Nat → List Bool) (x : Nat) : R (List (Nat × Bool × Bool)) :=
  if asc then .ok (((h.children x).zip (mark (h.children x))).map fun e => (e.1, e.2, true))
  else if h.childLen x = 0 then .error .overflow
  else .ok (((h.children x).zip (mark (h.children x).reverse).reverse).map fun e => (e.1, e.2, true))

/-- `pseudo.rs:154-206 make_asc_or_desc_nth_child_specified`. -/
def nthChildSpec (asc : Bool) (index : Int) (x : Nat) : R (List (Nat × Bool × Bool)) :=
  if 0 < index then
    specPass h asc (fun l => (List.range l.length).map fun i => decide (i = (index - 1).toNat)) x
  else .ok []

/-- `pseudo.rs:337-379 make_asc_or_desc_nth_child`, the numbers parsed. -/
def nthChildMatcher (asc : Bool) (n index : Option Int) : Matcher :=
  { all := some fun l isAll =>
      match isAll with
      | none => groupDo h (fun t => (getAllowedIndexs n index t).map some) (handleNthChild h asc l) l
      | some _ =>
        match getAllowedIndexs n index l.length with
        | .error e => .error e
        | .ok allow => nthChildHandle asc l allow l
    spec := match n with
      | none => some (nthChildSpec h asc (index.getD 0))
      | some _ => none
    priority := 10 }

/-- `pseudo.rs:393-426 make_first_or_last_child`. -/
def edgeChildMatcher (asc : Bool) : Matcher :=
  { all := some fun l _ => groupDo h (fun _ => .ok (some [0])) (handleNthChild h asc l) l
    spec := some (nthChildSpec h asc 1)
    priority := 10 }

/-- The name counters: `HashMap<String, usize>`. `pseudo.rs:441 NameCounterHashMap`. -/
abbrev Names := List (List Char × Nat)

/-- `pseudo.rs:444-469 get_allowed_name_ele`: matched, and the new counters. `binary_search` as in `descLoop`. -/
def nameStep (allow : List Nat) (names : Names) (x : Nat) : R (Bool × Names) :=
  match names.find? (fun e => e.1 == tagName h x) with
  | some e =>
    .ok (decide (e.2 + 1 ∈ allow), names.map fun f => if f.1 == tagName h x then (f.1, f.2 + 1) else f)
  | none =>
    match allow with
    | [] => .error .outOfBounds
    | a :: _ => .ok (decide (a = 0), names ++ [(tagName h x, 0)])

/-- The marks of a pass of `get_allowed_name_ele` over elements. `pseudo.rs:517-541`, `585-592`. -/
def nameMarks (allow : List Nat) : Names → List Nat → R (List Bool)
  | _, [] => .ok []
  | names, x :: l =>
    match nameStep h allow names x with
    | .error e => .error e
    | .ok (b, names') =>
      match nameMarks allow names' l with
      | .error e => .error e
      | .ok bs => .ok (b :: bs)

/-- `pseudo.rs:472-503 collect_avail_name_eles`: the siblings whose node index is listed. -/
def collectAvail : List Nat → List Nat → List Nat
  | [], _ => []
  | a :: as, sibs =>
    match sibs.dropWhile (fun x => decide (h.index x < a)) with
    | [] => []
    | s :: t => if h.index s = a then s :: collectAvail as t else collectAvail as (s :: t)

/-- `pseudo.rs:564-596 handle_nth_of_type`. -/
def handleNthOfType (asc : Bool) (l : List Nat) (d : SibData) : R (List Nat) :=
  match d.allow with
  | none => .error .unwrapNone
  | some [] => .ok []
  | some allow =>
    match d.parent with
    | none => .error .unwrapNone
    | some p =>
      let order := if asc then h.children p else (h.children p).reverse
      match nameMarks h allow [] order with
      | .error e => .error e
      | .ok bs =>
        let idx := ((order.zip bs).filter (·.2)).map fun e => h.index e.1
        .ok (collectAvail h (if asc then idx else idx.reverse) (slice l d))

/-- `pseudo.rs:506-561 make_asc_or_desc_nth_of_type_specified`. -/
def nthOfTypeSpec (asc : Bool) (index : Int) (x : Nat) : R (List (Nat × Bool × Bool)) :=
  if 0 < index then
    let allow := [(index - 1).toNat]
    if asc then
      match nameMarks h allow [] (h.children x) with
      | .error e => .error e
      | .ok bs => specPass h true (fun _ => bs) x
    else if h.childLen x = 0 then .error .overflow
    else
      match nameMarks h allow [] (h.children x).reverse with
      | .error e => .error e
      | .ok bs => specPass h false (fun _ => bs) x
  else .ok []

/-- `pseudo.rs:599-650 make_asc_or_desc_nth_of_type`. -/
def nthOfTypeMatcher (asc : Bool) (n index : Option Int) : Matcher :=
  { all := some fun l isAll =>
      match isAll with
      | none => groupDo h (fun t => (getAllowedIndexs n index t).map some) (handleNthOfType h asc l) l
      | some _ =>
        match getAllowedIndexs n index l.length with
        | .error e => .error e
        | .ok allow => handleNthOfType h asc l
            { start := 0, stop := l.length, allow := some allow, parent := l.head?.bind h.parent }
    spec := match n with
      | none => some (nthOfTypeSpec h asc (index.getD 0))
      | some _ => none
    priority := 10 }

/-- `pseudo.rs:667-708 make_first_or_last_of_type`. -/
def edgeOfTypeMatcher (asc : Bool) : Matcher :=
  { all := some fun l _ => groupDo h (fun _ => .ok (some [0])) (handleNthOfType h asc l) l
    spec := some (nthOfTypeSpec h asc 1)
    priority := 10 }

/-- `pseudo.rs:735-757`: the loop of `:only-child`. -/
def onlyChildLoop : List Nat → Option Nat → List Nat
  | [], _ => []
  | x :: l, prev =>
    match h.parent x with
    | none => onlyChildLoop l prev
    | some p =>
      if prev = some p then onlyChildLoop l prev
      else if (h.children p).length = 1 then x :: onlyChildLoop l (some p)
      else onlyChildLoop l (some p)

/-- `pseudo.rs:724-764 :only-child`. -/
def onlyChildMatcher : Matcher := { all := some fun l _ => .ok (onlyChildLoop h l none), priority := 10 }

/-- `pseudo.rs:791-804`: the names that occur once, with the position of the child, and the repeated names. -/
def onlyNames : List Nat → Nat → Names → List (List Char) → Names
  | [], _, only, _ => only
  | c :: cs, i, only, rep =>
    let name := tagName h c
    if rep.contains name then onlyNames cs (i + 1) only rep
    else
      match only.findIdx? (fun e => e.1 == name) with
      | some k => onlyNames cs (i + 1) (only.eraseIdx k) (rep ++ [name])
      | none => onlyNames cs (i + 1) (only ++ [(name, i)]) rep

/-- `pseudo.rs:813-823`: the first sibling with each name, in order. -/
def firstNamed : Names → List Nat → List Nat
  | [], _ => []
  | e :: es, sibs =>
    match sibs.dropWhile (fun x => decide (tagName h x ≠ e.1)) with
    | [] => firstNamed es sibs
    | s :: t => s :: firstNamed es t

/-- `pseudo.rs:780-825`: the callback of `:only-of-type`. -/
def onlyOfTypeCb (l : List Nat) (d : SibData) : R (List Nat) :=
  match d.parent with
  | none => .error .unwrapNone
  | some p =>
    let childs := h.children p
    let sibs := slice l d
    let only := onlyNames h childs 0 [] []
    if sibs.length = childs.length then atAll sibs (only.map (·.2))
    else .ok (firstNamed h only sibs)

/-- `pseudo.rs:767-833 :only-of-type`. -/
def onlyOfTypeMatcher : Matcher :=
  { all := some fun l _ => groupDo h (fun _ => .ok none) (onlyOfTypeCb h l) l, priority := 10 }

/-- `pseudo.rs:836-852 :not`. Simplification: the inner selector is given parsed; the code parses it at every call. -/
def notMatcher (sel : List Proc) : Matcher := { all := some fun l _ => notSel h l sel, priority := 10 }
/-- `pseudo.rs:899-915 :has`, the inner selector given parsed. -/
def hasMatcher (sel : List Proc) : Matcher := { all := some fun l _ => hasSel h l sel, priority := 10 }
/-- `rule.rs:300-310 make_alias`, the alias given parsed. -/
def aliasMatcher (sel : List Proc) : Matcher := { all := some fun l _ => filterSel h l sel, priority := 10 }

/-- `pseudo.rs:863-871`: the text searched for; quotes are stripped. -/
def containsText (matched : List Char) : List Char :=
  match matched with
  | [] => []
  | c :: cs => if c = '"' ∨ c = '\'' then (c :: cs).dropLast.drop 1 else c :: cs

/-- `pseudo.rs:855-894 :contains`. `text` is `text_contents` (`lib.rs:228-236`, rphtml's renderer). -/
def containsMatcher (text : Nat → List Char) (matched : List Char) : Matcher :=
  { one := some fun x => .ok (matched.isEmpty || containsChars (text x) (containsText matched)), priority := 10 }

/-- `pseudo.rs:958-964`: is there an `option` before the element among its siblings. -/
def optionBefore : Nat → Nat → R Bool
  | 0, _ => .error .diverge
  | n + 1, x =>
    match h.prevElem x with
    | .error e => .error e
    | .ok none => .ok false
    | .ok (some p) => if isEqualChars (tagNames h p) "option".toList then .ok true else optionBefore n p

/-- `pseudo.rs:966-988 check_selected_option`. -/
def selectedOption : Nat → Nat → R Bool
  | 0, _ => .error .diverge
  | n + 1, x =>
    if isEqualChars (tagNames h x) "option".toList then hasAttr h x "selected".toList
    else anyR (selectedOption n) (h.children x)

/-- `pseudo.rs:990-996`: is there a selected option in an element after this one. -/
def selectedAfter : Nat → Nat → R Bool
  | 0, _ => .error .diverge
  | n + 1, x =>
    match h.nextElem x with
    | none => .ok false
    | some y =>
      match selectedOption h h.fuel y with
      | .error e => .error e
      | .ok true => .ok true
      | .ok false => selectedAfter n y

/-- `pseudo.rs:952-1002`: an `option` without `selected`. -/
def defaultOption (x : Nat) : R Bool :=
  match h.parent x with
  | none => .ok false
  | some p =>
    if isEqualChars (tagNames h p) "select".toList then
      match hasAttr h p "multiple".toList with
      | .error e => .error e
      | .ok true => .ok false
      | .ok false =>
        match optionBefore h h.fuel x with
        | .error e => .error e
        | .ok true => .ok false
        | .ok false => (selectedAfter h h.fuel x).map not
    else .ok false

/-- `pseudo.rs:926-1008 :checked` on one element. -/
def checkedOne (x : Nat) : R Bool :=
  if isEqualChars (tagNames h x) "input".toList then
    match getAttribute (h.node x).attrs "type".toList with
    | .error e => .error e
    | .ok (some (.value t _)) =>
      if lowerStr t = "checkbox".toList ∨ lowerStr t = "radio".toList then hasAttr h x "checked".toList else .ok false
    | .ok _ => .ok false
  else if isEqualChars (tagNames h x) "option".toList then
    match hasAttr h x "selected".toList with
    | .error e => .error e
    | .ok true => .ok true
    | .ok false => defaultOption h x
  else .ok false

/-- `pseudo.rs:918-1013 :checked`. -/
def checkedMatcher : Matcher := { one := some (checkedOne h), priority := 10 }

end Visdom
