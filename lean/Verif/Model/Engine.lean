import Verif.Model.Sets
/-!
# The query engine

Model of `src/mesdoc/selector/mod.rs:19-78, 220-315` (combinators, `optimize`, `head_combinator`),
`src/mesdoc/selector/rule.rs:22-60` (`Matcher`) and `src/mesdoc/interface/elements.rs:500-1003, 1097-1141,
1776-1953` (evaluation). The heap does not change while a selector is evaluated, so the closures of a matcher
are functions of node numbers.
-/
namespace Visdom

/-- `Vec::extend` of the results of a call per element, stopping at the first panic. Used for the loops of `elements.rs:587-910`. -/
def flatMapR {α β : Type} (f : α → R (List β)) : List α → R (List β)
  | [] => .ok []
  | a :: l =>
    match f a with
    | .error p => .error p
    | .ok x =>
      match flatMapR f l with
      | .error p => .error p
      | .ok y => .ok (x ++ y)

/-- Keep the elements for which the test answers true, stopping at the first panic. Used for the loops of `elements.rs:587-910`, `rule.rs:46-59`. -/
def filterR {α : Type} (f : α → R Bool) : List α → R (List α)
  | [] => .ok []
  | a :: l =>
    match f a with
    | .error p => .error p
    | .ok b =>
      match filterR f l with
      | .error p => .error p
      | .ok y => .ok (if b then a :: y else y)

/-- `for … { if test { return true } } false`. Used for the loops of `elements.rs:1776-1953`. -/
def anyR {α : Type} (f : α → R Bool) : List α → R Bool
  | [] => .ok false
  | a :: l =>
    match f a with
    | .error p => .error p
    | .ok true => .ok true
    | .ok false => anyR f l

/-- `selector/mod.rs:20-41`. -/
inductive Comb where
  | childrenAll | children | parent | parentAll | nextAll | next | prevAll | prev | siblings | chain
  deriving DecidableEq, Repr

/-- `selector/mod.rs:57-69 reverse`. -/
def Comb.reverse : Comb → R Comb
  | .childrenAll => .ok .parentAll
  | .children => .ok .parent
  | .nextAll => .ok .prevAll
  | .next => .ok .prev
  | .chain => .ok .chain
  | _ => .error .explicit

/-- `rule.rs:22-29 Matcher`. The second argument of a `one_handle` is not modelled: every rule ignores it. A
`specified_handle` is the list of its callback calls `(child, is_matched, loop_child)`. -/
structure Matcher where
  one : Option (Nat → R Bool) := none
  all : Option (List Nat → Option Bool → R (List Nat)) := none
  spec : Option (Nat → R (List (Nat × Bool × Bool))) := none
  priority : Nat := 0
  inCache : Bool := false

/-- `rule.rs:46-58 apply`. -/
def Matcher.apply (m : Matcher) (l : List Nat) (c : Option Bool) : R (List Nat) :=
  match m.all with
  | some f => f l c
  | none =>
    match m.one with
    | some g => filterR g l
    | none => .error .unwrapNone

/-- `rule.rs:60-63 get_all_handle`. -/
def Matcher.getAll (m : Matcher) (l : List Nat) (c : Option Bool) : R (List Nat) :=
  match m.all with
  | some f => f l c
  | none => .error .unwrapNone

/-- `selector/mod.rs:71 SelectorSegment`. -/
abbrev Seg := Matcher × Comb
/-- A compound: the simple selectors between two combinators. `selector/mod.rs:71-76`, `206-218`: a list of segments. -/
abbrev Cmpd := List Seg

/-- `selector/mod.rs:72-76 QueryProcess`. -/
structure Proc where
  shouldIn : Option (List Cmpd) := none
  query : List Cmpd

variable (h : Heap)

/-- `elements.rs:602-616`: depth first search with a `one_handle`. -/
def dfsOne (g : Nat → R Bool) : Nat → Nat → R (List Nat)
  | 0, _ => .error .diverge
  | n + 1, x => flatMapR (fun c =>
      match g c with
      | .error p => .error p
      | .ok b =>
        match (if 0 < h.childLen c then dfsOne g n c else .ok []) with
        | .error p => .error p
        | .ok y => .ok (if b then c :: y else y)) (h.children x)

/-- `elements.rs:633-650`: depth first search with a `specified_handle`. -/
def dfsSpec (s : Nat → R (List (Nat × Bool × Bool))) : Nat → Nat → R (List Nat)
  | 0, _ => .error .diverge
  | n + 1, x =>
    match s x with
    | .error p => .error p
    | .ok l => flatMapR (fun e =>
        match (if e.2.2 && decide (0 < h.childLen e.1) then dfsSpec s n e.1 else .ok []) with
        | .error p => .error p
        | .ok y => .ok (if e.2.1 then e.1 :: y else y)) l

/-- `elements.rs:677-684`: which children are the next one in the list of matched ones. -/
def markMatched : List Nat → List Nat → List (Nat × Bool)
  | [], _ => []
  | c :: cs, [] => (c, false) :: markMatched cs []
  | c :: cs, m :: ms => if c = m then (c, true) :: markMatched cs ms else (c, false) :: markMatched cs (m :: ms)

/-- `elements.rs:669-693`: depth first search with an `all_handle`. -/
def dfsAll (f : List Nat → Option Bool → R (List Nat)) : Nat → Nat → R (List Nat)
  | 0, _ => .error .diverge
  | n + 1, x =>
    let childs := h.children x
    if childs.isEmpty then .ok []
    else
      match f childs (some false) with
      | .error p => .error p
      | .ok matched => flatMapR (fun e =>
          match (if 0 < h.childLen e.1 then dfsAll f n e.1 else .ok []) with
          | .error p => .error p
          | .ok y => .ok (if e.2 then e.1 :: y else y)) (markMatched childs matched)

/-- `elements.rs:618-628` and its two copies: several elements are first reduced to the topmost ones. -/
def overTops (exec : Nat → R (List Nat)) (l : List Nat) : R (List Nat) :=
  if 1 < l.length then
    match uniqueParents h l with
    | .error p => .error p
    | .ok u => flatMapR exec u
  else flatMapR exec l

/-- `elements.rs:775-787` and `798-807`: the ancestors below the root, topmost first. -/
def ancestorsFuel : Nat → Nat → R (List Nat)
  | 0, _ => .error .diverge
  | n + 1, x =>
    match h.parent x with
    | none => .ok []
    | some p =>
      if h.isRoot p then .ok []
      else
        match ancestorsFuel n p with
        | .error e => .error e
        | .ok l => .ok (l ++ [p])

/-- The steps allowed to a recursion through the tree. No counterpart in `/repo`: the recursions (`elements.rs:602-650`, `748-800`, `lib.rs:1011-1060`) are over the tree, and a path in a tree is not longer than the heap. -/
def Heap.fuel : Nat := h.size + 1

/-- `elements.rs:748-765`: the parents that are not the root. -/
def parentsOf (l : List Nat) : List Nat :=
  l.filterMap fun x => (h.parent x).bind fun p => if h.isRoot p then none else some p

/-- `elements.rs:587-910 select_by_rule`, the combinator given. In the `ParentAll` case with a `one_handle` the test
of every ancestor happens during the walk; here it follows the walk, which gives the same list and panics in the
same cases. -/
def selectByRule (l : List Nat) (m : Matcher) (comb : Comb) : R (List Nat) :=
  match comb with
  | .childrenAll =>
    match m.one with
    | some g => overTops h (dfsOne h g h.fuel) l
    | none =>
      match m.spec with
      | some s => overTops h (dfsSpec h s h.fuel) l
      | none =>
        match m.all with
        | some f => overTops h (dfsAll h f h.fuel) l
        | none => .error .unwrapNone
  | .children =>
    match m.one with
    | some g => flatMapR (fun x => filterR g (h.children x)) l
    | none =>
      match m.spec with
      | some s => flatMapR (fun x => (s x).map fun l => (l.filter (·.2.1)).map (·.1)) l
      | none =>
        match m.all with
        | some f => flatMapR (fun x => f (h.children x) (some false)) l
        | none => .error .unwrapNone
  | .parent =>
    let parents := parentsOf h (uniqueSiblingFirst h l)
    match m.one with
    | some g => filterR g parents
    | none => m.getAll parents none
  | .parentAll =>
    match flatMapR (ancestorsFuel h h.fuel) l with
    | .error p => .error p
    | .ok all =>
      match m.one with
      | some g => (filterR g all).map (sortAndUnique h)
      | none => m.getAll (sortAndUnique h all) none
  | .nextAll => flatMapR (fun x =>
      match h.nextElems x with
      | .error p => .error p
      | .ok ns => m.apply ns none) (uniqueSiblingFirst h l)
  | .next =>
    let nexts := l.filterMap h.nextElem
    match m.one with
    | some g => filterR g nexts
    | none => m.apply nexts none
  | .prevAll => flatMapR (fun x =>
      match h.prevElems x with
      | .error p => .error p
      | .ok ns => m.apply ns none) (uniqueSiblingLast h l)
  | .prev =>
    match flatMapR (fun x => (h.prevElem x).map Option.toList) l with
    | .error p => .error p
    | .ok prevs =>
      match m.one with
      | some g => filterR g prevs
      | none => m.apply prevs none
  | .siblings => flatMapR (fun e =>
      match (if e.2 then .ok (h.children e.1) else h.siblings e.1) with
      | .error p => .error p
      | .ok ns => m.apply ns none) (uniqueAllSiblings h l)
  | .chain => m.apply l none

/-- The `ParentAll` case of `elements.rs:1905-1923` for one element: some proper ancestor is in the set. -/
def hasAncestor (S : List Nat) : Nat → Nat → R Bool
  | 0, _ => .error .diverge
  | n + 1, x =>
    match h.parent x with
    | none => .ok false
    | some p =>
      if p ∈ S then .ok true
      else
        match h.parent p with
        | none => .ok false
        | some a => if a ∈ S then .ok true else hasAncestor S n a

/-- `elements.rs:1894-1952`, the last part of `has_ele`: is some element of the set related to one of the elements. -/
def hasRelated (S : List Nat) (comb : Comb) (l : List Nat) : R Bool :=
  match comb with
  | .parent => .ok (l.any fun x => match h.parent x with
      | some p => decide (p ∈ S)
      | none => false)
  | .parentAll => anyR (hasAncestor h S h.fuel) l
  | .prev => anyR (fun x => (h.prevElem x).map fun o => match o with
      | some p => decide (p ∈ S)
      | none => false) l
  | .prevAll => anyR (fun x => (h.prevElems x).map fun ps => ps.any fun p => decide (p ∈ S)) l
  | .chain => .ok (l.any fun x => decide (x ∈ S))
  | _ => .error .explicit

/-- `elements.rs:1876 has_ele` without a lookup (`contains`, `1871`). -/
def hasEle0 (S : List Nat) (x : Nat) (comb : Comb) : R Bool :=
  match comb.reverse with
  | .error p => .error p
  | .ok c => hasRelated h S c [x]

/-- `elements.rs:1871-1873 contains`. -/
def containsQ (S : List Nat) (x : Nat) (comb : Comb) : R Bool := hasEle0 h S x comb

/-- The later rules of a compound (`elements.rs:1847-1854`): each one filters, stopping at an empty set. -/
def selectRest (l : List Nat) : List Seg → R (List Nat)
  | [] => .ok l
  | s :: ss =>
    if l.isEmpty then .ok l
    else
      match selectByRule h l s.1 s.2 with
      | .error p => .error p
      | .ok l' => selectRest l' ss

/-- `elements.rs:1826-1846`: the first rule of a compound. -/
def selectFirst (l : List Nat) (m : Matcher) (comb : Comb) : R (List Nat) :=
  if m.inCache && comb == .childrenAll then
    match m.apply l (some true) with
    | .error p => .error p
    | .ok cached => (filterR (fun x => hasEle0 h l x comb) cached).map (sortAndUnique h)
  else selectByRule h l m comb

/-- `elements.rs:1820-1856 select`. -/
def select (l : List Nat) (rules : Cmpd) (comb : Option Comb) : R (List Nat) :=
  match rules with
  | [] => .error .outOfBounds
  | s :: ss =>
    match selectFirst h l s.1 (comb.getD s.2) with
    | .error p => .error p
    | .ok l' => selectRest h l' ss

/-- The upward walk of `elements.rs:1882-1893` over the reversed compounds: the elements reached and the next
combinator, or `none` when a compound finds nothing. -/
def lookUp (l : List Nat) (c : Comb) : List Cmpd → R (Option (List Nat × Comb))
  | [] => .ok (some (l, c))
  | rules :: rest =>
    match select h l rules (some c) with
    | .error p => .error p
    | .ok found =>
      if found.isEmpty then .ok none
      else
        match rules with
        | [] => .error .outOfBounds
        | s :: _ =>
          match s.2.reverse with
          | .error p => .error p
          | .ok c' => lookUp found c' rest

/-- `elements.rs:1876-1953 has_ele` with a lookup. -/
def hasEle (S : List Nat) (x : Nat) (comb : Comb) (lookup : List Cmpd) : R Bool :=
  match comb.reverse with
  | .error p => .error p
  | .ok c =>
    match lookUp h [x] c lookup.reverse with
    | .error p => .error p
    | .ok none => .ok false
    | .ok (some (l, c')) => hasRelated h S c' l

/-- The remaining compounds of a query (`elements.rs:1799-1809`), stopping at an empty set. -/
def selectChain (l : List Nat) : List Cmpd → R (List Nat)
  | [] => .ok l
  | rules :: rest =>
    if l.isEmpty then .ok l
    else
      match select h l rules none with
      | .error p => .error p
      | .ok l' => selectChain l' rest

/-- The elements found by the first compound of a query (`elements.rs:1781-1798`). -/
def findFirst (S : List Nat) (shouldIn : Option (List Cmpd)) (first : Cmpd) : R (List Nat) :=
  match shouldIn with
  | some lookup =>
    match select h S first (some .childrenAll) with
    | .error p => .error p
    | .ok found =>
      match first with
      | [] => .error .outOfBounds
      | s :: _ => filterR (fun x => hasEle h S x s.2 lookup) found
  | none => select h S first none

/-- One process of `find_selector` (`elements.rs:1780-1813`). -/
def findProc (S : List Nat) (p : Proc) : R (List Nat) :=
  match p.query with
  | [] => .error .outOfBounds
  | first :: rest =>
    match findFirst h S p.shouldIn first with
    | .error e => .error e
    | .ok group => selectChain h group rest

/-- The loop over the processes (`elements.rs:1779-1814`); an empty group is not added. -/
def findProcs (S : List Nat) : List Proc → List Nat → R (List Nat)
  | [], res => .ok res
  | p :: ps, res =>
    match findProc h S p with
    | .error e => .error e
    | .ok group =>
      if group.isEmpty then findProcs S ps res
      else
        match addElems h res group with
        | .error e => .error e
        | .ok res' => findProcs S ps res'

/-- `elements.rs:1776-1817 find_selector`. -/
def findSelector (S : List Nat) (sel : List Proc) : R (List Nat) :=
  if S.isEmpty then .ok [] else findProcs h S sel []

/-- `selector/mod.rs:227-228`: stable sort by descending priority. -/
def sortPriority (r : Cmpd) : Cmpd := r.insertionSort fun a b => b.1.priority ≤ a.1.priority

/-- `selector/mod.rs:225-239`: one compound is sorted; the first simple selector carries the combinator. -/
def optimizeCmpd (r : Cmpd) : Cmpd :=
  match r with
  | [] => []
  | [s] => [s]
  | s :: t :: ss =>
    match sortPriority (s :: t :: ss) with
    | [] => []
    | a :: as => if a.2 ≠ s.2 then (a.1, s.2) :: as.map (fun n => (n.1, Comb.chain)) else a :: as

/-- Total priority of a compound (`selector/mod.rs:240-241`). -/
def cmpdPriority (r : Cmpd) : Nat := (r.map (·.1.priority)).sum

/-- `selector/mod.rs:242-246`: the position of the first compound of greatest total priority, 0 if all are 0. -/
def maxIndex : List Cmpd → Nat → Nat → Nat → Nat
  | [], _, mi, _ => mi
  | r :: rs, i, mi, mp => if mp < cmpdPriority r then maxIndex rs (i + 1) i (cmpdPriority r) else maxIndex rs (i + 1) mi mp

/-- `selector/mod.rs:220-268 optimize` for one group. -/
def optimizeGroup (lookup : Bool) (g : List Cmpd) : Proc :=
  let g' := g.map optimizeCmpd
  let mi := if lookup then maxIndex g' 0 0 0 else 0
  if lookup && decide (0 < mi) &&
      (match g' with
       | ((_, c) :: _) :: _ => c == .children || c == .childrenAll
       | _ => false)
  then { shouldIn := some (g'.take mi), query := g'.drop mi }
  else { query := g' }

/-- The matcher of `*` (`rules/all.rs:5-17`). -/
def allMatcher : Matcher := { all := some fun l _ => .ok l }

/-- The head compound gets the combinator, or a `*` with it is put in front (`selector/mod.rs:278-285`). -/
def headCmpds (c : Comb) : List Cmpd → List Cmpd
  | ((m, .childrenAll) :: ss) :: rest => ((m, c) :: ss) :: rest
  | [] => []
  | l => [(allMatcher, c)] :: l

/-- `selector/mod.rs:270-288 head_combinator`. -/
def headComb (c : Comb) (p : Proc) : Proc :=
  match p.shouldIn with
  | some si => { p with shouldIn := some (headCmpds c si) }
  | none => { p with query := headCmpds c p.query }

end Visdom
