import Verif.Model.Engine
/-!
# Filtering and navigation methods

Model of `elements.rs:500-583, 919-1003, 1261-1774, 1987-1992, 2109-2114, 2234-2239, 2347-2416`. The methods take
the parsed selector; parsing is modelled apart (`Model/Parser.lean`).
-/
namespace Visdom
variable (h : Heap)

/-- `node.rs:59-65 root_element`, the node itself where there is none (`elements.rs:952-954`). Simplification: the
document of a root node is alive and has that node as its root. -/
def rootElem (x : Nat) : Nat := ((h.node x).root).getD x

/-- `elements.rs:935-970`: the elements of `self` kept by one process, and the remembered root. -/
def filterProc (X : List Nat) (root : Option Nat) (p : Proc) : R (List Nat × Option Nat) :=
  match p.query.getLast? with
  | none => .ok ([], root)
  | some [] => .error .outOfBounds
  | some (s :: ss) =>
    match selectByRule h X s.1 .chain with
    | .error e => .error e
    | .ok f0 =>
      match selectRest h f0 ss with
      | .error e => .error e
      | .ok [] => .ok ([], root)
      | .ok (x :: f) =>
        if 1 < p.query.length then
          let r := root.getD (rootElem h x)
          match filterR (fun e => hasEle h [r] e s.2 p.query.dropLast) (x :: f) with
          | .error e => .error e
          | .ok l => .ok (l, some r)
        else .ok (x :: f, root)

/-- `elements.rs:930-982` for `Filter`, `Not` and `IsAll`: the union of what the processes keep. -/
def filterProcs (X : List Nat) : List Proc → Option Nat → List Nat → R (List Nat)
  | [], _, res => .ok res
  | p :: ps, root, res =>
    match filterProc h X root p with
    | .error e => .error e
    | .ok (f, root') =>
      if f.isEmpty then filterProcs X ps root' res
      else
        match addElems h res f with
        | .error e => .error e
        | .ok res' => filterProcs X ps root' res'

/-- `elements.rs:930-982` for `Is`: stop at the first process that keeps something. -/
def isProcs (X : List Nat) : List Proc → Option Nat → R Bool
  | [], _ => .ok false
  | p :: ps, root =>
    match filterProc h X root p with
    | .error e => .error e
    | .ok (f, root') => if f.isEmpty then isProcs X ps root' else .ok true

/-- `elements.rs:1136-1141 filter` of a parsed selector (`trigger_method`, `110-124`: nothing happens on an empty
set). -/
def filterSel (X : List Nat) (sel : List Proc) : R (List Nat) :=
  if X.isEmpty then .ok [] else filterProcs h X sel none []

/-- `elements.rs:2234-2239 not`, with `987-995`. -/
def notSel (X : List Nat) (sel : List Proc) : R (List Nat) :=
  if X.isEmpty then .ok []
  else (filterProcs h X sel none []).map fun res => if res.isEmpty then X else notIn X res

/-- `elements.rs:1987-1992 is`. -/
def isSel (X : List Nat) (sel : List Proc) : R Bool := if X.isEmpty then .ok false else isProcs h X sel none

/-- `elements.rs:2109-2114 is_all`, with `984-986`. -/
def isAllSel (X : List Nat) (sel : List Proc) : R Bool :=
  if X.isEmpty then .ok false
  else (filterProcs h X sel none []).map fun res => decide (res.length = X.length)

/-- `elements.rs:2349-2363`, the inner function of `has`. -/
def hasLoop (sel : List Proc) : Nat → Nat → R Bool
  | 0, _ => .error .diverge
  | n + 1, x =>
    if (h.children x).isEmpty then .ok false
    else
      match isProcs h (h.children x) sel none with
      | .error e => .error e
      | .ok true => .ok true
      | .ok false => anyR (hasLoop sel n) (h.children x)

/-- `elements.rs:2347-2367 has`. -/
def hasSel (X : List Nat) (sel : List Proc) : R (List Nat) :=
  if X.isEmpty then .ok [] else filterR (hasLoop h sel h.fuel) X

/-- `elements.rs:2400-2414`, the inner function of `has_in`. -/
def hasInLoop (S : List Nat) : Nat → Nat → R Bool
  | 0, _ => .error .diverge
  | n + 1, x =>
    if (h.children x).isEmpty then .ok false
    else if isIn (h.children x) S then .ok true
    else anyR (hasInLoop S n) (h.children x)

/-- `elements.rs:2399-2416 has_in`. -/
def hasIn (X S : List Nat) : R (List Nat) := filterR (hasInLoop h S h.fuel) X

/-- `elements.rs:502-512 select_with_comb`; `none` is the empty selector string. -/
def selectWithComb (X : List Nat) (sel : Option (List Proc)) (c : Comb) : R (List Nat) :=
  match sel with
  | none => findSelector h X [{ query := [[(allMatcher, c)]] }]
  | some ps => if X.isEmpty then .ok [] else findSelector h X (ps.map (headComb c))

/-- `elements.rs:1261 children`. -/
def childrenSel (X : List Nat) (sel : Option (List Proc)) : R (List Nat) := selectWithComb h X sel .children
/-- `elements.rs:1294 prev`. -/
def prevSel (X : List Nat) (sel : Option (List Proc)) : R (List Nat) := selectWithComb h X sel .prev
/-- `elements.rs:1329 prev_all`. -/
def prevAllSel (X : List Nat) (sel : Option (List Proc)) : R (List Nat) :=
  selectWithComb h (uniqueSiblingLast h X) sel .prevAll
/-- `elements.rs:1408 next`. -/
def nextSel (X : List Nat) (sel : Option (List Proc)) : R (List Nat) := selectWithComb h X sel .next
/-- `elements.rs:1442 next_all`. -/
def nextAllSel (X : List Nat) (sel : Option (List Proc)) : R (List Nat) :=
  selectWithComb h (uniqueSiblingFirst h X) sel .nextAll
/-- `elements.rs:1598 parent`. -/
def parentSel (X : List Nat) (sel : Option (List Proc)) : R (List Nat) :=
  selectWithComb h (uniqueSiblingFirst h X) sel .parent
/-- `elements.rs:1635 parents`. -/
def parentsSel (X : List Nat) (sel : Option (List Proc)) : R (List Nat) :=
  (selectWithComb h (uniqueSiblingFirst h X) sel .parentAll).map (sortAndUnique h)

/-- `elements.rs:1515-1566 siblings`; `none` is the blank selector string. The selector is parsed twice, once for
each head combinator. -/
def siblingsSel (X : List Nat) (sel : Option (List Proc)) : R (List Nat) :=
  let mk (c : Comb) : List Proc := match sel with
    | none => [{ query := [[(allMatcher, c)]] }]
    | some ps => ps.map (headComb c)
  (flatMapR (fun e => findSelector h [e.1] (mk (if e.2 then .children else .siblings))) (uniqueAllSiblings h X)).map
    (sortElems h)

/-- `elements.rs:553-559`: is the element found to be added. -/
def untilAdds (filt : Option (List Proc)) (l : List Nat) : R Bool :=
  match filt with
  | none => .ok true
  | some f => isProcs h l f none

/-- The walk of `elements.rs:543-575` from one element. `find_selector` with a one segment selector is
`select_by_rule` followed by the union with the empty set; a walk along `Next`, `Prev` or `Parent` finds at most one
element, and only the first one is used. -/
def untilWalk (c : Comb) (til : List Proc) (filt : Option (List Proc)) (contains : Bool) : Nat → Nat → R (List Nat)
  | 0, _ => .error .diverge
  | n + 1, x =>
    match selectByRule h [x] allMatcher c with
    | .error e => .error e
    | .ok l =>
      match l with
      | [] => .ok []
      | y :: _ =>
        match isProcs h l til none with
        | .error e => .error e
        | .ok true =>
          if contains then (untilAdds h filt l).map fun add => if add then [y] else []
          else .ok []
        | .ok false =>
          match untilAdds h filt l with
          | .error e => .error e
          | .ok add => (untilWalk c til filt contains n y).map fun rest => if add then y :: rest else rest

/-- `elements.rs:515-583 select_with_comb_until`. -/
def selectUntil (X : List Nat) (c : Comb) (til : List Proc) (filt : Option (List Proc)) (contains : Bool) :
    R (List Nat) := flatMapR (untilWalk h c til filt contains h.fuel) X

/-- `elements.rs:1367 prev_until`. -/
def prevUntil (X : List Nat) (u : List Proc) (f : Option (List Proc)) (contains : Bool) : R (List Nat) :=
  (selectUntil h (uniqueSiblingLast h X) .prev u f contains).map fun l => if 1 < l.length then l.reverse else l
/-- `elements.rs:1479 next_until`. -/
def nextUntil (X : List Nat) (u : List Proc) (f : Option (List Proc)) (contains : Bool) : R (List Nat) :=
  selectUntil h (uniqueSiblingFirst h X) .next u f contains
/-- `elements.rs:1673 parents_until`. -/
def parentsUntil (X : List Nat) (u : List Proc) (f : Option (List Proc)) (contains : Bool) : R (List Nat) :=
  (selectUntil h (uniqueSiblingFirst h X) .parent u f contains).map (sortAndUnique h)

/-- The walk of `elements.rs:1746-1764`: the element or its nearest ancestor below the root that matches. -/
def closestWalk (sel : List Proc) : Nat → Nat → R (Option Nat)
  | 0, _ => .error .diverge
  | n + 1, x =>
    match isProcs h [x] sel none with
    | .error e => .error e
    | .ok true => .ok (some x)
    | .ok false =>
      match h.parent x with
      | none => .ok none
      | some p => if h.isRoot p then .ok none else closestWalk sel n p

/-- `elements.rs:1719-1774 closest`; `none` is the empty selector string. Simplification: the elements to
propagate are those not among the self matches; the code asks the same question once per element. -/
def closest (X : List Nat) (sel : Option (List Proc)) : R (List Nat) :=
  match sel with
  | none => .ok []
  | some ps =>
    match filterR (fun x => isProcs h [x] ps none) X with
    | .error e => .error e
    | .ok selfs =>
      let props := X.filter fun x => decide (x ∉ selfs)
      if props.isEmpty then .ok selfs
      else
        (flatMapR (fun x => (closestWalk h ps h.fuel x).map Option.toList) (uniqueSiblingFirst h props)).map
          fun found => sortAndUnique h (selfs ++ found)

end Visdom
