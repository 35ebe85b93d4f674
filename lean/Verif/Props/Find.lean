import Verif.Proofs.FindProps
import Verif.Spec.Samples
/-!
# C17–C21: `find`

`Sel h r (· ∈ S) (steps h r env cx) e` says that `e` satisfies the last compound and is linked by the combinators,
through elements satisfying the earlier compounds, to a member of `S`. `FindOk` (Spec/Side.lean) names the selectors
for which the library is right; the theorems about `Basic` selectors have no condition on the answers or on the shape
of the document.
-/
namespace Visdom
open Spec
variable {h : Heap} {r : Nat} {env : Env}

/-! ## C17 -/

/-- C17, proved part: whenever `find` with one complex selector answers, it returns exactly the elements selected.
Missing: selectors that violate `FindOk`, where the library is wrong (`C17_fails_id`, `C17_fails_nth`). -/
theorem C17_find_exact_partial (wf : TreeWF h r) (ev : Metas h r) {ph : Phase} {cx : Complex} (hok : FindOk h r env false ph cx)
    {S res : List Nat} (hS : Nodes h r S) (hi : Inv h r ph S) (hr : find h env S [cx] = .ok res) :
    ∀ e, e ∈ res ↔ Sel h r (· ∈ S) (steps h r env cx) e :=
  ((find_all wf ev hok hS hi).1 res hr).2.2

/-- C17 without side conditions for selectors made of types, classes, attributes, `:root`, `:empty`, `:contains`,
`:checked` and `*`, joined by any of the four combinators, from any set in document order. -/
theorem C17_find_basic (wf : TreeWF h r) (ev : Metas h r) {cx : Complex} (hb : Basic cx) {S res : List Nat} (hS : Nodes h r S)
    (hs : DocSorted h r S) (hr : find h env S [cx] = .ok res) :
    ∀ e, e ∈ res ↔ Sel h r (· ∈ S) (steps h r env cx) e :=
  C17_find_exact_partial (ph := .sorted) wf ev (basic_findOk hb (by simp)) hS hs hr

/-- C17: `find` returns only elements below a member of the starting set or beside it, all of them elements of the
document. -/
theorem C17_find_elements (wf : TreeWF h r) (ev : Metas h r) {ph : Phase} {cx : Complex} (hok : FindOk h r env false ph cx)
    {S res : List Nat} (hS : Nodes h r S) (hi : Inv h r ph S) (hr : find h env S [cx] = .ok res) : Elems h r res :=
  ((find_all wf ev hok hS hi).1 res hr).1

theorem nodes_root (wf : TreeWF h r) : Nodes h r [r] := by
  intro x hx
  rw [List.mem_singleton.1 hx]
  exact ⟨.self, Or.inr rfl⟩

theorem anti_single (x : Nat) : AntiSorted h r [x] := List.pairwise_singleton _ _
theorem docSorted_single (x : Nat) : DocSorted h r [x] := List.pairwise_singleton _ _

/-- `* > p`: the search starts at `p` and looks upwards. -/
example : Basic [(.childrenAll, [.all]), (.children, [ty "p"])] ∧ looked [(.childrenAll, [.all]), (.children, [ty "p"])] = true ∧
    Nodes demo 0 [0] ∧ DocSorted demo 0 [0] ∧
    find demo env0 [0] [[(.childrenAll, [.all]), (.children, [ty "p"])]] = .ok [2, 6] :=
  ⟨⟨by decide, by decide⟩, by decide, nodes_root demo_wf, docSorted_single 0, by decide⟩

/-- `div > :not(p)` on the sample document. -/
example : FindOk demo 0 env0 true .anti [(.childrenAll, [ty "div"]), (.children, [.not [[(.childrenAll, [ty "p"])]]])] ∧
    find demo env0 [0] [[(.childrenAll, [ty "div"]), (.children, [.not [[(.childrenAll, [ty "p"])]]])]] = .ok [5, 7] := by
  refine ⟨⟨by decide, ?_⟩, by decide⟩
  rw [if_neg (by decide)]
  refine ⟨by decide, basic_cmpdOk (by decide) (by decide) _ _, by decide, by decide, ?_, by decide, trivial⟩
  refine ⟨by decide, fun s hs => ⟨fun _ => ?_, Or.inl rfl⟩⟩
  rw [List.mem_singleton.1 hs, Sim.Ok]
  refine ⟨fun _ _ => Or.inl (by decide), ?_⟩
  simp [innersOk, innerOk, stepOk, simsOk, Sim.Ok, ty, Comb.down]

/-- C17 is false as stated: `> #x` finds the element with that id although it is not a child. -/
theorem C17_fails_id : find demo env6 [0] [[(.children, [.id "x".toList])]] = .ok [6] ∧ 6 ∉ demo.kids 0 ∧
    ¬ Sel demo 0 (· ∈ [0]) (steps demo 0 env6 [(.children, [.id "x".toList])]) 6 := by
  refine ⟨by decide, by decide, ?_⟩
  rw [steps_eq]
  rintro ⟨_, _, y, hy, hrel⟩
  obtain rfl : y = 0 := by simpa using hy
  revert hrel
  show ¬ (6 ∈ demo.kids 0)
  decide

/-- C17 is false as stated: `span:nth-child(3n-1)` should select a `span` that is the second child; the library
selects nothing (see C01). -/
theorem C17_fails_nth : find demo env0 [5] [[(.childrenAll, [ty "span", .nth false false 3 (-1)])]] = .ok [] ∧
    Sel demo 0 (· ∈ [5]) (steps demo 0 env0 [(.childrenAll, [ty "span", .nth false false 3 (-1)])]) 7 := by
  refine ⟨by decide, ?_⟩
  rw [steps_eq]
  have h5 : Within demo 0 5 := wfCheck_within [0, 1] (by decide) rfl
  refine ⟨by decide, @decide_eq_true _ (Classical.propDecidable _) ?_, 5, by simp, Below.of_child (show 7 ∈ demo.kids 5 by decide)⟩
  show cmpdSat demo 0 env0 [ty "span", .nth false false 3 (-1)] 7
  rw [cmpdSat, cmpdSat, cmpdSat, ty, Sim.Sat, Sim.Sat]
  exact ⟨⟨by decide, by decide⟩, ⟨2, ⟨5, 1, h5, by decide, by decide, rfl⟩, 1, by decide⟩, trivial⟩

/-! ## C18 -/

/-- C18, proved part: the result is in document order without repetition when the phase computed from the starting
set and the combinators says so; in the phases `sib` and `down` it is without repetition. Missing: the other selectors, where the
library may violate the claim (`C18_fails_order`, `C18_fails_twice`). -/
theorem C18_find_order_partial (wf : TreeWF h r) (ev : Metas h r) {ph : Phase} {cx : Complex} (hok : FindOk h r env false ph cx)
    {S res : List Nat} (hS : Nodes h r S) (hi : Inv h r ph S) (hr : find h env S [cx] = .ok res) :
    (resultPhase ph cx = .anti ∨ resultPhase ph cx = .sorted → DocSorted h r res ∧ res.Nodup) ∧
    (resultPhase ph cx = .sib ∨ resultPhase ph cx = .down → res.Nodup) := by
  obtain ⟨h1, h2, _⟩ := (find_all wf ev hok hS hi).1 res hr
  by_cases hne : S = []
  · subst hne
    rw [find_nil] at hr
    obtain rfl := Except.ok.inj hr
    exact ⟨fun _ => ⟨.nil, .nil⟩, fun _ => .nil⟩
  · exact inv_order wf h1 (h2 hne)

/-- C18 for selectors with descendant combinators only (any simple selectors), from any set in document order. -/
theorem C18_find_descendants (wf : TreeWF h r) (ev : Metas h r) {cx : Complex} (hok : FindOk h r env false .sorted cx)
    (hd : ∀ s ∈ cx, s.1 = Comb.childrenAll) {S res : List Nat} (hS : Nodes h r S) (hs : DocSorted h r S)
    (hr : find h env S [cx] = .ok res) : DocSorted h r res ∧ res.Nodup :=
  (C18_find_order_partial (ph := .sorted) wf ev hok hS hs hr).1 (Or.inr (desc_resultPhase hd))

/-- C18: a single compound preceded by the child combinator keeps the order when no member of the starting set is
inside another. -/
theorem C18_find_children (wf : TreeWF h r) (ev : Metas h r) {ss : List Sim} (hok : CmpdOk h r env false .doc .child ss)
    {S res : List Nat} (hS : Nodes h r S) (hs : S.Pairwise fun a b => Before h r a b ∧ ¬ Below h a b)
    (hr : find h env S [[(.children, ss)]] = .ok res) : DocSorted h r res ∧ res.Nodup := by
  have hlk : looked [(Comb.children, ss)] = false := by
    unfold looked heaviest
    simp
  have hok' : FindOk h r env false .anti [(.children, ss)] := by
    refine ⟨by simp, ?_⟩
    rw [if_neg (by rw [hlk]; simp)]
    exact ⟨rfl, hok, by simp, trivial⟩
  have := (C18_find_order_partial (ph := .anti) wf ev hok' hS hs hr).1
  rw [resultPhase, if_neg (by rw [hlk]; simp)] at this
  exact this (Or.inl rfl)

example : Basic [(.childrenAll, [ty "div"]), (.childrenAll, [ty "p"])] ∧
    find demo env0 [0] [[(.childrenAll, [ty "div"]), (.childrenAll, [ty "p"])]] = .ok [2, 6] :=
  ⟨⟨by decide, by decide⟩, by decide⟩

/-- C18 is false as stated: `div > div` on nested `div`s is not in document order. -/
theorem C18_fails_order : find nest env0 [0] [[(.childrenAll, [ty "div"]), (.children, [ty "div"])]] = .ok [2, 6, 3] ∧
    Before nest 0 3 6 := by
  refine ⟨by decide, ?_⟩
  exact (before_iff nest_wf (wfCheck_within [0, 1, 2] (by decide) rfl) (wfCheck_within [0, 1] (by decide) rfl)).2 (by decide)

/-- C18 is false as stated: `div > div span` returns the `span` twice. -/
theorem C18_fails_twice :
    find nest env0 [0] [[(.childrenAll, [ty "div"]), (.children, [ty "div"]), (.childrenAll, [ty "span"])]] = .ok [4, 4] := by
  decide

/-! ## C19 -/

/-- C19, proved part: `find` answers for every selector and starting set satisfying `FindOk … true`: positions behave
(C01), and descendants are only looked for from tidy lists (`Phase.tidy`: in document order, or children or next siblings of such a
list). Missing: the others, where the library may panic
(`C19_fails_unreachable`, `C19_fails_last`, `C19_fails_nth`). -/
theorem C19_find_answers_partial (wf : TreeWF h r) (ev : Metas h r) {ph : Phase} {cx : Complex} (hok : FindOk h r env true ph cx)
    {S : List Nat} (hS : Nodes h r S) (hi : Inv h r ph S) : ∃ res, find h env S [cx] = .ok res :=
  (find_all wf ev hok hS hi).2 rfl

/-- C19 for selectors of basic rules with descendant combinators only, from any set in document order. -/
theorem C19_find_basic_descendants (wf : TreeWF h r) (ev : Metas h r) {cx : Complex} (hb : Basic cx)
    (hd : ∀ s ∈ cx, s.1 = Comb.childrenAll) {S : List Nat} (hS : Nodes h r S) (hs : DocSorted h r S) :
    ∃ res, find h env S [cx] = .ok res :=
  C19_find_answers_partial (ph := .sorted) wf ev (basic_findOk hb (fun _ => desc_calm_cx hd)) hS hs

/-- C19 for selectors of basic rules from the root of the document (`Vis::load(html)?.find(..)`), as far as descendants
are only looked for from tidy lists (in document order, or children or next siblings of such a list). -/
theorem C19_find_basic_root (wf : TreeWF h r) (ev : Metas h r) {cx : Complex} (hb : Basic cx) (hc : calm .anti cx = true) :
    ∃ res, find h env [r] [cx] = .ok res :=
  C19_find_answers_partial (ph := .anti) wf ev (basic_findOk hb (fun _ => hc)) (nodes_root wf) (anti_single r)

example : Basic [(.children, [ty "div"]), (.childrenAll, [ty "p"]), (.nextAll, [ty "span"])] ∧
    calm .anti [(.children, [ty "div"]), (.childrenAll, [ty "p"]), (.nextAll, [ty "span"])] = true ∧
    find demo env0 [0] [[(.children, [ty "div"]), (.childrenAll, [ty "p"]), (.nextAll, [ty "span"])]] = .ok [7] :=
  ⟨⟨by decide, by decide⟩, by decide, by decide⟩

/-- Descendants of children (`div > div p`): the children of nested elements need not come in document order, still there is no panic. -/
example : Basic [(.childrenAll, [ty "div"]), (.children, [ty "div"]), (.childrenAll, [ty "span"])] ∧
    calm .anti [(.childrenAll, [ty "div"]), (.children, [ty "div"]), (.childrenAll, [ty "span"])] = true ∧
    find nest env0 [0] [[(.childrenAll, [ty "div"]), (.children, [ty "div"])]] = .ok [2, 6, 3] ∧
    find nest env0 [0] [[(.childrenAll, [ty "div"]), (.children, [ty "div"]), (.childrenAll, [ty "span"])]] = .ok [4, 4] :=
  ⟨⟨by decide, by decide⟩, by decide, by decide, by decide⟩

/-- C19 is false as stated: `div > div span b` panics (`unreachable!` in `unique_parents`). -/
theorem C19_fails_unreachable : find nest env0 [0] [[(.childrenAll, [ty "div"]), (.children, [ty "div"]),
    (.childrenAll, [ty "span"]), (.childrenAll, [ty "b"])]] = .error .unreachableCode := by decide

/-- C19 is false as stated: `div :last-child` panics (`0 - 1` on `usize`) when a `div` is empty. -/
theorem C19_fails_last :
    find lone env0 [0] [[(.childrenAll, [ty "div"]), (.childrenAll, [.edge true false])]] = .error .overflow := by decide

/-- C19 is false as stated: `div > :nth-child(odd)` panics (index out of bounds) when a `div` is empty. -/
theorem C19_fails_nth :
    find lone env0 [0] [[(.childrenAll, [ty "div"]), (.children, [.nth false false 2 1])]] = .error .outOfBounds := by decide

/-- C19 is false as stated: `> :nth-child(3n-1)` panics on every list of children. -/
theorem C19_fails_nth_start : find demo env0 [5] [[(.children, [.nth false false 3 (-1)])]] = .error .outOfBounds := by decide

/-! ## C20 -/

/-- C20, proved part: for a list of selectors that give sorted results one by one, and none of which spills over the union of those before
it (it does not both select the last element found so far and go beyond it), `find` returns exactly the union, in document order, once.
Missing: lists that spill over (`C20_fails`). -/
theorem C20_find_list_partial (wf : TreeWF h r) (ev : Metas h r) {ph : Phase} {sel : List Complex}
    (hok : ∀ cx ∈ sel, FindOk h r env false ph cx ∧ (resultPhase ph cx = .anti ∨ resultPhase ph cx = .sorted))
    {S res : List Nat} (hS : Nodes h r S) (hi : Inv h r ph S) 
    (ha : NoSpill h r (fun _ => True) (fun _ => False) (sel.map fun c x => Sel h r (· ∈ S) (steps h r env c) x)) (hr : find h env S sel = .ok res) :
    DocSorted h r res ∧ res.Nodup ∧ ∀ e, e ∈ res ↔ ∃ cx ∈ sel, Sel h r (· ∈ S) (steps h r env cx) e := by
  by_cases hne : S = []
  · subst hne
    rw [find_nil] at hr
    obtain rfl := Except.ok.inj hr
    refine ⟨.nil, .nil, fun e => ⟨fun h => absurd h List.not_mem_nil, ?_⟩⟩
    rintro ⟨cx, _, hs⟩
    exact absurd hs (sel_empty (by simp))
  · have hr' : findProcs h S (findSel h env sel) [] = .ok res := by
      unfold find findSelector at hr
      rwa [if_neg (by simpa using hne)] at hr
    obtain ⟨h1, h2, h3⟩ := (findProcs_union wf ev hne hok hS hi (F := []) (by simp) .nil (by simpa using ha)).1 res hr'
    exact ⟨h1, docSorted_nodup wf h2 h1, fun e => by rw [h3]; simp⟩

/-- A list of two selectors asks for both and adds the second result to the first. -/
theorem find_two {a b : Complex} {S A B : List Nat} (hne : S ≠ []) (hA : find h env S [a] = .ok A)
    (hB : find h env S [b] = .ok B) : find h env S [a, b] = addElems h A B := by
  rw [find_single hne] at hA hB
  unfold find findSelector findSel
  rw [if_neg (by simpa using hne)]
  simp only [List.map_cons, List.map_nil, findProcs, addElems_nil, hA, hB]
  unfold addElems
  by_cases hAe : A.isEmpty = true
  · simp only [hAe, if_true]
    rw [List.isEmpty_iff.1 hAe] at *
    by_cases hBe : B.isEmpty = true
    · rw [if_pos hBe, List.isEmpty_iff.1 hBe]
    · rw [if_neg hBe]
  · rw [if_neg hAe]
    by_cases hBe : B.isEmpty = true
    · rw [if_pos hBe, if_neg hAe, if_pos hBe]
    · simp only [hAe, hBe, Bool.false_eq_true, if_false]
      cases addMids h A B.length B 0 <;> rfl

/-- C20 for two selectors: if both answer with sorted results, and the second result does not both contain the last
element of the first and go beyond it, `find("a, b")` is exactly the union of `find("a")` and `find("b")`, in document
order, once. Nothing is assumed about the selectors themselves. -/
theorem C20_find_two_partial (wf : TreeWF h r) {a b : Complex} {S A B : List Nat} (hne : S ≠ []) (hA : find h env S [a] = .ok A)
    (hB : find h env S [b] = .ok B) (wA : ∀ x ∈ A, Within h r x) (wB : ∀ x ∈ B, Within h r x)
    (sA : DocSorted h r A) (sB : DocSorted h r B)
    (htail : ∀ e, A.getLast? = some e → e ∈ B → ∀ s ∈ B, ¬ Before h r e s) :
    ∃ l, find h env S [a, b] = .ok l ∧ DocSorted h r l ∧ l.Nodup ∧ ∀ e, e ∈ l ↔ e ∈ A ∨ e ∈ B := by
  rw [find_two hne hA hB]
  exact C15_add_union_partial wf wA wB sA sB htail

/-- `find("li, p")` on the sample document. -/
example : find demo env0 [0] [[(.childrenAll, [ty "li"])]] = .ok [9] ∧ find demo env0 [0] [[(.childrenAll, [ty "p"])]] = .ok [2, 6] ∧
    find demo env0 [0] [[(.childrenAll, [ty "li"])], [(.childrenAll, [ty "p"])]] = .ok [2, 6, 9] :=
  ⟨by decide, by decide, by decide⟩

/-- C20 is false as stated: `find("> div, > *")` loses the `ul` that `find("> *")` returns. -/
theorem C20_fails : find demo env0 [0] [[(.children, [ty "div"])], [(.children, [.all])]] = .ok [1] ∧
    find demo env0 [0] [[(.children, [.all])]] = .ok [1, 8] := ⟨by decide, by decide⟩

/-! ## C21 -/

/-- C21, proved part: sorting the rules of a compound and starting from the heaviest compound give the same elements as
evaluating the compounds from left to right with the rules in the order written. Missing: selectors for which one of
the two evaluations is wrong (`C21_fails`). -/
theorem C21_optimise_same_partial (wf : TreeWF h r) (ev : Metas h r) {ph : Phase} {cx : Complex} (hok : FindOk h r env false ph cx)
    (hok' : StepsOk false (PlainOk h r env false) ph cx) {S res res' : List Nat} (hS : Nodes h r S) (hne : S ≠ []) (hi : Inv h r ph S)
    (hr : findProc h S (optimizeGroup true (cplxCmpds h env cx)) = .ok res)
    (hr' : findProc h S ⟨none, cplxCmpds h env cx⟩ = .ok res') : ∀ e, e ∈ res ↔ e ∈ res' := by
  intro e
  obtain ⟨_, _, h1⟩ := findProc_decides wf (find_good wf ev hok).1 hS hne hi hr
  have hq : cplxCmpds h env cx ≠ [] := by
    rw [cplxCmpds_eq]
    simpa using hok.1
  obtain ⟨_, _, h2⟩ := findProc_decides wf (.plain hq (plainSteps_good wf ev hok').1) hS hne hi hr'
  rw [h1, h2]

/-- C21 without side conditions for basic selectors. -/
theorem C21_optimise_basic (wf : TreeWF h r) (ev : Metas h r) {cx : Complex} (hb : Basic cx) {S res res' : List Nat}
    (hS : Nodes h r S) (hne : S ≠ []) (hs : DocSorted h r S)
    (hr : findProc h S (optimizeGroup true (cplxCmpds h env cx)) = .ok res)
    (hr' : findProc h S ⟨none, cplxCmpds h env cx⟩ = .ok res') : ∀ e, e ∈ res ↔ e ∈ res' :=
  C21_optimise_same_partial (ph := .sorted) wf ev (basic_findOk hb (by simp))
    (basic_steps (fun _ h2 h3 q v => basic_plainOk h2 h3 q v) hb.2 (by simp)) hS hne hs hr hr'

example : Basic [(.childrenAll, [.all, ty "div"]), (.children, [.empty, ty "p"])] ∧
    findProc demo [0] (optimizeGroup true (cplxCmpds demo env0 [(.childrenAll, [.all]), (.children, [.empty, ty "p"])])) = .ok [6] ∧
    findProc demo [0] ⟨none, cplxCmpds demo env0 [(.childrenAll, [.all]), (.children, [.empty, ty "p"])]⟩ = .ok [6] :=
  ⟨⟨by decide, by decide⟩, by decide, by decide⟩

/-- C21 is false as stated: `ul > #x`, evaluated as written, finds an element that is not a child of a `ul`; the
optimised search finds nothing. -/
theorem C21_fails : findProc demo [0] ⟨none, cplxCmpds demo env6 [(.childrenAll, [ty "ul"]), (.children, [.id "x".toList])]⟩ = .ok [6] ∧
    findProc demo [0] (optimizeGroup true (cplxCmpds demo env6 [(.childrenAll, [ty "ul"]), (.children, [.id "x".toList])])) = .ok [] :=
  ⟨by decide, by decide⟩

end Visdom
