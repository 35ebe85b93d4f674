import Verif.Props.Accept
import Verif.Props.CommonNav
/-!
# C79: the empty selector and selectors of white space
-/
namespace Visdom
open Spec

variable {h : Heap} {env : Env} {own : Nat → Bool} {r : Nat}

theorem parseSel_nil (h : Heap) (env : Env) (lookup : Bool) : parseSel h env lookup [] = .ok (.ok []) := rfl

/-- C79: the empty selector is satisfied by nothing: the methods that select and test return nothing, `not` returns the set as it is, and
no error is reported. -/
theorem C79_select (X : List Nat) :
    findText h env own X [] = .ok ([], 0) ∧ filterText h env own X [] = .ok ([], 0) ∧ notText h env own X [] = .ok (X, 0) ∧
    isText h env own X [] = .ok (false, 0) ∧ isAllText h env own X [] = .ok (false, 0) ∧
    closestText h env own X [] = .ok ([], 0) := by
  cases X with
  | nil => exact ⟨rfl, rfl, rfl, rfl, rfl, rfl⟩
  | cons x X =>
    refine ⟨rfl, rfl, ?_, rfl, ?_, rfl⟩
    · simp [notText, triggerMethod, parseSel_nil, notSel, filterProcs, Except.map]
    · simp [isAllText, triggerMethod, parseSel_nil, isAllSel, filterProcs, Except.map]

/-- C79: for the methods that navigate the empty selector is no condition, and no error is reported: children, siblings next to the
members, parents and ancestors. -/
theorem C79_navigate (wf : TreeWF h r) (ev : Metas h r) {X : List Nat} (hX : Nodes h r X) :
    (∃ l, childrenText h env own X [] = .ok (l, 0) ∧ ∀ e, e ∈ l ↔ h.isElem e = true ∧ ∃ y ∈ X, e ∈ h.kids y) ∧
    (∃ l, nextText h env own X [] = .ok (l, 0) ∧ ∀ e, e ∈ l ↔ h.isElem e = true ∧ ∃ y ∈ X, NextSib h r y e) ∧
    (∃ l, prevText h env own X [] = .ok (l, 0) ∧ ∀ e, e ∈ l ↔ h.isElem e = true ∧ ∃ y ∈ X, NextSib h r e y) ∧
    (∃ l, parentText h env own X [] = .ok (l, 0) ∧ l.Nodup ∧ ∀ e, e ∈ l ↔ h.isElem e = true ∧ ∃ y ∈ X, y ∈ h.kids e ∧ Within h r e) ∧
    (∃ l, parentsText h env own X [] = .ok (l, 0) ∧ DocSorted h r l ∧
      ∀ e, e ∈ l ↔ h.isElem e = true ∧ Within h r e ∧ ∃ y ∈ X, Below h e y) := by
  obtain ⟨l1, a1, b1⟩ := C25_children (env := env) wf ev hX
  obtain ⟨l2, a2, b2⟩ := C25_next (env := env) wf ev hX
  obtain ⟨l3, a3, b3⟩ := C25_prev (env := env) wf ev hX
  obtain ⟨l4, a4, b4, c4⟩ := C25_parent (env := env) wf ev hX
  obtain ⟨l5, a5, b5, c5⟩ := C25_parents (env := env) wf ev hX
  exact ⟨⟨l1, congrArg (Except.map (·, 0)) a1, b1⟩, ⟨l2, congrArg (Except.map (·, 0)) a2, b2⟩, ⟨l3, congrArg (Except.map (·, 0)) a3, b3⟩,
    ⟨l4, congrArg (Except.map (·, 0)) a4, b4, c4⟩, ⟨l5, congrArg (Except.map (·, 0)) a5, b5, c5⟩⟩

/-- C79: nothing has a descendant that satisfies the empty selector. -/
theorem C79_has (wf : TreeWF h r) (ev : Metas h r) {X : List Nat} (hX : ∀ x ∈ X, Within h r x) : hasText h env own X [] = .ok ([], 0) := by
  have h1 := C24_has_exact_partial (env := env) (sel := []) wf ev (by simp [innersOk]) hX
  rw [List.filter_eq_nil_iff.2 (by simp [anySat])] at h1
  cases X with
  | nil => rfl
  | cons x X => exact congrArg (Except.map (·, 0)) h1

/-- C79 for `next_all` and `prev_all`; the condition on the order of the set is that of C25. -/
theorem C79_all_partial (wf : TreeWF h r) (ev : Metas h r) {X : List Nat} (hX : Nodes h r X) (hs : SibAsc h X) :
    (∃ l, nextAllText h env own X [] = .ok (l, 0) ∧ l.Nodup ∧ ∀ e, e ∈ l ↔ h.isElem e = true ∧ ∃ y ∈ X, LaterSib h r y e) ∧
    (∃ l, prevAllText h env own X [] = .ok (l, 0) ∧ l.Nodup ∧ ∀ e, e ∈ l ↔ h.isElem e = true ∧ ∃ y ∈ X, LaterSib h r e y) := by
  obtain ⟨l1, a1, b1, c1⟩ := C25_next_all_partial (env := env) wf ev hX hs
  obtain ⟨l2, a2, b2, c2⟩ := C25_prev_all_partial (env := env) wf ev hX hs
  exact ⟨⟨l1, congrArg (Except.map (·, 0)) a1, b1, c1⟩, ⟨l2, congrArg (Except.map (·, 0)) a2, b2, c2⟩⟩

theorem trim_white {w : List Char} (hw : White w) : trim w = [] := by
  have : w.dropWhile isUnicodeWs = [] := List.dropWhile_eq_nil_iff.2 fun c hc => wsTable_iff.2 (hw c hc)
  simp [trim, this]

/-- C79 for `siblings`, which takes every text of white space for the empty selector. -/
theorem C79_siblings_partial (wf : TreeWF h r) (ev : Metas h r) {X : List Nat} (hX : Nodes h r X) (hn : X.Nodup) {w : List Char}
    (hw : White w) : ∃ l, siblingsText h env own X w = .ok (l, 0) ∧ DocSorted h r l ∧
      ∀ e, e ∈ l ↔ h.isElem e = true ∧ ∃ y ∈ X, Sib h r y e := by
  obtain ⟨l, a, b, c⟩ := C25_siblings_partial (env := env) wf ev hX hn
  refine ⟨l, ?_, b, c⟩
  rw [siblingsText, trim_white hw]
  exact congrArg (Except.map (·, 0)) a

theorem upTo_never {stop keep : Nat → Bool} (hs : ∀ x, stop x = false) (hk : ∀ x, keep x = true) (b : Bool) (l : List Nat) :
    upTo stop keep b l = l := by
  have h1 : l.takeWhile (fun x => !stop x) = l := List.takeWhile_eq_self_iff.2 fun x _ => by simp [hs x]
  have h2 : l.find? stop = none := List.find?_eq_none.2 fun x _ => by simp [hs x]
  rw [upTo, h1, h2]
  cases b <;> simp [hk]

/-- The walk up from `x`: the elements `x` lies below. -/
theorem walk_up (wf : TreeWF h r) {x : Nat} {l : List Nat} (hl : Walk h r .parent x l) (hx : Within h r x) (e : Nat) :
    e ∈ l ↔ h.isElem e = true ∧ Within h r e ∧ Below h e x := by
  induction hl with
  | @stop x hs =>
    refine ⟨fun h1 => absurd h1 (by simp), fun ⟨h1, h2, h3⟩ => ?_⟩
    obtain ⟨p, hp, hk⟩ := h3.last
    have hpr : Within h r p := h2.trans hp
    refine absurd ⟨hpr, hk⟩ (hs p ?_)
    by_cases hpe : p = e
    · rw [hpe]; exact h1
    · refine elem_of_kid wf hpr hk fun hr => ?_
      rcases within_cases hp with h4 | h4
      · exact hpe h4.symm
      · obtain ⟨q, hq, hc⟩ := h4.last
        exact child_ne_root wf (h2.trans hq) hc hr
  | @step x y l hy hr _ ih =>
    obtain ⟨hyw, hk⟩ := hr
    rw [List.mem_cons, ih hyw]
    constructor
    · rintro (rfl | ⟨h1, h2, h3⟩)
      · exact ⟨hy, hyw, ⟨_, hk, .self⟩⟩
      · exact ⟨h1, h2, h3.trans (.of_child hk)⟩
    · rintro ⟨h1, h2, h3⟩
      obtain ⟨p, hp, hw⟩ := (below_parent wf h2 hx).1 h3
      rw [parent_of_child wf hyw hk] at hp
      cases hp
      by_cases he : e = y
      · exact .inl he
      · exact .inr ⟨h1, h2, (within_cases hw).resolve_left he⟩

theorem testOk_nil : TestOk h r env [] := ⟨by simp [innersOk], by simp⟩

theorem untilOf_nil (b : Bool) (l : List Nat) : untilOf h r env [] none b l = l :=
  upTo_never (fun x => by classical exact decide_eq_false (by simp [anySat])) (fun x => rfl) b l

/-- C79: with empty selectors the until methods stop nowhere and keep everything: the whole walk from an element, whether the stop
element is asked for or not. -/
theorem C79_until (wf : TreeWF h r) (ev : Metas h r) (b : Bool) {x : Nat} (hx : Within h r x) (he : h.isElem x = true) :
    (∃ l, Walk h r .next x l ∧ nextUntilText h env own [x] [] [] b = .ok (l, 0)) ∧
    (∃ l, Walk h r .prev x l ∧ prevUntilText h env own [x] [] [] b = .ok (l.reverse, 0)) ∧
    ∃ l, parentsUntilText h env own [x] [] [] b = .ok (l, 0) ∧ DocSorted h r l ∧ ∀ e, e ∈ l ↔ h.isElem e = true ∧ Within h r e ∧ Below h e x := by
  obtain ⟨l1, a1, b1⟩ := C45_next_until_partial (env := env) wf ev testOk_nil (f := none) (by simp) b hx
  obtain ⟨l2, a2, b2⟩ := C45_prev_until_partial (env := env) wf ev testOk_nil (f := none) (by simp) b hx he
  rw [untilOf_nil] at b1 b2
  obtain ⟨l3, a3, b3, c3⟩ := C45_parents_until_partial (env := env) wf ev testOk_nil (f := none) (by simp) b (X := [x]) (by simpa using hx)
  refine ⟨⟨l1, a1, congrArg (Except.map (·, 0)) b1⟩, ⟨l2, a2, congrArg (Except.map (·, 0)) b2⟩, l3, congrArg (Except.map (·, 0)) a3, b3, fun e => ?_⟩
  rw [c3]
  simp only [List.mem_singleton, exists_eq_left, untilOf_nil]
  constructor
  · rintro ⟨l, hl, he⟩; exact (walk_up wf hl hx e).1 he
  · intro he
    obtain ⟨w, hw, -⟩ := until_set (env := env) (u := []) (f := none) wf ev (steps_parent wf) (fun x hx => depth_bound wf hx) testOk_nil (by simp) b
      (X := [x]) (by simpa using hx)
    exact ⟨w x, (hw x (by simp)).1, (walk_up wf (hw x (by simp)).1 hx e).2 he⟩

theorem white_not_bracket {w : List Char} (hw : White w) {c : Char} (hc : isUnicodeWs c = false) : c ∉ w := fun h1 => by
  rw [wsTable_iff.2 (hw c h1)] at hc; cases hc

/-- C79: a text of white space is not the empty selector: it is refused. -/
theorem C79_white {w : List Char} (hw : White w) (hne : w ≠ []) : Refused w := by
  have hb : Bare w := ⟨white_not_bracket hw (by decide), white_not_bracket hw (by decide), white_not_bracket hw (by decide)⟩
  have hl : ∀ c, isUnicodeWs c = false → w.getLast? ≠ some c := fun c hc h1 => white_not_bracket hw hc (List.mem_of_getLast? h1)
  obtain ⟨res, hr⟩ := C30_plain_partial hb.2.1 (hl '.' (by decide)) (hl '#' (by decide)) (fun h1 => absurd h1 hb.1)
  cases res with
  | error e => exact ⟨e, hr⟩
  | ok gs =>
    exfalso
    rcases C66_accepted hr with h0 | ⟨c, a, t, w', -, hl', -, rfl⟩
    · exact hne h0.1
    · obtain ⟨c, l, e, -⟩ := (listOf_tidy hl' hb.right.left).first
      have : dense t = [] := dense_white fun c hc => hw c (by simp [hc])
      rw [this] at e
      cases e

theorem notInFrom_self : ∀ X A : List Nat, notInFrom (A ++ X) X A.length = []
  | [], _ => rfl
  | x :: X, A => by
    have h1 : indexOf (A ++ x :: X) x A.length = some A.length := by simp [indexOf, List.idxOf?_cons]
    have h2 := notInFrom_self X (A ++ [x])
    simp only [List.append_assoc, List.singleton_append, List.length_append, List.length_singleton] at h2
    simp only [notInFrom, h1, h2]

/-- C79: nested in `:not` the empty selector excludes nothing: every element satisfies `:not()`. -/
theorem C79_nested_not {X : List Nat} (hX : X ≠ []) {text : List Char} {c : Comb} (ht : parseGroups text = .ok (.ok [[[(.not [], c)]]])) :
    filterText h env own X text = .ok (X, 0) ∧ isText h env own X text = .ok (true, 0) ∧ isAllText h env own X text = .ok (true, 0) ∧
    notText h env own X text = .ok ([], 0) := by
  have hne : X.isEmpty = false := by cases X <;> simp_all
  have hsel : parseSel h env false text =
      .ok (.ok [{ query := [[(partMatcher h env (fromStr h env (text.length + 1) false) (.not []), c)]] }]) := by
    simp only [parseSel, fromStr, ht]
    rfl
  have hm : ∀ c', (partMatcher h env (fromStr h env (text.length + 1) false) (.not [])).apply X c' = .ok X := by
    intro c'
    simp only [partMatcher, textApply, Matcher.apply, hne, Bool.false_eq_true, if_false, fromStr, show parseGroups [] = .ok (.ok []) from rfl,
      List.map_nil, notSel, filterProcs, Except.map, List.isEmpty_nil, if_true]
  have hq : ∀ root, filterProc h X root { query := [[(partMatcher h env (fromStr h env (text.length + 1) false) (.not []), c)]] } =
      .ok (X, root) := by
    intro root
    obtain ⟨x, l, rfl⟩ := List.exists_cons_of_ne_nil hX
    simp only [filterProc, List.getLast?_singleton, selectByRule, hm, selectRest]
    simp
  have ha : addElems h [] X = .ok X := rfl
  have hn : notIn X X = [] := notInFrom_self X []
  refine ⟨?_, ?_, ?_, ?_⟩
  · simp only [filterText, triggerMethod, hne, hsel, filterSel, filterProcs, hq, ha, Bool.false_eq_true, if_false]
    rfl
  · simp only [isText, triggerMethod, hne, hsel, isSel, isProcs, hq, Bool.false_eq_true, if_false]
    rfl
  · simp only [isAllText, triggerMethod, hne, hsel, isAllSel, filterProcs, hq, ha, Bool.false_eq_true, if_false]
    simp [Except.map]
  · simp only [notText, triggerMethod, hne, hsel, notSel, filterProcs, hq, ha, hn, Bool.false_eq_true, if_false, Except.map]

theorem demo_metas0 : Metas demo 0 := fun x hx _ => by
  have : ∀ x < 10, metaCheck (demo.node x).attrs = true := by decide
  exact metaCheck_sound (this x (demo_wf.bound x hx))

example : filterText demo env0 own [1, 8, 1] ":not( )".toList = .ok ([1, 8, 1], 0) := (C79_nested_not (c := .childrenAll) (by decide) (by decide)).1

/-- `doc.find("div").children("")`, `.parents("")`. -/
example : childrenText demo env0 (fun _ => true) [1, 5] [] = .ok ([2, 5, 6, 7], 0) ∧ parentsText demo env0 (fun _ => true) [6, 9] [] = .ok ([1, 5, 8], 0) := by decide
example : ∃ l, parentsUntilText demo env0 own [6] [] [] true = .ok (l, 0) ∧ DocSorted demo 0 l ∧
    ∀ e, e ∈ l ↔ demo.isElem e = true ∧ Within demo 0 e ∧ Below demo e 6 :=
  (C79_until demo_wf demo_metas0 true (demo_nodes (l := [6]) (by decide) 6 (by decide)).1 rfl).2.2
example : ∃ l, siblingsText demo env0 own [6, 2] [' ', '\n'] = .ok (l, 0) ∧ DocSorted demo 0 l ∧
    ∀ e, e ∈ l ↔ demo.isElem e = true ∧ ∃ y ∈ [6, 2], Sib demo 0 y e :=
  C79_siblings_partial demo_wf demo_metas0 (demo_nodes (by decide)) (by decide) (by simp [White]; decide)
example : Refused [' ', '\n'] := C79_white (by simp [White]; decide) (by decide)

/-- The methods disagree on a text of white space: for `children` it is an error, for `siblings` and inside `:not(…)` it is the empty
selector. -/
theorem C79_fails_white : childrenText demo env0 (fun _ => true) [1] [' '] = .ok ([], 1) ∧
    childrenText demo env0 (fun _ => true) [1] [] = .ok ([2, 5], 0) ∧ siblingsText demo env0 (fun _ => true) [1] [' '] = .ok ([8], 0) ∧
    siblingsText demo env0 (fun _ => true) [1] [] = .ok ([8], 0) := by decide

end Visdom
