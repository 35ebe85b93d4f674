import Verif.Props.Parser
/-!
# C32: methods called with a text that is not a selector
-/
namespace Visdom
open Spec

/-- A text the parser refuses. -/
def Refused (text : List Char) : Prop := ∃ e, parseGroups text = .ok (.error e)

theorem refused_sel {text : List Char} (hb : Refused text) (h : Heap) (env : Env) (lookup : Bool) :
    ∃ e, parseSel h env lookup text = .ok (.error e) := by
  obtain ⟨e, he⟩ := hb
  exact ⟨e, by simp only [parseSel, fromStr, he]⟩

theorem refused_ne {text : List Char} (hb : Refused text) : text.isEmpty = false := by
  obtain ⟨e, he⟩ := hb
  cases text with
  | nil => cases he
  | cons => rfl

theorem sibStep_mono (h : Heap) (s : SibState) (x : Nat) : ∃ l, (sibStep h s x).kept = s.kept ++ l ∧ ∀ y ∈ l, y = x := by
  unfold sibStep
  cases h.parent x with
  | none =>
    by_cases h1 : s.hasRoot
    · exact ⟨[], by simp [h1], by simp⟩
    · exact ⟨[x], by simp [h1], by simp⟩
  | some p =>
    by_cases h1 : s.prev = some p
    · exact ⟨[], by simp [h1], by simp⟩
    · by_cases h2 : h.treeIndexs p ∈ s.seen
      · exact ⟨[], by simp [h1, h2], by simp⟩
      · exact ⟨[x], by simp [h1, h2], by simp⟩

theorem sibFold_mono (h : Heap) : ∀ (X : List Nat) (s : SibState),
    ∃ l, (X.foldl (sibStep h) s).kept = s.kept ++ l ∧ ∀ y ∈ l, y ∈ X
  | [], s => ⟨[], by simp, by simp⟩
  | x :: X, s => by
    obtain ⟨l, h1, h2⟩ := sibStep_mono h s x
    obtain ⟨l', h3, h4⟩ := sibFold_mono h X (sibStep h s x)
    refine ⟨l ++ l', by rw [List.foldl_cons, h3, h1, List.append_assoc], fun y hy => ?_⟩
    rcases List.mem_append.1 hy with hy | hy
    · exact h2 y hy ▸ List.mem_cons_self ..
    · exact List.mem_cons_of_mem _ (h4 y hy)

theorem sibFold_set (h : Heap) {X : List Nat} (hX : X ≠ []) :
    (X.foldl (sibStep h) {}).kept ≠ [] ∧ ∀ y ∈ (X.foldl (sibStep h) {}).kept, y ∈ X := by
  cases X with
  | nil => exact absurd rfl hX
  | cons x X =>
    have h1 : (sibStep h {} x).kept = [x] := by
      unfold sibStep
      cases h.parent x <;> simp
    obtain ⟨l, h3, h4⟩ := sibFold_mono h X (sibStep h {} x)
    rw [List.foldl_cons, h3, h1]
    refine ⟨by simp, fun y hy => ?_⟩
    rcases List.mem_append.1 hy with hy | hy
    · exact List.mem_singleton.1 hy ▸ List.mem_cons_self ..
    · exact List.mem_cons_of_mem _ (h4 y hy)

theorem sibFirst_set (h : Heap) {X : List Nat} (hX : X ≠ []) :
    uniqueSiblingFirst h X ≠ [] ∧ ∀ y ∈ uniqueSiblingFirst h X, y ∈ X := sibFold_set h hX
theorem sibLast_set (h : Heap) {X : List Nat} (hX : X ≠ []) :
    uniqueSiblingLast h X ≠ [] ∧ ∀ y ∈ uniqueSiblingLast h X, y ∈ X := by
  obtain ⟨h1, h2⟩ := sibFold_set h (X := X.reverse) (by simpa using hX)
  exact ⟨by simpa [uniqueSiblingLast] using h1, fun y hy => by simpa using h2 y (by simpa [uniqueSiblingLast] using hy)⟩

variable {h : Heap} {env : Env} {own : Nat → Bool}

theorem throwErr_once {α : Type} {X : List Nat} (hX : X ≠ []) (ho : ∀ x ∈ X, own x = true) (d : α) :
    throwErr own X d = .ok (d, 1) := by
  cases X with
  | nil => exact absurd rfl hX
  | cons x X => simp [throwErr, ho x (List.mem_cons_self ..)]

theorem trigger_refused {α : Type} {X : List Nat} (hX : X ≠ []) (ho : ∀ x ∈ X, own x = true) {text : List Char}
    (hb : Refused text) (d : α) (f : List Proc → R α) : triggerMethod h env own X text d f = .ok (d, 1) := by
  obtain ⟨e, he⟩ := refused_sel hb h env false
  have hne : X.isEmpty = false := by cases X <;> simp_all
  simp only [triggerMethod, hne, he, Bool.false_eq_true, if_false]
  exact throwErr_once hX ho d

theorem nav_refused {X : List Nat} (hX : X ≠ []) (ho : ∀ x ∈ X, own x = true) {text : List Char}
    (hb : Refused text) (f : Option (List Proc) → R (List Nat)) : navText h env own X text f = .ok ([], 1) := by
  simp only [navText, refused_ne hb, Bool.false_eq_true, if_false]
  exact trigger_refused hX ho hb _ _

/-- C32: with a text the parser refuses, the testing methods return the empty result (or false) and report exactly one error. -/
theorem C32_filters_partial {X : List Nat} (hX : X ≠ []) (ho : ∀ x ∈ X, own x = true) {text : List Char} (hb : Refused text) :
    filterText h env own X text = .ok ([], 1) ∧ notText h env own X text = .ok ([], 1) ∧
    isText h env own X text = .ok (false, 1) ∧ isAllText h env own X text = .ok (false, 1) ∧
    hasText h env own X text = .ok ([], 1) :=
  ⟨trigger_refused hX ho hb _ _, trigger_refused hX ho hb _ _, trigger_refused hX ho hb _ _,
    trigger_refused hX ho hb _ _, trigger_refused hX ho hb _ _⟩

/-- C32: the navigation methods. -/
theorem C32_navigate_partial {X : List Nat} (hX : X ≠ []) (ho : ∀ x ∈ X, own x = true) {text : List Char} (hb : Refused text) :
    childrenText h env own X text = .ok ([], 1) ∧ prevText h env own X text = .ok ([], 1) ∧
    nextText h env own X text = .ok ([], 1) ∧ prevAllText h env own X text = .ok ([], 1) ∧
    nextAllText h env own X text = .ok ([], 1) ∧ parentText h env own X text = .ok ([], 1) ∧
    parentsText h env own X text = .ok ([], 1) := by
  obtain ⟨h1, h2⟩ := sibFirst_set h hX
  obtain ⟨h3, h4⟩ := sibLast_set h hX
  have hf := fun y hy => ho y (h2 y hy)
  have hl := fun y hy => ho y (h4 y hy)
  exact ⟨nav_refused hX ho hb _, nav_refused hX ho hb _, nav_refused hX ho hb _, nav_refused h3 hl hb _,
    nav_refused h1 hf hb _, nav_refused h1 hf hb _, nav_refused h1 hf hb _⟩

/-- C32: `find`, `closest` and `siblings` (which trims the text first). -/
theorem C32_find_partial {X : List Nat} (hX : X ≠ []) (ho : ∀ x ∈ X, own x = true) {text : List Char} :
    (Refused text → findText h env own X text = .ok ([], 1) ∧ closestText h env own X text = .ok ([], 1)) ∧
    (Refused (trim text) → siblingsText h env own X text = .ok ([], 1)) := by
  refine ⟨fun hb => ?_, fun hb => ?_⟩
  · obtain ⟨e, he⟩ := refused_sel hb h env true
    simp only [findText, closestText, he, refused_ne hb, Bool.false_eq_true, if_false]
    exact ⟨throwErr_once hX ho _, throwErr_once hX ho _⟩
  · obtain ⟨e, he⟩ := refused_sel hb h env true
    simp only [siblingsText, he, refused_ne hb, Bool.false_eq_true, if_false]
    exact throwErr_once hX ho _

/-- C32: the until methods, when the text or the filter (after a good text) is refused. -/
theorem C32_until_partial {X : List Nat} (hX : X ≠ []) (ho : ∀ x ∈ X, own x = true) {text filter : List Char}
    (hb : Refused text ∨ (∃ r, parseGroups text = .ok (.ok r)) ∧ Refused filter) (c : Bool) :
    prevUntilText h env own X text filter c = .ok ([], 1) ∧ nextUntilText h env own X text filter c = .ok ([], 1) ∧
    parentsUntilText h env own X text filter c = .ok ([], 1) := by
  have key : ∀ {U : List Nat} (f : List Proc → Option (List Proc) → R (List Nat)), U ≠ [] → (∀ x ∈ U, own x = true) →
      untilText h env own U text filter f = .ok ([], 1) := by
    intro U f hU hoU
    rcases hb with hb | ⟨⟨r, hr⟩, hb⟩
    · obtain ⟨e, he⟩ := refused_sel hb h env true
      simp only [untilText, he]
      exact throwErr_once hU hoU _
    · obtain ⟨e, he⟩ := refused_sel hb h env true
      have h1 : ∃ sel, parseSel h env true text = .ok (.ok sel) := ⟨_, by simp only [parseSel, fromStr, hr]; rfl⟩
      obtain ⟨sel, hsel⟩ := h1
      simp only [untilText, hsel, refused_ne hb, he, Bool.false_eq_true, if_false]
      exact throwErr_once hU hoU _
  obtain ⟨h1, h2⟩ := sibFirst_set h hX
  obtain ⟨h3, h4⟩ := sibLast_set h hX
  exact ⟨key _ h3 fun y hy => ho y (h4 y hy), key _ h1 fun y hy => ho y (h2 y hy), key _ h1 fun y hy => ho y (h2 y hy)⟩

/-- C32: on an empty set the testing and navigation methods return the empty result without a report. -/
theorem C32_empty_partial (text : List Char) :
    filterText h env own [] text = .ok ([], 0) ∧ notText h env own [] text = .ok ([], 0) ∧
    isText h env own [] text = .ok (false, 0) ∧ isAllText h env own [] text = .ok (false, 0) ∧
    hasText h env own [] text = .ok ([], 0) ∧
    childrenText h env own [] text = .ok ([], 0) ∧ prevText h env own [] text = .ok ([], 0) ∧
    nextText h env own [] text = .ok ([], 0) ∧ prevAllText h env own [] text = .ok ([], 0) ∧
    nextAllText h env own [] text = .ok ([], 0) ∧ parentText h env own [] text = .ok ([], 0) ∧
    parentsText h env own [] text = .ok ([], 0) := by
  have key : ∀ f : Option (List Proc) → R (List Nat), f none = .ok [] → navText h env own [] text f = .ok ([], 0) := by
    intro f hf
    simp only [navText]
    split
    · rw [hf]; rfl
    · rfl
  refine ⟨rfl, rfl, rfl, rfl, rfl, ?_, ?_, ?_, ?_, ?_, ?_, ?_⟩
  all_goals exact key _ rfl

/-- The matcher of a nested text that the parser refuses keeps nothing. -/
theorem textApply_refused {t : List Char} (hb : Refused t) (d : Nat) (f : List Nat → List Proc → R (List Nat)) (l : List Nat)
    (c : Option Bool) : (textApply (fromStr h env (d + 1) false) f t).apply l c = .ok [] := by
  obtain ⟨e, he⟩ := hb
  simp only [textApply, Matcher.apply, fromStr, he]
  split <;> rfl

/-- C32: a refused text inside `:not(…)` or `:has(…)` does not panic either: nothing satisfies the selector, so `filter`
returns the empty set, `is` and `is_all` false, and `not` the whole set. -/
theorem C32_nested_partial {X : List Nat} (hX : X ≠ []) {text t : List Char} {c : Comb} {p : Part}
    (hp : p = .not t ∨ p = .has t) (ht : parseGroups text = .ok (.ok [[[(p, c)]]])) (hb : Refused t) :
    (∃ n, filterText h env own X text = .ok ([], n)) ∧ (∃ n, isText h env own X text = .ok (false, n)) ∧
    (∃ n, isAllText h env own X text = .ok (false, n)) ∧ ∃ n, notText h env own X text = .ok (X, n) := by
  have hne : X.isEmpty = false := by cases X <;> simp_all
  have hsel : parseSel h env false text =
      .ok (.ok [{ query := [[(partMatcher h env (fromStr h env (text.length + 1) false) p, c)]] }]) := by
    simp only [parseSel, fromStr, ht]
    rfl
  have hm : ∀ l c', (partMatcher h env (fromStr h env (text.length + 1) false) p).apply l c' = .ok [] := by
    intro l c'
    rcases hp with rfl | rfl <;> exact textApply_refused hb _ _ _ _
  have hq : ∀ root, filterProc h X root { query := [[(partMatcher h env (fromStr h env (text.length + 1) false) p, c)]] } =
      .ok ([], root) := by
    intro root
    simp only [filterProc, List.getLast?_singleton, selectByRule, hm, selectRest]
  refine ⟨⟨0, ?_⟩, ⟨0, ?_⟩, ⟨0, ?_⟩, ⟨0, ?_⟩⟩
  · simp only [filterText, triggerMethod, hne, hsel, filterSel, filterProcs, hq, Bool.false_eq_true, if_false]
    rfl
  · simp only [isText, triggerMethod, hne, hsel, isSel, isProcs, hq, Bool.false_eq_true, if_false]
    rfl
  · simp only [isAllText, triggerMethod, hne, hsel, isAllSel, filterProcs, hq, Bool.false_eq_true, if_false]
    cases X with
    | nil => exact absurd rfl hX
    | cons x X => simp [Except.map]
  · simp only [notText, triggerMethod, hne, hsel, notSel, filterProcs, hq, Bool.false_eq_true, if_false]
    rfl

example : ∃ n, filterText demo env0 (fun _ => true) [2, 5] ":not(a,,b)".toList = .ok ([], n) :=
  (C32_nested_partial (t := "a,,b".toList) (c := .childrenAll) (by decide) (Or.inl rfl) (by decide) ⟨.wrongCombinator, by decide⟩).1

example : nextUntilText demo env0 (fun _ => true) [2] "div".toList "a[]".toList false = .ok ([], 1) :=
  (C32_until_partial (by decide) (by simp) (Or.inr ⟨⟨_, rfl⟩, ⟨.unrecognized, by decide⟩⟩) false).2.1
example : Refused "a,,b".toList ∧ Refused "> > p".toList ∧ Refused "a[]".toList :=
  ⟨⟨.wrongCombinator, by decide⟩, ⟨.wrongCombinator, by decide⟩, ⟨.unrecognized, by decide⟩⟩
example : findText demo env0 (fun _ => true) [5, 1] "a,,b".toList = .ok ([], 1) ∧
    closestText demo env0 (fun _ => true) [5, 1] "a,,b".toList = .ok ([], 1) :=
  (C32_find_partial (by decide) (by simp)).1 ⟨.wrongCombinator, by decide⟩

/-- C32 does not hold in full: on an empty set `find`, `closest`, `siblings` and the until methods panic. -/
theorem C32_fails_empty (text : List Char) (hb : Refused text) :
    findText h env own [] text = .error .unwrapNone ∧ closestText h env own [] text = .error .unwrapNone ∧
    prevUntilText h env own [] text [] false = .error .unwrapNone ∧ nextUntilText h env own [] text [] false = .error .unwrapNone ∧
    parentsUntilText h env own [] text [] false = .error .unwrapNone ∧
    (trim text = text → siblingsText h env own [] text = .error .unwrapNone) := by
  obtain ⟨e, he⟩ := refused_sel hb h env true
  simp only [findText, closestText, prevUntilText, nextUntilText, parentsUntilText, untilText, he, refused_ne hb,
    Bool.false_eq_true, if_false]
  refine ⟨rfl, rfl, rfl, rfl, rfl, fun ht => ?_⟩
  simp only [siblingsText, ht, refused_ne hb, he, Bool.false_eq_true, if_false]
  rfl

example : findText demo env0 (fun _ => true) [] "a,,b".toList = .error .unwrapNone :=
  (C32_fails_empty _ ⟨.wrongCombinator, by decide⟩).1

end Visdom
