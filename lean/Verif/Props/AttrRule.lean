import Verif.Model.AttrRule
import Verif.Spec.AttrRule
import Verif.Props.Classes
import Verif.Props.Strings
/-!
# C10: attribute, class and name selectors on one element
-/
namespace Visdom
open Spec

theorem strContains_iff (s p : List Char) : strContains s p = true ↔ ∃ u u', s = u ++ p ++ u' := by
  induction s with
  | nil =>
    simp only [strContains, List.isEmpty_iff]
    constructor
    · rintro rfl; exact ⟨[], [], rfl⟩
    · rintro ⟨u, u', h⟩
      have := congrArg List.length h
      simp only [List.length_nil, List.length_append] at this
      exact List.length_eq_zero_iff.1 (by omega)
  | cons c s ih =>
    simp only [strContains, Bool.or_eq_true, List.isPrefixOf_iff_prefix, ih]
    constructor
    · rintro (⟨t, h⟩ | ⟨u, u', h⟩)
      · exact ⟨[], t, by simpa using h.symm⟩
      · exact ⟨c :: u, u', by simp [h]⟩
    · rintro ⟨u, u', h⟩
      cases u with
      | nil => left; exact ⟨u', by simpa using h.symm⟩
      | cons d u =>
        right
        simp only [List.cons_append, List.cons.injEq] at h
        exact ⟨u, u', h.2⟩

/-- The specification test belonging to a mode. -/
def AttrMode.test : AttrMode → AttrTest
  | .eq => .equals
  | .prefix => .startsWith
  | .suffix => .endsWith
  | .contains => .contains
  | .dash => .dashMatch
  | .word => .hasWord
  | .ne => .differs

theorem attr_present (mode : AttrMode) (w : List Char) (v : Option (List Char)) (q : Option Char) :
    (attrHandle mode (some w) (some (match v with | some s => .value s q | none => .tru)) = true ↔
      mode.test.Holds w (some v)) := by
  by_cases hw : w = []
  · subst hw
    cases v with
    | none =>
      cases mode <;> simp [attrHandle, AttrMode.test, AttrTest.Holds, textOf]
    | some s =>
      cases mode <;> simp [attrHandle, AttrMode.test, AttrTest.Holds, textOf, List.isPrefixOf_iff_prefix]
      · constructor
        · rintro (h | h)
          · exact Or.inl h
          · obtain ⟨t, ht⟩ := h
            exact Or.inr ⟨t, by simpa using ht.symm⟩
        · rintro (h | ⟨u, h⟩)
          · exact Or.inl h
          · exact Or.inr ⟨u, by simp [h]⟩
  · have hwe : w.isEmpty = false := by simpa using hw
    cases v with
    | none =>
      have hw' : ¬ [] = w := fun e => hw e.symm
      cases mode <;> simp [attrHandle, AttrMode.test, AttrTest.Holds, textOf, hw, hw']
      intro l hl
      rw [tokens_nil hl]; simp
    | some s =>
      cases mode <;> simp [attrHandle, AttrMode.test, AttrTest.Holds, textOf, hw, hwe]
      · exact ⟨fun ⟨t, h⟩ => ⟨t, h.symm⟩, fun ⟨t, h⟩ => ⟨t, h.symm⟩⟩
      · exact ⟨fun ⟨t, h⟩ => ⟨t, h.symm⟩, fun ⟨t, h⟩ => ⟨t, h.symm⟩⟩
      · rw [strContains_iff]; simp
      · constructor
        · rintro (h | h)
          · exact Or.inl h
          · obtain ⟨t, ht⟩ := h
            exact Or.inr ⟨t, by simpa using ht.symm⟩
        · rintro (h | ⟨u, h⟩)
          · exact Or.inl h
          · exact Or.inr ⟨u, by simp [h]⟩
      · constructor
        · intro h
          exact ⟨getClassList s, tokens_iff.2 rfl, h⟩
        · rintro ⟨l, hl, h⟩
          rw [tokens_iff.1 hl]; exact h
      · constructor
        · intro h e; exact h e.symm
        · intro h e; exact h e.symm

theorem attr_absent (mode : AttrMode) (w : List Char) (hw : w ≠ []) :
    (attrHandle mode (some w) none = true ↔ mode.test.Holds w none) := by
  have hwe : w.isEmpty = false := by simpa using hw
  cases mode <;> simp [attrHandle, AttrMode.test, AttrTest.Holds, hw]

theorem attrRule_view {m : Meta} (wf : MetaWF m) (key : List Char) (mode : AttrMode) (op : Option (List Char)) :
    ∃ q, attrRuleOne key mode op m = .ok (attrHandle mode op
      ((viewOf m key).map fun v => match v with | some s => AttrValue.value s q | none => .tru)) := by
  unfold attrRuleOne viewOf
  obtain ⟨v, hv⟩ := getAttribute_ok wf key
  rw [hv]
  rcases v with _ | v
  · exact ⟨none, rfl⟩
  · cases v with
    | tru => exact ⟨none, rfl⟩
    | value s q => exact ⟨q, rfl⟩

/-- **C10** (partial: the operand is not empty or the attribute is present): every attribute test selects
exactly what it should, for every element, name, operand and value; it never panics. -/
theorem C10_attr_tests_partial (m : Meta) (wf : MetaWF m) (key : List Char) (mode : AttrMode) (w : List Char)
    (h : w ≠ [] ∨ viewOf m key ≠ none) :
    ∃ b, attrRuleOne key mode (some w) m = .ok b ∧ (b = true ↔ mode.test.Holds w (viewOf m key)) := by
  obtain ⟨q, hq⟩ := attrRule_view wf key mode (some w)
  refine ⟨_, hq, ?_⟩
  cases hv : viewOf m key with
  | none => exact attr_absent mode w (h.resolve_right (fun h => h hv))
  | some v => exact attr_present mode w v q

/-- **C10**: `[name]` selects exactly the elements that have the attribute, under any letter case. -/
theorem C10_attr_presence (m : Meta) (wf : MetaWF m) (key : List Char) (mode : AttrMode) :
    ∃ b, attrRuleOne key mode none m = .ok b ∧ (b = true ↔ ∃ v, viewOf m key = some v) := by
  obtain ⟨q, hq⟩ := attrRule_view wf key mode none
  refine ⟨_, hq, ?_⟩
  cases hv : viewOf m key <;> simp [attrHandle]

/-- **C10**: the name of the attribute is matched under any letter case. -/
theorem C10_attr_name_case (m : Meta) (wf : MetaWF m) (key key' : List Char) (hk : SameIgnoringCase key key')
    (mode : AttrMode) (op : Option (List Char)) :
    attrRuleOne key mode op m = attrRuleOne key' mode op m := by
  unfold attrRuleOne getAttribute
  rw [(lowerStr_eq_iff key key').2 hk]

/-- **C10 fails** for an empty operand and a missing attribute: `[a=""]` and `[a|=""]` select elements that do
not have `a`, and `[a!=""]` does not. -/
theorem C10_fails_empty_operand (key : List Char) :
    attrRuleOne key .eq (some []) {} = .ok true ∧ ¬ AttrTest.equals.Holds [] (viewOf {} key) ∧
    attrRuleOne key .dash (some []) {} = .ok true ∧ ¬ AttrTest.dashMatch.Holds [] (viewOf {} key) ∧
    attrRuleOne key .ne (some []) {} = .ok false ∧ AttrTest.differs.Holds [] (viewOf {} key) := by
  have hv : viewOf {} key = none := rfl
  simp only [hv, AttrTest.Holds]
  refine ⟨rfl, by simp, rfl, by simp, rfl, by simp⟩

/-- **C10**, exact form: a test goes wrong on an element if and only if the operand is empty, the element lacks the
attribute, and the test is `=`, `|=` or `!=`. -/
theorem C10_exact_partial (m : Meta) (wf : MetaWF m) (key : List Char) (mode : AttrMode) (w : List Char) :
    ∃ b, attrRuleOne key mode (some w) m = .ok b ∧ ((b = true ↔ mode.test.Holds w (viewOf m key)) ↔
      ¬ (w = [] ∧ viewOf m key = none ∧ (mode = .eq ∨ mode = .dash ∨ mode = .ne))) := by
  by_cases hc : w ≠ [] ∨ viewOf m key ≠ none
  · obtain ⟨b, h1, h2⟩ := C10_attr_tests_partial m wf key mode w hc
    refine ⟨b, h1, iff_of_true h2 ?_⟩
    rintro ⟨a1, a2, _⟩
    exact hc.elim (fun h => h a1) fun h => h a2
  · rw [not_or, Decidable.not_not, Decidable.not_not] at hc
    obtain ⟨rfl, hv⟩ := hc
    obtain ⟨q, hq⟩ := attrRule_view wf key mode (some [])
    refine ⟨_, hq, ?_⟩
    rw [hv]
    cases mode <;> simp [attrHandle, AttrMode.test, AttrTest.Holds]

/-- **C10** for `.name`: exactly the elements with that class. -/
theorem C10_class_rule (m : Meta) (wf : MetaWF m) (name : List Char) :
    ∃ b, classRuleOne name m = .ok b ∧ (b = true ↔ ∃ l, ClassList (viewOf m) l ∧ name ∈ l) := by
  unfold classRuleOne
  obtain ⟨v, hv⟩ := getAttribute_ok wf classKey
  have hview : viewOf m classKey = seen v := by unfold viewOf; rw [hv]
  rw [hv]
  rcases v with _ | v
  · refine ⟨false, rfl, ?_⟩
    have hview' : viewOf m ['c', 'l', 'a', 's', 's'] = none := hview
    unfold ClassList
    rw [hview']
    simp
  · cases v with
    | tru =>
      refine ⟨false, rfl, ?_⟩
      have hview' : viewOf m ['c', 'l', 'a', 's', 's'] = some none := hview
      unfold ClassList
      rw [hview']
      simp
    | value s q =>
      refine ⟨_, rfl, ?_⟩
      simp only [List.contains_eq_mem, decide_eq_true_eq]
      constructor
      · intro h; exact ⟨_, (classList_view hview).2 rfl, h⟩
      · rintro ⟨l, hl, h⟩
        rw [(classList_view hview).1 hl]; exact h

/-- **C10** for tag names: compared up to letter case. -/
theorem C10_name_rule (name tag : List Char) : nameRuleOne name tag = true ↔ SameIgnoringCase tag name :=
  C03_equal_ignore_case tag name

/-! Cases meeting the hypotheses. -/
example : attrRuleOne "CLASS".toList .word (some "b".toList) (classMeta "a b c") = .ok true := by decide
example : attrRuleOne "class".toList .dash (some "en".toList) (classMeta "en-US") = .ok true := by decide
example : attrRuleOne "class".toList .dash (some "en".toList) (classMeta "english") = .ok false := by decide

end Visdom
