import Verif.Proofs.Strings
/-!
# C03 (class lists), C11 (substring search), letter-case comparison
-/
namespace Visdom
open Spec

/-- **C03**: reading a class attribute yields exactly the maximal space-free runs, in order. -/
theorem C03_class_list_tokens (s : List Char) (l : List (List Char)) :
    Tokens s l ↔ getClassList s = l := by
  constructor
  · exact tokens_unique
  · rintro rfl
    obtain ⟨l, hl⟩ := tokens_exists s
    rwa [tokens_unique hl]

/-- **C03**: writing a list of valid names and reading it back returns the same list. -/
theorem C03_class_list_round_trip (l : List (List Char)) (h : ∀ t ∈ l, IsToken t) :
    getClassList (classListToString l) = l := getClassList_join h

/-- **C03**: everything read is a valid name, so reading, writing and reading again is stable. -/
theorem C03_class_list_stable (s : List Char) :
    (∀ t ∈ getClassList s, IsToken t) ∧ getClassList (classListToString (getClassList s)) = getClassList s :=
  ⟨getClassList_valid s, getClassList_join (getClassList_valid s)⟩

example : getClassList "  a\tbc  d ".toList = ["a".toList, "bc".toList, "d".toList] := by decide
example : IsToken "ab".toList ∧ ¬ IsToken "a b".toList := by decide
example : SameIgnoringCase "DiV".toList "dIv".toList := by decide

/-- Tag names are compared up to ASCII letter case. -/
theorem C03_equal_ignore_case (a b : List Char) :
    isEqualCharsIgnoreCase a b = true ↔ SameIgnoringCase a b := by
  unfold isEqualCharsIgnoreCase SameIgnoringCase
  induction a generalizing b with
  | nil => cases b <;> simp
  | cons x a ih =>
    cases b with
    | nil => simp
    | cons y b =>
      have := ih b
      by_cases hlen : a.length = b.length
      · simp only [hlen, ne_eq, not_true_eq_false, if_false] at this
        simp only [List.length_cons, hlen, ne_eq, not_true_eq_false, if_false, List.zip_cons_cons,
          List.all_cons, Bool.and_eq_true, this, List.map_cons, List.cons.injEq]
        rw [← charCaseEq_iff x y]
      · simp only [List.length_cons, ne_eq, Nat.add_right_cancel_iff, hlen, not_false_eq_true, if_true,
          Bool.false_eq_true, List.map_cons, List.cons.injEq, false_iff]
        rintro ⟨_, h⟩
        exact hlen (by simpa using congrArg List.length h)

theorem zip_all_eq_iff (a b : List Char) (h : a.length = b.length) :
    ((a.zip b).all fun (x, y) => x == y) = true ↔ a = b := by
  induction a generalizing b with
  | nil => cases b <;> simp_all
  | cons x a ih =>
    cases b with
    | nil => simp at h
    | cons y b => simp [ih b (by simpa using h)]

/-- Exact comparison is equality. -/
theorem C03_equal_chars (a b : List Char) : isEqualChars a b = true ↔ a = b := by
  unfold isEqualChars
  split
  · rename_i h; exact zip_all_eq_iff a b h
  · rename_i h
    simp only [Bool.false_eq_true, false_iff]
    rintro rfl; exact h rfl

theorem containsFrom_iff (t s : List Char) (k start : Nat) (h : start + k + s.length = t.length + 1) :
    containsFrom t s k start = true ↔ ∃ i, start ≤ i ∧ i + s.length ≤ t.length ∧ (t.drop i).take s.length = s := by
  induction k generalizing start with
  | zero =>
    simp only [containsFrom, Bool.false_eq_true, false_iff]
    rintro ⟨i, h1, h2, _⟩; omega
  | succ k ih =>
    unfold containsFrom
    have hl : ((t.drop start).take s.length).length = s.length := by simp; omega
    have e := zip_all_eq_iff ((t.drop start).take s.length) s hl
    by_cases hc : (((t.drop start).take s.length).zip s).all (fun (a, b) => a == b) = true
    · rw [if_pos hc]
      simp only [true_iff]
      exact ⟨start, Nat.le_refl _, by omega, e.1 hc⟩
    · rw [if_neg hc, ih (start + 1) (by omega)]
      constructor
      · rintro ⟨i, h1, h2, h3⟩; exact ⟨i, by omega, h2, h3⟩
      · rintro ⟨i, h1, h2, h3⟩
        refine ⟨i, ?_, h2, h3⟩
        rcases Nat.lt_or_ge start i with h4 | h4
        · exact h4
        · have : i = start := by omega
          subst this
          exact absurd (e.2 h3) hc

/-- **C11**: `contains_chars` answers true exactly when the needle is a contiguous part of the text. -/
theorem C11_contains_chars (text needle : List Char) :
    containsChars text needle = true ↔ ∃ before after, text = before ++ needle ++ after := by
  unfold containsChars
  split
  · rename_i h
    simp only [Bool.false_eq_true, false_iff]
    rintro ⟨p, q, rfl⟩
    simp at h; omega
  · rename_i h
    rw [containsFrom_iff _ _ _ _ (by omega)]
    constructor
    · rintro ⟨i, _, h2, h3⟩
      refine ⟨text.take i, (text.drop i).drop needle.length, ?_⟩
      conv => lhs; rw [← List.take_append_drop i text, ← List.take_append_drop needle.length (text.drop i)]
      rw [h3, List.append_assoc]
    · rintro ⟨p, q, rfl⟩
      refine ⟨p.length, Nat.zero_le _, by simp, ?_⟩
      simp

example : containsChars "hello world".toList "o w".toList = true := by decide
example : containsChars "hello".toList "lol".toList = false := by decide

end Visdom
