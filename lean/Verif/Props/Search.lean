import Verif.Model.Search
import Verif.Props.Nth
/-!
# C01: looking up positions

The library looks positions up with `binary_search`, in lists that are not always sorted (`C01_nth_shape`). It finds what is there.
-/
namespace Visdom
open Spec

/-- What is needed to find a number: smaller ones come before it, larger ones after it, except at the very beginning. -/
def Findable (l : List Nat) (x : Nat) : Prop :=
  ∀ p, l[p]? = some x → ∀ k y, l[k]? = some y → (k < p → k = 0 ∨ y < x) ∧ (p < k → x < y)

theorem searchLoop_iff {l : List Nat} {x : Nat} (hf : Findable l x) (left right : Nat) (hr : right ≤ l.length) :
    searchLoop l x left right = true ↔ ∃ p, left ≤ p ∧ p < right ∧ l[p]? = some x := by
  fun_induction searchLoop l x left right with
  | case1 left right h mid hn =>
    have : mid < l.length := by omega
    rw [List.getElem?_eq_getElem this] at hn; cases hn
  | case2 left right h mid hy =>
    simp only [true_iff]
    exact ⟨mid, by omega, by omega, hy⟩
  | case3 left right h mid y hy hne hlt ih =>
    rw [ih hr]
    constructor
    · rintro ⟨p, h1, h2, h3⟩; exact ⟨p, by omega, h2, h3⟩
    · rintro ⟨p, h1, h2, h3⟩
      refine ⟨p, ?_, h2, h3⟩
      by_contra hc
      rcases Nat.lt_or_ge p mid with hp | hp
      · have := (hf p h3 mid y hy).2 hp; omega
      · have : p = mid := by omega
        subst this
        rw [hy] at h3
        exact hne (Option.some.inj h3)
  | case4 left right h mid y hy hne hlt ih =>
    rw [ih (by omega)]
    constructor
    · rintro ⟨p, h1, h2, h3⟩; exact ⟨p, h1, by omega, h3⟩
    · rintro ⟨p, h1, h2, h3⟩
      refine ⟨p, h1, ?_, h3⟩
      by_contra hc
      rcases Nat.lt_or_ge mid p with hp | hp
      · rcases (hf p h3 mid y hy).1 hp with h0 | h0
        · omega
        · omega
      · have : p = mid := by omega
        subst this
        rw [hy] at h3
        exact hne (Option.some.inj h3)
  | case5 left right h =>
    simp only [Bool.false_eq_true, false_iff]
    rintro ⟨p, h1, h2, _⟩; omega

theorem searchBase_spec {l : List Nat} {x : Nat} (hf : Findable l x) (base size : Nat) (hs : 0 < size) (hr : base + size ≤ l.length)
    {p : Nat} (hp : l[p]? = some x) (h1 : base ≤ p) (h2 : p < base + size) : searchBase l x base size = p := by
  fun_induction searchBase l x base size with
  | case1 base size h half mid base' ih =>
    have hm : mid < l.length := by omega
    have hb : base' = if x < l[mid] then base else mid := by
      simp only [base', List.getElem?_eq_getElem hm, dite_eq_ite]
    have := hf p hp mid l[mid] (List.getElem?_eq_getElem hm)
    by_cases hx : x < l[mid]
    · rw [if_pos hx] at hb
      have hlt : p < mid := by
        by_contra hc
        rcases Nat.lt_or_ge mid p with h' | h'
        · rcases this.1 h' with h0 | h0 <;> omega
        · have : p = mid := by omega
          subst this
          rw [List.getElem?_eq_getElem hm] at hp
          have := Option.some.inj hp
          omega
      exact ih (by omega) (by omega) (by omega) (by omega)
    · rw [if_neg hx] at hb
      have hge : mid ≤ p := by
        by_contra hc
        have := this.2 (by omega)
        omega
      exact ih (by omega) (by omega) (by omega) (by omega)
  | case2 base size h => omega

/-- Both loops find exactly what is in the list. -/
theorem search_iff {l : List Nat} {x : Nat} (hf : Findable l x) :
    (search181 l x = true ↔ x ∈ l) ∧ (search182 l x = true ↔ x ∈ l) := by
  constructor
  · unfold search181
    rw [searchLoop_iff hf 0 l.length (le_refl _), List.mem_iff_getElem?]
    constructor
    · rintro ⟨p, _, _, h3⟩; exact ⟨p, h3⟩
    · rintro ⟨p, h3⟩
      exact ⟨p, Nat.zero_le _, (List.getElem?_eq_some_iff.1 h3).1, h3⟩
  · unfold search182
    split
    · rename_i he
      rw [List.isEmpty_iff] at he
      subst he; simp
    · rename_i he
      rw [beq_iff_eq]
      constructor
      · exact List.mem_of_getElem?
      · intro hm
        obtain ⟨p, h3⟩ := List.mem_iff_getElem?.1 hm
        have hlt := (List.getElem?_eq_some_iff.1 h3).1
        rw [searchBase_spec hf 0 l.length (by omega) (by omega) h3 (by omega) (by omega), h3]

theorem findable_sorted {l : List Nat} (hs : l.Pairwise (· < ·)) (x : Nat) : Findable l x := by
  intro p hp k y hk
  obtain ⟨hpl, hpx⟩ := List.getElem?_eq_some_iff.1 hp
  obtain ⟨hkl, hky⟩ := List.getElem?_eq_some_iff.1 hk
  have := List.pairwise_iff_getElem.1 hs
  constructor
  · intro hlt; right
    have := this k p hkl hpl hlt
    omega
  · intro hlt
    have := this p k hpl hkl hlt
    omega

theorem findable_cons {l : List Nat} (hs : l.Pairwise (· < ·)) {x j : Nat} (hx : x ≠ j) : Findable (j :: l) x := by
  intro p hp k y hk
  cases p with
  | zero => simp at hp; omega
  | succ p =>
    cases k with
    | zero => exact ⟨fun _ => Or.inl rfl, fun h => absurd h (by omega)⟩
    | succ k =>
      rw [List.getElem?_cons_succ] at hp hk
      have := findable_sorted hs x p hp k y hk
      refine ⟨fun h1 => ?_, fun h1 => this.2 (by omega)⟩
      rcases this.1 (by omega) with h0 | h0
      · subst h0
        right
        have := (List.pairwise_iff_getElem.1 hs) 0 p (List.getElem?_eq_some_iff.1 hk).1 (List.getElem?_eq_some_iff.1 hp).1 (by omega)
        have e1 := (List.getElem?_eq_some_iff.1 hk).2
        have e2 := (List.getElem?_eq_some_iff.1 hp).2
        omega
      · exact Or.inr h0

/-- **C01**: a position among the children is found by `binary_search` in what was computed for `an+b` if and only if it is selected,
whatever the formula: also where the computed list is not sorted. -/
theorem C01_search (n b : Int) (total : Nat) (ht : (total : Int) < 9223372036854775808)
    (hb1 : -9223372036854775808 ≤ b) (hb2 : b < 9223372036854775808) {x : Nat} (hx : x < total) :
    (search181 (allowedWithN n b total) x = true ↔ NthSelects n b (x + 1)) ∧
    (search182 (allowedWithN n b total) x = true ↔ NthSelects n b (x + 1)) := by
  obtain ⟨G, hG, hA⟩ := C01_nth_shape n b total ht hb1 hb2
  have key : Findable (allowedWithN n b total) x ∧ (x ∈ allowedWithN n b total ↔ NthSelects n b (x + 1)) := by
    have hm : x ∈ G ↔ NthSelects n b (x + 1) := by rw [hG.2]; simp [hx]
    rcases hA with hA | ⟨j, hj, ⟨_, hA⟩ | hA⟩
    · rw [hA]; exact ⟨findable_sorted hG.1 x, hm⟩
    · rw [hA]
      refine ⟨findable_cons hG.1 (by omega), ?_⟩
      rw [List.mem_cons, ← hm]
      constructor
      · rintro (h1 | h1)
        · omega
        · exact h1
      · exact Or.inr
    · rw [hA]
      refine ⟨findable_sorted ?_ x, ?_⟩
      · rw [List.pairwise_append]
        refine ⟨hG.1, List.pairwise_singleton _ _, fun a ha c hc => ?_⟩
        rw [List.mem_singleton] at hc
        have := ((hG.2 a).1 ha).1
        omega
      · rw [List.mem_append, List.mem_singleton, ← hm]
        constructor
        · rintro (h1 | h1)
          · exact h1
          · omega
        · exact Or.inl
  rw [← key.2]
  exact search_iff key.1

/-- The loops on an unsorted list: what is computed for `3n-1` among eight children. -/
example : allowedWithN 3 (-1) 8 = [18446744073709551614, 1, 4, 7] ∧
    (List.range 8).filter (search182 [18446744073709551614, 1, 4, 7]) = [1, 4, 7] ∧
    (List.range 8).filter (search181 [18446744073709551614, 1, 4, 7]) = [1, 4, 7] := by
  refine ⟨by decide, by simp [List.range, List.range.loop, search182, searchBase], by simp [List.range, List.range.loop, search181, searchLoop]⟩

end Visdom
