import Verif.Model.Checked
import Verif.Props.Nth
/-!
# C73: the position formulas in machine integers
-/
namespace Visdom
open Spec

/-- A number that fits into `isize`. -/
def Spec.IsIsize (x : Int) : Prop := -9223372036854775808 ≤ x ∧ x ≤ 9223372036854775807

/-- The formulas `an+b` whose evaluation among `total` children leaves the range of `isize`: `a` is the least number (and `b` positive), or
`b` is so small that `1 - b` or `total - b` does not fit. -/
def Spec.Overflows (a b : Int) (total : Nat) : Prop :=
  (a = -9223372036854775808 ∧ 0 < b) ∨ (0 < a ∧ (¬ IsIsize (1 - b) ∨ ¬ IsIsize (total - b)))

theorem chk_ok {x : Int} (h : IsIsize x) : chk x = .ok x := by
  unfold IsIsize at h
  unfold chk
  rw [if_pos (by omega)]

theorem chk_error {x : Int} (h : ¬ IsIsize x) : chk x = .error .overflow := by
  unfold IsIsize at h
  unfold chk
  rw [if_neg (by omega)]

theorem tdiv_bounds (a : Int) {m : Int} (hm : 0 < m) :
    (0 ≤ a → 0 ≤ a.tdiv m ∧ a.tdiv m * m ≤ a ∧ (a.tmod m ≠ 0 → a.tdiv m * m < a)) ∧
    (a ≤ 0 → a.tdiv m ≤ 0 ∧ a ≤ a.tdiv m * m ∧ (a.tmod m ≠ 0 → a < a.tdiv m * m)) := by
  have h1 := Int.tdiv_mul_add_tmod a m
  constructor
  · intro ha
    have h2 := Int.tmod_nonneg m ha
    have h3 := Int.tdiv_nonneg ha hm.le
    exact ⟨h3, by omega, fun h => by omega⟩
  · intro ha
    have h2 : a.tmod m ≤ 0 := by
      have := Int.tmod_nonneg m (a := -a) (by omega)
      rw [Int.neg_tmod] at this
      omega
    have h3 : a.tdiv m ≤ 0 := by
      have := Int.tdiv_nonneg (a := -a) (b := m) (by omega) hm.le
      rw [Int.neg_tdiv] at this
      omega
    exact ⟨h3, by omega, fun h => by omega⟩

/-- Dividing stays in range except for the least number divided by -1. -/
theorem divideChecked_ok {a b : Int} (ha : IsIsize a) (h0 : b ≠ 0) (hm : ¬ (a = -9223372036854775808 ∧ b = -1)) {r : RoundType}
    (hr : r ≠ .round) : divideChecked a b r = .ok (divideIsize a b r) := by
  have hq : (a.tdiv b).natAbs = a.natAbs / b.natAbs := Int.natAbs_tdiv a b
  have hsmall : 2 ≤ b.natAbs → (a.tdiv b).natAbs ≤ 4611686018427387904 := by
    intro h2
    rw [hq]
    unfold IsIsize at ha
    calc a.natAbs / b.natAbs ≤ a.natAbs / 2 := Nat.div_le_div_left h2 (by omega)
      _ ≤ 4611686018427387904 := by omega
  have hres : IsIsize (a.tdiv b) ∧ (a.tmod b ≠ 0 → 2 ≤ b.natAbs) := by
    rcases Nat.lt_or_ge b.natAbs 2 with h | h
    · have hb : b = 1 ∨ b = -1 := by omega
      rcases hb with rfl | rfl
      · simp [ha]
      · simp only [Int.tdiv_neg, Int.tdiv_one, Int.tmod_neg, Int.tmod_one, ne_eq, not_true_eq_false, false_implies, and_true]
        unfold IsIsize at *
        omega
    · have := hsmall h
      exact ⟨by unfold IsIsize; omega, fun _ => h⟩
  unfold divideChecked
  rw [if_neg h0, chk_ok hres.1]
  cases r with
  | floor =>
    show (if a.tdiv b < 0 ∧ a.tmod b ≠ 0 then chk (a.tdiv b - 1) else .ok (a.tdiv b)) =
      .ok (if a.tdiv b < 0 ∧ a.tmod b ≠ 0 then a.tdiv b - 1 else a.tdiv b)
    by_cases hc : a.tdiv b < 0 ∧ a.tmod b ≠ 0
    · have := hsmall (hres.2 hc.2)
      rw [if_pos hc, if_pos hc, chk_ok (by unfold IsIsize; omega)]
    · rw [if_neg hc, if_neg hc]
  | ceil =>
    show (if a.tdiv b > 0 ∧ a.tmod b ≠ 0 then chk (a.tdiv b + 1) else .ok (a.tdiv b)) =
      .ok (if a.tdiv b > 0 ∧ a.tmod b ≠ 0 then a.tdiv b + 1 else a.tdiv b)
    by_cases hc : a.tdiv b > 0 ∧ a.tmod b ≠ 0
    · have := hsmall (hres.2 hc.2)
      rw [if_pos hc, if_pos hc, chk_ok (by unfold IsIsize; omega)]
    · rw [if_neg hc, if_neg hc]
  | round => exact absurd rfl hr

/-- C73, division: whenever `divide_isize` answers in machine integers, for every way of rounding, it answers what it does with unbounded ones; and it
never divides by zero. -/
theorem C73_divide {a b q : Int} {r : RoundType} (h : divideChecked a b r = .ok q) : b ≠ 0 ∧ q = divideIsize a b r := by
  have hchk : ∀ {x y : Int}, chk x = .ok y → y = x := fun {x y} hx => by
    unfold chk at hx
    split at hx
    · cases hx; rfl
    · cases hx
  unfold divideChecked at h
  by_cases h0 : b = 0
  · rw [if_pos h0] at h; cases h
  rw [if_neg h0] at h
  refine ⟨h0, ?_⟩
  cases h1 : chk (a.tdiv b) with
  | error p => rw [h1] at h; cases h
  | ok res =>
    rw [h1] at h
    have := hchk h1
    subst this
    cases r with
    | floor =>
      change (if a.tdiv b < 0 ∧ a.tmod b ≠ 0 then chk (a.tdiv b - 1) else .ok (a.tdiv b)) = .ok q at h
      unfold divideIsize
      dsimp only
      split at h <;> rename_i hc
      · rw [if_pos hc]; exact hchk h
      · rw [if_neg hc]; cases h; rfl
    | ceil =>
      change (if a.tdiv b > 0 ∧ a.tmod b ≠ 0 then chk (a.tdiv b + 1) else .ok (a.tdiv b)) = .ok q at h
      unfold divideIsize
      dsimp only
      split at h <;> rename_i hc
      · rw [if_pos hc]; exact hchk h
      · rw [if_neg hc]; cases h; rfl
    | round =>
      unfold divideIsize
      dsimp only
      by_cases hc : a.tdiv b ≠ 0 ∧ a.tmod b ≠ 0
      · change (if a.tdiv b ≠ 0 ∧ a.tmod b ≠ 0 then (chk (a.tmod b * 2)).bind fun twice => (chk ((if a.tdiv b < 0 then -1 else 1) * b)).bind fun sb =>
          (chk (twice - sb)).bind fun total => if (total ≥ 0 ∧ a > 0) ∨ (total ≤ 0 ∧ a < 0) then chk (a.tdiv b + (if a.tdiv b < 0 then -1 else 1)) else .ok (a.tdiv b)
          else .ok (a.tdiv b)) = .ok q at h
        rw [if_pos hc] at h ⊢
        generalize (if a.tdiv b < 0 then (-1 : Int) else 1) = sy at h ⊢
        cases h2 : chk (a.tmod b * 2) with
        | error p => rw [h2] at h; cases h
        | ok tw =>
          rw [h2] at h
          change (chk (sy * b)).bind _ = _ at h
          cases h3 : chk (sy * b) with
          | error p => rw [h3] at h; cases h
          | ok sb =>
            rw [h3] at h
            change (chk (tw - sb)).bind _ = _ at h
            cases h4 : chk (tw - sb) with
            | error p => rw [h4] at h; cases h
            | ok tt =>
              rw [h4] at h
              change (if _ then _ else _) = _ at h
              have e2 := hchk h2; have e3 := hchk h3; have e4 := hchk h4
              subst e2 e3 e4
              split at h <;> rename_i hd
              · rw [if_pos hd]; exact hchk h
              · rw [if_neg hd]; cases h; rfl
      · change (if a.tdiv b ≠ 0 ∧ a.tmod b ≠ 0 then _ else Except.ok (a.tdiv b)) = .ok q at h
        rw [if_neg hc] at h ⊢
        cases h; rfl

/-- Seven halves and minus seven halves are rounded away from zero; the least number cannot be divided by minus one. -/
example : divideChecked 7 2 .round = .ok 4 ∧ divideChecked (-7) 2 .round = .ok (-4) ∧ divideChecked (-9223372036854775808) (-1) .round = .error .overflow :=
  ⟨by decide, by decide, by decide⟩

theorem divideChecked_pos {a m : Int} (ha : IsIsize a) (hm : 0 < m) :
    divideChecked a m .floor = .ok (divideIsize a m .floor) ∧ divideChecked a m .ceil = .ok (divideIsize a m .ceil) :=
  ⟨divideChecked_ok ha (by omega) (by omega) (by simp), divideChecked_ok ha (by omega) (by omega) (by simp)⟩

theorem floor_mul_le (a : Int) {m : Int} (hm : 0 < m) {i : Nat} (hi : (i : Int) ≤ divideIsize a m .floor) :
    (i : Int) * m ≤ max a 0 := by
  obtain ⟨p, q⟩ := tdiv_bounds a hm
  unfold divideIsize at hi
  simp only at hi
  have hi' : (i : Int) ≤ a.tdiv m := by
    split at hi <;> omega
  rcases Int.lt_or_le a 0 with h | h
  · have := (q h.le).1
    have : (i : Int) = 0 := by omega
    rw [this]; simp
  · have := (p h).2.1
    rw [max_eq_left h]
    nlinarith

theorem nthSteps_ok {n b : Int} : ∀ (l : List Nat), (∀ i ∈ l, IsIsize (i * n) ∧ IsIsize (i * n + b)) →
    nthStepsChecked n b l = .ok (l.filterMap fun (i : Nat) =>
      let cur := asUsize ((i : Int) * n + b)
      if cur < 1 then none else some (cur - 1)) := by
  intro l
  induction l with
  | nil => intro _; rfl
  | cons i l ih =>
    intro hl
    obtain ⟨h1, h2⟩ := hl i (by simp)
    unfold nthStepsChecked
    rw [chk_ok h1]
    show (chk ((i : Int) * n + b)).bind _ = _
    rw [chk_ok h2, ih fun j hj => hl j (by simp [hj])]
    show Except.ok _ = _
    rw [List.filterMap_cons]
    dsimp only
    by_cases hc : asUsize ((i : Int) * n + b) < 1
    · rw [if_pos hc, if_pos hc]
    · rw [if_neg hc, if_neg hc]

theorem nthRun_ok {n b s e : Int} (h : ∀ i : Nat, (i : Int) ≤ e → IsIsize (i * n) ∧ IsIsize (i * n + b)) :
    nthRunChecked n b s e = .ok (
      let s := if s < 0 then 0 else s
      if s > e then []
      else
        let l := nthLoop n b s.toNat e.toNat
        if n < 0 then l.reverse else l) := by
  unfold nthRunChecked
  dsimp only
  generalize hs : (if s < 0 then 0 else s) = s'
  have hs0 : 0 ≤ s' := by rw [← hs]; split <;> omega
  by_cases hc : s' > e
  · rw [if_pos hc, if_pos hc]
  · rw [if_neg hc, if_neg hc, nthSteps_ok]
    · rfl
    · intro i hi
      rw [List.mem_range'_1] at hi
      exact h i (by omega)

/-- **C73** (exact): evaluating `an+b` panics exactly for the formulas of `Overflows`; for all others the machine computes what the model
with unbounded integers does, about which C01 speaks. Missing for the full claim: the formulas of `Overflows` (`C73_fails`). -/
theorem C73_overflow_partial (n b : Int) (total : Nat) (hn : IsIsize n) (hb : IsIsize b) (ht : IsIsize total) :
    (Overflows n b total → allowedChecked n b total = .error .overflow) ∧
    (¬ Overflows n b total → allowedChecked n b total = .ok (allowedWithN n b total)) := by
  unfold allowedChecked allowedWithN
  rcases Int.lt_trichotomy n 0 with h | h | h
  · rw [if_neg (show ¬ n = 0 by omega), if_pos h, if_neg (show ¬ n = 0 by omega)]
    by_cases h0 : b ≤ 0
    · rw [if_pos h0, if_pos ⟨h, h0⟩]
      refine ⟨fun ho => ?_, fun _ => rfl⟩
      rcases ho with ho | ho <;> omega
    · rw [if_neg h0, if_neg (show ¬ (n < 0 ∧ b ≤ 0) by omega)]
      by_cases hmin : n = -9223372036854775808
      · subst hmin
        refine ⟨fun _ => ?_, fun ho => absurd (.inl ⟨rfl, by omega⟩) ho⟩
        rw [chk_error (by unfold IsIsize; omega)]; rfl
      · refine ⟨fun ho => ?_, fun _ => ?_⟩
        · rcases ho with ho | ho <;> omega
        · have hm : IsIsize (-n) := by unfold IsIsize at *; omega
          rw [chk_ok hm]
          show (if b ≤ -n then _ else _) = _
          by_cases hbn : b ≤ -n
          · rw [if_pos hbn, if_pos (show n < 0 ∧ b ≤ -n from ⟨h, hbn⟩)]
          · rw [if_neg hbn, if_neg (show ¬ (n < 0 ∧ b ≤ -n) by omega)]
            have e1 : IsIsize (b - total) := by unfold IsIsize at *; omega
            have e2 : IsIsize (b - 1) := by unfold IsIsize at *; omega
            rw [chk_ok e1, chk_ok e2]
            show ((divideChecked (b - total) (-n) .ceil).bind fun s => (divideChecked (b - 1) (-n) .floor).bind fun e => nthRunChecked n b s e) = _
            rw [(divideChecked_pos e1 (by omega)).2, (divideChecked_pos e2 (by omega)).1]
            show nthRunChecked n b _ _ = _
            rw [nthRun_ok]
            · rw [if_pos h, if_pos h]
            · intro i hi
              have := floor_mul_le (b - 1) (m := -n) (by omega) hi
              rw [max_eq_left (by omega)] at this
              have h2 : (i : Int) * n = -((i : Int) * -n) := by ring
              have h3 : 0 ≤ (i : Int) * -n := by apply mul_nonneg <;> omega
              unfold IsIsize at *
              omega
  · subst h
    rw [if_pos rfl, if_pos rfl]
    refine ⟨fun ho => ?_, fun _ => rfl⟩
    rcases ho with ho | ho <;> omega
  · rw [if_neg (show ¬ n = 0 by omega), if_neg (show ¬ n < 0 by omega), if_neg (show ¬ n = 0 by omega), if_neg (show ¬ (n < 0 ∧ b ≤ 0) by omega),
      if_neg (show ¬ (n < 0 ∧ b ≤ -n) by omega)]
    by_cases e1 : IsIsize (1 - b)
    · rw [chk_ok e1]
      have d1 := (divideChecked_pos e1 h).2
      by_cases e2 : IsIsize (total - b)
      · refine ⟨fun ho => ?_, fun _ => ?_⟩
        · rcases ho with ho | ⟨_, ho | ho⟩
          · omega
          · exact absurd e1 ho
          · exact absurd e2 ho
        · rw [chk_ok e2]
          show ((divideChecked (1 - b) n .ceil).bind fun s => (divideChecked (total - b) n .floor).bind fun e => nthRunChecked n b s e) = _
          rw [d1, (divideChecked_pos e2 h).1]
          show nthRunChecked n b _ _ = _
          rw [nthRun_ok]
          · rw [if_neg (show ¬ n < 0 by omega), if_neg (show ¬ n < 0 by omega)]
          · intro i hi
            have := floor_mul_le (total - b) h hi
            have h3 : 0 ≤ (i : Int) * n := by apply mul_nonneg <;> omega
            unfold IsIsize at *
            rcases Int.lt_or_le (total - b) 0 with hc | hc
            · rw [max_eq_right hc.le] at this; omega
            · rw [max_eq_left hc] at this; omega
      · refine ⟨fun _ => ?_, fun ho => absurd (.inr ⟨h, .inr e2⟩) ho⟩
        show ((divideChecked (1 - b) n .ceil).bind fun s => ((chk (total - b)).bind fun a => divideChecked a n .floor).bind fun e => nthRunChecked n b s e) = _
        rw [d1, chk_error e2]; rfl
    · refine ⟨fun _ => ?_, fun ho => absurd (.inr ⟨h, .inl e1⟩) ho⟩
      rw [chk_error e1]; rfl

/-- C73 with C01: outside `BadNth` and `Overflows` the machine computes exactly the positions of `an+b`. -/
theorem C73_positions_partial (n b : Int) (total : Nat) (hn : IsIsize n) (hb : IsIsize b) (ht : IsIsize total)
    (h1 : ¬ Overflows n b total) (h2 : ¬ BadNth n b total) : ∃ l, allowedChecked n b total = .ok l ∧ IsNthList n b total l :=
  ⟨_, (C73_overflow_partial n b total hn hb ht).2 h1, nth_good n b total (by unfold IsIsize at ht; omega) h2⟩

/-- C73: numbers of up to 18 digits never overflow. -/
theorem C73_ordinary (n b : Int) (total : Nat) (hn : n.natAbs < 10 ^ 18) (hb : b.natAbs < 10 ^ 18) (ht : total < 10 ^ 18) :
    allowedChecked n b total = .ok (allowedWithN n b total) := by
  refine (C73_overflow_partial n b total ?_ ?_ ?_).2 ?_
  · unfold IsIsize; omega
  · unfold IsIsize; omega
  · unfold IsIsize; omega
  · unfold Overflows IsIsize; omega

/-- **C73 fails**: `:nth-child(-9223372036854775808n+1)` and `:nth-child(n-9223372036854775807)` panic (wrap around in a release build). -/
theorem C73_fails (total : Nat) (ht : IsIsize total) : allowedChecked (-9223372036854775808) 1 total = .error .overflow ∧
    allowedChecked 1 (-9223372036854775807) total = .error .overflow := by
  constructor
  · exact (C73_overflow_partial _ _ _ (by unfold IsIsize; omega) (by unfold IsIsize; omega) ht).1 (.inl ⟨rfl, by omega⟩)
  · exact (C73_overflow_partial _ _ _ (by unfold IsIsize; omega) (by unfold IsIsize; omega) ht).1
      (.inr ⟨by omega, .inl (by unfold IsIsize; omega)⟩)

/-- C73 for the rounding helper by itself: flooring and ceiling leave the range only for the least number divided by -1. -/
theorem C73_divide_partial (a b : Int) (ha : IsIsize a) (h0 : b ≠ 0) {r : RoundType} (hr : r ≠ .round) :
    divideChecked a b r = if a = -9223372036854775808 ∧ b = -1 then .error .overflow else .ok (divideIsize a b r) := by
  by_cases h : a = -9223372036854775808 ∧ b = -1
  · obtain ⟨rfl, rfl⟩ := h
    rw [if_pos ⟨rfl, rfl⟩]
    cases r <;> rfl
  · rw [if_neg h]
    exact divideChecked_ok ha h0 h hr

-- instances: numbers that do not overflow, at the edge of the range
example : ¬ Overflows 3 (-9223372036854775806) 1 ∧ ¬ Overflows (-9223372036854775807) 9223372036854775807 5 ∧ ¬ BadNth 1 (-9223372036854775806) 1 := by
  refine ⟨by unfold Overflows IsIsize; omega, by unfold Overflows IsIsize; omega, by simp only [BadNth]; omega⟩
example : allowedChecked (-2) 3 9 = .ok [0, 2] ∧ allowedChecked 1 9223372036854775807 3 = .ok [] := by decide

end Visdom
