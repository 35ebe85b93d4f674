import Verif.Model.Sets
import Verif.Props.Add
/-!
# C16, C43, C44: membership filters, positions and ranges, callbacks
-/
namespace Visdom
open Spec

/-! ## C16 -/

theorem indexOf_some {S : List Nat} {x start i : Nat} (hi : indexOf S x start = some i) :
    start ≤ i ∧ S[i]? = some x := by
  unfold indexOf at hi
  rw [Option.map_eq_some_iff] at hi
  obtain ⟨j, hj, rfl⟩ := hi
  have := List.idxOf?_eq_some_iff.1 hj
  obtain ⟨hl, he, _⟩ := this
  refine ⟨by omega, ?_⟩
  rw [← List.getElem?_drop, List.getElem?_eq_getElem hl, he]

theorem indexOf_none {S : List Nat} {x start : Nat} : indexOf S x start = none ↔ x ∉ S.drop start := by
  unfold indexOf
  rw [Option.map_eq_none_iff, List.idxOf?_eq_none_iff]

theorem indexOf_beyond {S : List Nat} {x start : Nat} (hs : S.length ≤ start) : indexOf S x start = none := by
  rw [indexOf_none, List.drop_eq_nil_of_le hs]; simp

theorem notInFrom_beyond {S : List Nat} (X : List Nat) {start : Nat} (hs : S.length ≤ start) :
    notInFrom S X start = X := by
  induction X with
  | nil => rfl
  | cons x xs ih => simp only [notInFrom, indexOf_beyond hs, ih]

theorem filterIn_parts (S : List Nat) (X : List Nat) : ∀ start,
    (filterInFrom S X start).Sublist X ∧ (notInFrom S X start).Sublist X ∧
    (filterInFrom S X start ++ notInFrom S X start).Perm X := by
  induction X with
  | nil => intro start; simp [filterInFrom, notInFrom]
  | cons x xs ih =>
    intro start
    simp only [filterInFrom, notInFrom]
    split
    · rename_i i hi
      by_cases hl : S.length ≤ i + 1
      · rw [if_pos hl, notInFrom_beyond xs hl]
        refine ⟨by simp, by simp, ?_⟩
        simp
      · rw [if_neg hl]
        obtain ⟨h1, h2, h3⟩ := ih (i + 1)
        exact ⟨h1.cons_cons x, h2.cons x, by simpa using h3⟩
    · obtain ⟨h1, h2, h3⟩ := ih start
      exact ⟨h1.cons x, h2.cons_cons x, List.perm_middle.trans (h3.cons x)⟩

/-- C16: for any two sets, `filter_in` and `not_in` split the receiver, keeping the order in both. -/
theorem C16_split (X S : List Nat) :
    (filterIn X S).Sublist X ∧ (notIn X S).Sublist X ∧ (filterIn X S ++ notIn X S).Perm X :=
  filterIn_parts S X 0

/-- Where `R` orders both lists, the search from the moving start index finds exactly the common elements. -/
theorem filterIn_ordered {R : Nat → Nat → Prop} (hirr : ∀ a, ¬ R a a) (htr : ∀ a b c, R a b → R b c → R a c) {S : List Nat}
    (hS : S.Pairwise R) (X : List Nat) : X.Pairwise R → ∀ start,
    (∀ x ∈ X, ∀ i s, i < start → S[i]? = some s → R s x) →
    filterInFrom S X start = X.filter (· ∈ S) ∧ notInFrom S X start = X.filter (· ∉ S) := by
  induction X with
  | nil => intro _ _ _; exact ⟨rfl, rfl⟩
  | cons x xs ih =>
    intro hX start hinv
    have hx := List.pairwise_cons.1 hX
    simp only [filterInFrom, notInFrom]
    split
    · rename_i i hi
      obtain ⟨hsi, hget⟩ := indexOf_some hi
      have hmem : x ∈ S := List.mem_of_getElem? hget
      have hinv' : ∀ y ∈ xs, ∀ j s, j < i + 1 → S[j]? = some s → R s y := by
        intro y hy j s hj hs
        have hxy := hx.1 y hy
        rcases Nat.lt_or_ge j i with h1 | h1
        · obtain ⟨hjl, rfl⟩ := List.getElem?_eq_some_iff.1 hs
          obtain ⟨hil, he⟩ := List.getElem?_eq_some_iff.1 hget
          have := List.pairwise_iff_getElem.1 hS j i hjl hil h1
          rw [he] at this
          exact htr _ _ _ this hxy
        · obtain rfl : j = i := by omega
          rw [hget] at hs; cases hs; exact hxy
      obtain ⟨i1, i2⟩ := ih hx.2 (i + 1) hinv'
      have hrest : (if S.length ≤ i + 1 then [] else filterInFrom S xs (i + 1)) = xs.filter (· ∈ S) := by
        split
        · rename_i hl
          symm
          rw [List.filter_eq_nil_iff]
          intro y hy hyS
          obtain ⟨j, hj⟩ := List.getElem?_of_mem (by simpa using hyS : y ∈ S)
          have := (List.getElem?_eq_some_iff.1 hj).1
          exact hirr _ (hinv' y hy j y (by omega) hj)
        · exact i1
      rw [hrest, i2]
      simp [hmem]
    · rename_i hi
      have hmem : x ∉ S := by
        intro hm
        obtain ⟨j, hj⟩ := List.getElem?_of_mem hm
        have hd := indexOf_none.1 hi
        rcases Nat.lt_or_ge j start with h1 | h1
        · exact hirr _ (hinv x List.mem_cons_self j x h1 hj)
        · apply hd
          have : (S.drop start)[j - start]? = some x := by
            rw [List.getElem?_drop]; rw [show start + (j - start) = j by omega]; exact hj
          exact List.mem_of_getElem? this
      obtain ⟨i1, i2⟩ := ih hx.2 start (fun y hy => hinv y (List.mem_cons_of_mem _ hy))
      rw [i1, i2]
      simp [hmem]

/-- C16: for two document ordered sets of one document, `filter_in` keeps exactly the common elements and `not_in`
exactly the others. -/
theorem C16_ordered_exact {h : Heap} {r : Nat} (wf : TreeWF h r) {X S : List Nat} (hX : ∀ x ∈ X, Within h r x)
    (hS : ∀ x ∈ S, Within h r x) (sX : DocSorted h r X) (sS : DocSorted h r S) :
    filterIn X S = X.filter (· ∈ S) ∧ notIn X S = X.filter (· ∉ S) :=
  filterIn_ordered (R := KLt h) (fun _ => KLt.irrefl) (fun _ _ _ => KLt.trans) (klt_of_sorted wf hS sS) X
    (klt_of_sorted wf hX sX) 0 (by intro x _ i s hi; omega)

example : filterIn [2, 5, 7, 9] [1, 5, 9] = [5, 9] ∧ notIn [2, 5, 7, 9] [1, 5, 9] = [2, 7] := by decide

/-- C16: `is_in` says exactly whether the sets meet, and that is when `filter_in` is not empty. -/
theorem C16_is_in (X S : List Nat) :
    (isIn X S = true ↔ ∃ x ∈ X, x ∈ S) ∧ (isIn X S = true ↔ filterIn X S ≠ []) := by
  have h1 : isIn X S = true ↔ ∃ x ∈ X, x ∈ S := by simp [isIn]
  refine ⟨h1, h1.trans ?_⟩
  unfold filterIn
  induction X with
  | nil => simp [filterInFrom]
  | cons x xs ih =>
    simp only [filterInFrom]
    split
    · rename_i i hi
      simp only [ne_eq, reduceCtorEq, not_false_eq_true, iff_true]
      exact ⟨x, by simp, List.mem_of_getElem? (indexOf_some hi).2⟩
    · rename_i hi
      have := indexOf_none.1 hi
      simp only [List.drop_zero] at this
      rw [← ih (by simp [isIn])]
      simp [this]

theorem allInFrom_len (S : List Nat) (X : List Nat) : ∀ start, allInFrom S X start = true → start ≤ S.length →
    X.length + start ≤ S.length := by
  induction X with
  | nil => intro start _ h2; simpa using h2
  | cons x xs ih =>
    intro start h1 h2
    simp only [allInFrom] at h1
    split at h1
    · rename_i i hi
      obtain ⟨h3, h4⟩ := indexOf_some hi
      have h5 := (List.getElem?_eq_some_iff.1 h4).1
      have := ih _ h1 (by omega)
      simp; omega
    · cases h1

theorem allInFrom_notIn (S : List Nat) (X : List Nat) : ∀ start, allInFrom S X start = true ↔ notInFrom S X start = [] := by
  induction X with
  | nil => intro start; simp [allInFrom, notInFrom]
  | cons x xs ih =>
    intro start
    simp only [allInFrom, notInFrom]
    split
    · exact ih _
    · simp

/-- C16: `is_all_in` holds exactly when `not_in` is empty, for any two sets. -/
theorem C16_is_all_in (X S : List Nat) : isAllIn X S = true ↔ notIn X S = [] := by
  unfold isAllIn notIn
  split
  · exact allInFrom_notIn S X 0
  · rename_i hl
    rw [← allInFrom_notIn]
    constructor
    · simp
    · intro h1
      have := allInFrom_len S X 0 h1 (by omega)
      omega

/-- C16: for document ordered sets `is_all_in` is inclusion. -/
theorem C16_is_all_in_ordered {h : Heap} {r : Nat} (wf : TreeWF h r) {X S : List Nat} (hX : ∀ x ∈ X, Within h r x)
    (hS : ∀ x ∈ S, Within h r x) (sX : DocSorted h r X) (sS : DocSorted h r S) :
    isAllIn X S = true ↔ ∀ x ∈ X, x ∈ S := by
  rw [C16_is_all_in, (C16_ordered_exact wf hX hS sX sS).2, List.filter_eq_nil_iff]
  simp

/-- C16: without a common order the exactness fails: an element of both sets is dropped by `filter_in`. -/
theorem C16_unordered_inexact : filterIn [1, 2] [2, 1] = [1] ∧ notIn [1, 2] [2, 1] = [2] ∧ isAllIn [1, 2] [2, 1] = false := by
  decide

/-! ## C43 -/

/-- C43: `eq(i)` is the element at position `i`, or nothing. -/
theorem C43_eq (X : List Nat) (i : Nat) : eqAt X i = X[i]?.toList := by
  unfold eqAt; cases X[i]? <;> rfl

/-- C43: `first` is the first element, or nothing. -/
theorem C43_first (X : List Nat) : firstE X = X.head?.toList := by
  unfold firstE; rw [C43_eq]; cases X <;> rfl

/-- C43, `last`, proved part: on a non-empty set `last` is the last element. The empty set is missing, where the
library panics (`C43_last_fails_empty`). -/
theorem C43_last_partial {X : List Nat} (hX : X ≠ []) : lastE X = .ok X.getLast?.toList := by
  unfold lastE
  rw [if_neg (by simpa using hX), C43_eq, List.getLast?_eq_getElem?]

example : lastE [4, 7] = .ok [7] := by decide

/-- C43: `last` on the empty set panics. -/
theorem C43_last_fails_empty : lastE [] = .error .overflow := by decide

/-- Position `i` is admitted by a pair of bounds. -/
def InRange (lo hi : Bnd) (i : Nat) : Prop :=
  (match lo with | .unbounded => True | .included s => s ≤ i | .excluded s => s < i) ∧
  (match hi with | .unbounded => True | .included e => i ≤ e | .excluded e => i < e)

instance (lo hi : Bnd) (i : Nat) : Decidable (InRange lo hi i) := by
  unfold InRange; cases lo <;> cases hi <;> infer_instance

/-- The elements at the positions admitted by the bounds, in order. -/
def sliceSpec (X : List Nat) (lo hi : Bnd) : List Nat :=
  (List.range X.length).filterMap fun i => if InRange lo hi i then X[i]? else none

theorem take_drop_range (X : List Nat) (s e : Nat) (hse : s ≤ e) (he : e ≤ X.length) :
    (X.take e).drop s = (List.range X.length).filterMap fun i => if s ≤ i ∧ i < e then X[i]? else none := by
  have key : ∀ n, n ≤ X.length → ((X.take e).take n).drop s =
      (List.range n).filterMap fun i => if s ≤ i ∧ i < e then X[i]? else none := by
    intro n
    induction n with
    | zero => intro _; simp
    | succ n ih =>
      intro hn
      rw [List.range_succ, List.filterMap_append, ← ih (by omega)]
      have hx : X[n]? = some X[n] := List.getElem?_eq_getElem (by omega)
      by_cases h1 : n < e
      · have ht : (X.take e).take (n + 1) = (X.take e).take n ++ [X[n]] := by
          rw [List.take_take, List.take_take, Nat.min_eq_left (by omega), Nat.min_eq_left (by omega)]
          rw [List.take_add_one, hx]; rfl
        rw [ht]
        by_cases h2 : s ≤ n
        · rw [List.drop_append_of_le_length (by simp; omega)]
          simp [h1, h2, hx]
        · rw [List.drop_eq_nil_of_le (by simp; omega), List.drop_eq_nil_of_le (by simp; omega)]
          simp [h2]
      · have ht : (X.take e).take (n + 1) = (X.take e).take n := by
          rw [List.take_take, List.take_take, Nat.min_eq_right (by omega), Nat.min_eq_right (by omega)]
        rw [ht]
        simp [h1]
  have := key X.length (Nat.le_refl _)
  rw [List.take_of_length_le (by simp)] at this
  exact this

/-- The cases in which `slice` is right: no excluded start, no inclusive end at the largest integer, and an end not
before a start that lies inside the set. -/
def SliceOk (len : Nat) (lo hi : Bnd) : Prop :=
  (∀ s, lo ≠ .excluded s) ∧
  ∀ s, lo = .included s → s < len → (∀ e, hi = .excluded e → s ≤ e) ∧ ∀ e, hi = .included e → s ≤ e + 1

/-- C43, `slice`, proved part: outside the excluded cases `slice(range)` is exactly the elements at the positions of
the range. Missing: excluded start bounds (ignored by the library), an end before the start (panic) and an
inclusive end of `usize::MAX` (panic). -/
theorem C43_slice_partial (X : List Nat) (lo hi : Bnd) (hok : SliceOk X.length lo hi)
    (hmax : ∀ e, hi = .included e → e < 18446744073709551615) : sliceE X lo hi = .ok (sliceSpec X lo hi) := by
  have hum : usizeMax = 18446744073709551615 := rfl
  rw [← hum] at hmax
  obtain ⟨h1, h2⟩ := hok
  have fin : ∀ s e, s ≤ e → e ≤ X.length → (∀ i, i < X.length → ((s ≤ i ∧ i < e) ↔ InRange lo hi i)) →
      (X.take e).drop s = sliceSpec X lo hi := by
    intro s e hse he hiff
    rw [take_drop_range X s e hse he]
    unfold sliceSpec
    apply List.filterMap_congr
    intro i hi'
    have := hiff i (List.mem_range.1 hi')
    simp only [this]
  unfold sliceE
  cases lo with
  | unbounded =>
    cases hi with
    | unbounded =>
      simp only [sliceStart, sliceEnd]
      rw [if_neg (by omega), fin 0 X.length (by omega) (by omega) (by intro i hi; simp [InRange, hi])]
    | included e =>
      have := hmax e rfl
      simp only [sliceStart, sliceEnd, if_neg (Nat.not_le.2 this)]
      rw [if_neg (by omega), fin 0 _ (by omega) (by split <;> omega)]
      intro i hi; simp only [InRange]; split <;> simp <;> omega
    | excluded e =>
      simp only [sliceStart, sliceEnd]
      rw [if_neg (by omega), fin 0 _ (by omega) (by split <;> omega)]
      intro i hi; simp only [InRange]; split <;> simp <;> omega
  | excluded s => exact absurd rfl (h1 s)
  | included s =>
    simp only [sliceStart]
    by_cases hs : s < X.length
    · rw [if_pos hs]
      obtain ⟨h3, h4⟩ := h2 s rfl hs
      cases hi with
      | unbounded =>
        simp only [sliceEnd]
        rw [if_neg (by omega), fin s X.length (by omega) (by omega) (by intro i hi; simp [InRange, hi])]
      | included e =>
        have := hmax e rfl
        have := h4 e rfl
        simp only [sliceEnd, if_neg (Nat.not_le.2 (hmax e rfl))]
        rw [if_neg (by split <;> omega), fin s _ (by split <;> omega) (by split <;> omega)]
        intro i hi; simp only [InRange]; split <;> omega
      | excluded e =>
        have := h3 e rfl
        simp only [sliceEnd]
        rw [if_neg (by split <;> omega), fin s _ (by split <;> omega) (by split <;> omega)]
        intro i hi; simp only [InRange]; split <;> omega
    · rw [if_neg hs]
      have : sliceSpec X (.included s) hi = [] := by
        unfold sliceSpec
        rw [List.filterMap_eq_nil_iff]
        intro i hi'
        have := List.mem_range.1 hi'
        rw [if_neg]
        intro hr
        have := hr.1
        simp at this; omega
      rw [this]

example : SliceOk 4 (.included 1) (.excluded 3) ∧ sliceE [5, 6, 7, 8] (.included 1) (.excluded 3) = .ok [6, 7] := by
  refine ⟨⟨by simp, ?_⟩, by decide⟩
  intro s hs _
  cases hs
  exact ⟨by intro e he; cases he; omega, by simp⟩

/-- C43: exactly when `slice` panics. -/
theorem C43_slice_panics_iff (X : List Nat) (lo hi : Bnd) : (∃ p, sliceE X lo hi = .error p) ↔
    (∀ s, lo = .included s → s < X.length) ∧
    ((∃ e, hi = .included e ∧ 18446744073709551615 ≤ e) ∨
     ∃ s, lo = .included s ∧ ((∃ e, hi = .excluded e ∧ e < s) ∨ ∃ e, hi = .included e ∧ e + 1 < s)) := by
  have hum : usizeMax = 18446744073709551615 := rfl
  rw [← hum]
  have ite_err : ∀ (c : Prop) [Decidable c] (l : List Nat),
      (∃ p, (if c then (.error .overflow : R (List Nat)) else .ok l) = .error p) ↔ c := by
    intro c _ l; by_cases hc : c <;> simp [hc]
  unfold sliceE
  cases lo with
  | unbounded =>
    cases hi <;> simp [sliceStart, sliceEnd]
    rename_i e
    by_cases h1 : usizeMax ≤ e <;> simp [h1]
  | excluded s =>
    cases hi <;> simp [sliceStart, sliceEnd]
    rename_i e
    by_cases h1 : usizeMax ≤ e <;> simp [h1]
  | included s =>
    simp only [sliceStart]
    by_cases hs : s < X.length
    · rw [if_pos hs]
      cases hi with
      | unbounded => simp [sliceEnd, hs, Nat.not_lt.2 (Nat.le_of_lt hs)]
      | excluded e =>
        simp only [sliceEnd]
        rw [ite_err]
        simp [hs]
        split <;> omega
      | included e =>
        simp only [sliceEnd]
        by_cases h1 : usizeMax ≤ e
        · simp [h1, hs]
        · rw [if_neg h1]
          simp only
          rw [ite_err]
          simp [hs, h1]
          split <;> omega
    · rw [if_neg hs]
      simp [hs]

/-- C43: an end before the start panics instead of giving the empty set. -/
theorem C43_slice_fails_reversed : sliceE [5, 6, 7] (.included 2) (.excluded 1) = .error .overflow := by decide

/-- C43: an excluded start bound is ignored. -/
theorem C43_slice_fails_excluded : sliceE [5, 6, 7] (.excluded 1) .unbounded = .ok [5, 6, 7] ∧
    sliceSpec [5, 6, 7] (.excluded 1) .unbounded = [7] := by decide

/-! ## C44 -/

theorem filterBy_from (p : Nat → Nat → Bool) (X : List Nat) : ∀ i,
    filterBy p X i = ((X.zipIdx i).filter fun e => p e.2 e.1).map (·.1) := by
  induction X with
  | nil => intro i; rfl
  | cons x xs ih =>
    intro i
    simp only [filterBy, List.zipIdx_cons, List.filter_cons]
    by_cases h1 : p i x = true <;> simp [h1, ih]

theorem notBy_from (p : Nat → Nat → Bool) (X : List Nat) : ∀ i,
    notBy p X i = ((X.zipIdx i).filter fun e => !p e.2 e.1).map (·.1) := by
  induction X with
  | nil => intro i; rfl
  | cons x xs ih =>
    intro i
    simp only [notBy, List.zipIdx_cons, List.filter_cons]
    by_cases h1 : p i x = true <;> simp [h1, ih]

/-- C44: `filter_by` keeps, in order, exactly the elements whose index and value the callback accepts. -/
theorem C44_filter_by (p : Nat → Nat → Bool) (X : List Nat) :
    filterBy p X 0 = (X.zipIdx.filter fun e => p e.2 e.1).map (·.1) := filterBy_from p X 0

/-- C44: `not_by` keeps exactly the others. -/
theorem C44_not_by (p : Nat → Nat → Bool) (X : List Nat) :
    notBy p X 0 = (X.zipIdx.filter fun e => !p e.2 e.1).map (·.1) ∧ (filterBy p X 0 ++ notBy p X 0).Perm X := by
  refine ⟨notBy_from p X 0, ?_⟩
  rw [filterBy_from, notBy_from, ← List.map_append]
  have := (List.filter_append_perm (fun e : Nat × Nat => p e.2 e.1) (X.zipIdx 0)).map (·.1)
  refine this.trans ?_
  rw [List.zipIdx_map_fst]

theorem isBy_from (p : Nat → Nat → Bool) (X : List Nat) : ∀ k,
    isBy p X k = true ↔ ∃ i x, X[i]? = some x ∧ p (k + i) x = true := by
  induction X with
  | nil => intro k; simp [isBy]
  | cons x xs ih =>
    intro k
    simp only [isBy]
    split
    · rename_i h1
      simp only [true_iff]
      exact ⟨0, x, rfl, h1⟩
    · rename_i h1
      rw [ih]
      constructor
      · rintro ⟨i, y, h2, h3⟩
        exact ⟨i + 1, y, by simpa using h2, by rw [← h3]; congr 1; omega⟩
      · rintro ⟨i, y, h2, h3⟩
        cases i with
        | zero => simp at h2; subst h2; exact absurd h3 (by simpa using h1)
        | succ i => exact ⟨i, y, by simpa using h2, by rw [← h3]; congr 1; omega⟩

theorem isAllBy_from (p : Nat → Nat → Bool) (X : List Nat) : ∀ k,
    isAllBy p X k = true ↔ ∀ i x, X[i]? = some x → p (k + i) x = true := by
  induction X with
  | nil => intro k; simp [isAllBy]
  | cons x xs ih =>
    intro k
    simp only [isAllBy]
    split
    · rename_i h1
      simp only [Bool.false_eq_true, false_iff]
      intro h2
      have := h2 0 x rfl
      simp at h1; simp [h1] at this
    · rename_i h1
      rw [ih]
      constructor
      · intro h2 i y h3
        cases i with
        | zero => simp at h3; subst h3; simpa using h1
        | succ i =>
          have := h2 i y (by simpa using h3)
          rw [← this]; congr 1; omega
      · intro h2 i y h3
        have := h2 (i + 1) y (by simpa using h3)
        rw [← this]; congr 1; omega

/-- C44: `is_by` is "some", `is_all_by` is "every", over index and element. -/
theorem C44_is_by (p : Nat → Nat → Bool) (X : List Nat) :
    (isBy p X 0 = true ↔ ∃ i x, X[i]? = some x ∧ p i x = true) ∧
    (isAllBy p X 0 = true ↔ ∀ i x, X[i]? = some x → p i x = true) := by
  have h1 := isBy_from p X 0
  have h2 := isAllBy_from p X 0
  simp only [Nat.zero_add] at h1 h2
  exact ⟨h1, h2⟩

theorem mapE_from {β : Type} (f : Nat → Nat → β) (X : List Nat) : ∀ k i, (mapE f X k)[i]? = X[i]?.map (f (k + i)) := by
  induction X with
  | nil => intro k i; simp [mapE]
  | cons x xs ih =>
    intro k i
    cases i with
    | zero => simp [mapE]
    | succ i =>
      simp only [mapE, List.getElem?_cons_succ, ih]
      rw [show k + 1 + i = k + (i + 1) by omega]

/-- C44: `map` gives the callback's value for every position, in order, and nothing else. -/
theorem C44_map {β : Type} (f : Nat → Nat → β) (X : List Nat) (i : Nat) : (mapE f X 0)[i]? = X[i]?.map (f i) := by
  rw [mapE_from, Nat.zero_add]

/-- The state after calling `f` on the given (element, index) pairs one after the other. -/
def runCalls {σ : Type} (f : σ → Nat → Nat → σ × Bool) (s : σ) (l : List (Nat × Nat)) : σ :=
  l.foldl (fun s e => (f s e.2 e.1).1) s

theorem forEach_from {σ : Type} (f : σ → Nat → Nat → σ × Bool) (X : List Nat) : ∀ k s,
    ∃ n, n ≤ X.length ∧ forEach f X k s = runCalls f s ((X.zipIdx k).take n) ∧
      (∀ j, j + 1 < n → ∀ e, (X.zipIdx k)[j]? = some e → (f (runCalls f s ((X.zipIdx k).take j)) e.2 e.1).2 = true) ∧
      (n < X.length → ∃ j e, n = j + 1 ∧ (X.zipIdx k)[j]? = some e ∧
        (f (runCalls f s ((X.zipIdx k).take j)) e.2 e.1).2 = false) := by
  induction X with
  | nil => intro k s; exact ⟨0, by simp, by simp [forEach, runCalls], by simp, by simp⟩
  | cons x xs ih =>
    intro k s
    simp only [forEach]
    by_cases hc : (f s k x).2 = true
    · rw [if_pos hc]
      obtain ⟨n, h1, h2, h3, h4⟩ := ih (k + 1) (f s k x).1
      refine ⟨n + 1, by simpa using h1, ?_, ?_, ?_⟩
      · rw [h2]; simp [runCalls, List.zipIdx_cons]
      · intro j hj e he
        cases j with
        | zero => simp [List.zipIdx_cons] at he; subst he; simpa [runCalls] using hc
        | succ j =>
          have := h3 j (by omega) e (by simpa [List.zipIdx_cons] using he)
          simpa [runCalls, List.zipIdx_cons] using this
      · intro hn
        obtain ⟨j, e, h5, h6, h7⟩ := h4 (by simpa using hn)
        exact ⟨j + 1, e, by omega, by simpa [List.zipIdx_cons] using h6, by simpa [runCalls, List.zipIdx_cons] using h7⟩
    · rw [if_neg hc]
      refine ⟨1, by simp, ?_, ?_, ?_⟩
      · simp [runCalls, List.zipIdx_cons]
      · intro j hj; omega
      · intro _
        exact ⟨0, (x, k), rfl, by simp [List.zipIdx_cons], by simpa [runCalls] using hc⟩

/-- C44: `for_each` calls the callback on the elements in order with their indexes, and stops exactly after the first
call that returns false: some number `n` of calls is made, all but the last returned true, and if not all elements
were visited the last call returned false. -/
theorem C44_for_each {σ : Type} (f : σ → Nat → Nat → σ × Bool) (X : List Nat) (s : σ) :
    ∃ n, n ≤ X.length ∧ forEach f X 0 s = runCalls f s (X.zipIdx.take n) ∧
      (∀ j, j + 1 < n → ∀ e, X.zipIdx[j]? = some e → (f (runCalls f s (X.zipIdx.take j)) e.2 e.1).2 = true) ∧
      (n < X.length → ∃ j e, n = j + 1 ∧ X.zipIdx[j]? = some e ∧ (f (runCalls f s (X.zipIdx.take j)) e.2 e.1).2 = false) :=
  forEach_from f X 0 s

example : forEach (fun (s : List Nat) i x => (s ++ [x], decide (i < 1))) [7, 8, 9] 0 [] = [7, 8] := by decide

theorem mapS_from {σ β : Type} (f : σ → Nat → Nat → σ × β) (X : List Nat) : ∀ k s,
    (mapS f X k s).2 = (X.zipIdx k).foldl (fun s e => (f s e.2 e.1).1) s ∧ (mapS f X k s).1.length = X.length ∧
    ∀ i x, X[i]? = some x → (mapS f X k s).1[i]? = some (f (((X.zipIdx k).take i).foldl (fun s e => (f s e.2 e.1).1) s) (k + i) x).2 := by
  induction X with
  | nil => intro k s; simp [mapS]
  | cons x xs ih =>
    intro k s
    obtain ⟨h1, h2, h3⟩ := ih (k + 1) (f s k x).1
    refine ⟨by simp [mapS, h1, List.zipIdx_cons], by simp [mapS, h2], fun i y hy => ?_⟩
    cases i with
    | zero =>
      simp only [List.getElem?_cons_zero, Option.some.injEq] at hy
      subst hy
      simp [mapS]
    | succ i =>
      rw [List.getElem?_cons_succ] at hy
      have := h3 i y hy
      simp only [mapS, List.getElem?_cons_succ, List.zipIdx_cons, List.take_succ_cons, List.foldl_cons, this]
      rw [show k + 1 + i = k + (i + 1) by omega]

/-- C44: `map` with a callback that keeps a state calls it on every element once, in order: the value at a position is what the callback answers in the state
that the calls before have left, there is a value for every element, and the state afterwards is that after all calls. -/
theorem C44_map_state {σ β : Type} (f : σ → Nat → Nat → σ × β) (X : List Nat) (s : σ) :
    (mapS f X 0 s).2 = X.zipIdx.foldl (fun s e => (f s e.2 e.1).1) s ∧ (mapS f X 0 s).1.length = X.length ∧
    ∀ i x, X[i]? = some x → (mapS f X 0 s).1[i]? = some (f ((X.zipIdx.take i).foldl (fun s e => (f s e.2 e.1).1) s) i x).2 := by
  have := mapS_from f X 0 s
  simpa only [Nat.zero_add] using this

example : mapS (fun (s : Nat) i x => (s + x, s * 10 + i)) [7, 8, 9] 0 1 = ([10, 81, 162], 25) := by decide

theorem forEachMut_from {σ : Type} (f : σ → Nat → Nat → σ × Nat × Bool) (X : List Nat) : ∀ k s,
    (forEachMut f X k s).2 = forEach (fun s i x => ((f s i x).1, (f s i x).2.2)) X k s ∧
    ∃ n, n ≤ X.length ∧ (n < X.length → ∃ j x, n = j + 1 ∧ X[j]? = some x ∧
        (f (((X.zipIdx k).take j).foldl (fun s e => (f s e.2 e.1).1) s) (k + j) x).2.2 = false) ∧
      (∀ j x, j + 1 < n → X[j]? = some x → (f (((X.zipIdx k).take j).foldl (fun s e => (f s e.2 e.1).1) s) (k + j) x).2.2 = true) ∧
      ∀ i x, X[i]? = some x → (forEachMut f X k s).1[i]? =
        some (if i < n then (f (((X.zipIdx k).take i).foldl (fun s e => (f s e.2 e.1).1) s) (k + i) x).2.1 else x) := by
  induction X with
  | nil => intro k s; exact ⟨rfl, 0, by simp, by simp, by simp, by simp⟩
  | cons x xs ih =>
    intro k s
    simp only [forEachMut, forEach]
    by_cases hc : (f s k x).2.2 = true
    · rw [if_pos hc, if_pos hc]
      obtain ⟨h1, n, h2, h3, h4, h5⟩ := ih (k + 1) (f s k x).1
      refine ⟨h1, n + 1, by simpa using h2, fun hn => ?_, fun j y hj hy => ?_, fun i y hy => ?_⟩
      · obtain ⟨j, y, g1, g2, g3⟩ := h3 (by simpa using hn)
        refine ⟨j + 1, y, by omega, by simpa using g2, ?_⟩
        simp only [List.zipIdx_cons, List.take_succ_cons, List.foldl_cons]
        rw [show k + (j + 1) = k + 1 + j by omega]
        exact g3
      · cases j with
        | zero => simp at hy; subst hy; simpa using hc
        | succ j =>
          have := h4 j y (by omega) (by simpa using hy)
          simp only [List.zipIdx_cons, List.take_succ_cons, List.foldl_cons]
          rw [show k + (j + 1) = k + 1 + j by omega]
          exact this
      · cases i with
        | zero => simp at hy; subst hy; simp
        | succ i =>
          have := h5 i y (by simpa using hy)
          simp only [List.getElem?_cons_succ, this, List.zipIdx_cons, List.take_succ_cons, List.foldl_cons, Nat.add_lt_add_iff_right]
          rw [show k + (i + 1) = k + 1 + i by omega]
    · rw [if_neg hc, if_neg hc]
      refine ⟨rfl, 1, by simp, fun _ => ⟨0, x, rfl, by simp, by simpa using hc⟩, fun j y hj => by omega, fun i y hy => ?_⟩
      cases i with
      | zero => simp at hy; subst hy; simp
      | succ i => simpa using hy

/-- C44: `for_each` with a callback that puts other elements in the places of those it is called on. Some number `n` of calls is made (all but the last answer
true, and the last false unless all elements have been visited); at the first `n` places the set afterwards has what the callback put there, behind them it is
as before, and it has as many places. -/
theorem C44_for_each_mut {σ : Type} (f : σ → Nat → Nat → σ × Nat × Bool) (X : List Nat) (s : σ) :
    (forEachMut f X 0 s).2 = forEach (fun s i x => ((f s i x).1, (f s i x).2.2)) X 0 s ∧ (forEachMut f X 0 s).1.length = X.length ∧
    ∃ n, n ≤ X.length ∧ (n < X.length → ∃ j x, n = j + 1 ∧ X[j]? = some x ∧
        (f ((X.zipIdx.take j).foldl (fun s e => (f s e.2 e.1).1) s) j x).2.2 = false) ∧
      (∀ j x, j + 1 < n → X[j]? = some x → (f ((X.zipIdx.take j).foldl (fun s e => (f s e.2 e.1).1) s) j x).2.2 = true) ∧
      ∀ i x, X[i]? = some x → (forEachMut f X 0 s).1[i]? =
        some (if i < n then (f ((X.zipIdx.take i).foldl (fun s e => (f s e.2 e.1).1) s) i x).2.1 else x) := by
  have hl : ∀ k s, (forEachMut f X k s).1.length = X.length := by
    induction X with
    | nil => intro k s; rfl
    | cons x xs ih =>
      intro k s
      simp only [forEachMut]
      split
      · simp [ih]
      · simp
  obtain ⟨h1, n, h2, h3, h4, h5⟩ := forEachMut_from f X 0 s
  simp only [Nat.zero_add] at h3 h4 h5
  exact ⟨h1, hl 0 s, n, h2, h3, h4, h5⟩

/-- The second call stops the loop: the first two elements are exchanged, the third is not. -/
example : forEachMut (fun (s : Nat) i x => (s + x, x + 100, decide (i < 1))) [7, 8, 9] 0 0 = ([107, 108, 9], 15) := by decide

end Visdom
