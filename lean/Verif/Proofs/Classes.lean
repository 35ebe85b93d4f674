import Verif.Proofs.Attr
import Mathlib.Data.List.Nodup
import Mathlib.Data.List.TakeWhile
/-! Lemmas for the class methods. -/
namespace Visdom
open Spec

/-! ### removal by positions -/

/-- elements whose position (counted from `k`) is not in `idx` -/
def keepFrom {α : Type} (k : Nat) (idx : List Nat) : List α → List α
  | [] => []
  | a :: v => if k ∈ idx then keepFrom (k + 1) idx v else a :: keepFrom (k + 1) idx v

theorem keepFrom_nil {α : Type} (k : Nat) (v : List α) : keepFrom k [] v = v := by
  induction v generalizing k with
  | nil => rfl
  | cons a v ih => simp [keepFrom, ih]

theorem keepFrom_congr {α : Type} (k : Nat) (i j : List Nat) (v : List α)
    (h : ∀ x, k ≤ x → (x ∈ i ↔ x ∈ j)) : keepFrom k i v = keepFrom k j v := by
  induction v generalizing k with
  | nil => rfl
  | cons a v ih =>
    simp only [keepFrom, h k (Nat.le_refl k), ih (k + 1) (fun x hx => h x (by omega))]

theorem keepFrom_cons_eraseIdx {α : Type} (k : Nat) (i : Nat) (rest : List Nat) (v : List α)
    (hi : k ≤ i) (hlt : i < k + v.length) (hs : ∀ x ∈ rest, i < x) :
    keepFrom k (i :: rest) v = keepFrom (k + 1) rest (v.eraseIdx (i - k)) := by
  induction v generalizing k with
  | nil => simp at hlt; omega
  | cons a v ih =>
    by_cases hik : i = k
    · subst hik
      simp only [keepFrom, List.mem_cons, true_or, if_true, Nat.sub_self, List.eraseIdx_cons_zero]
      apply keepFrom_congr
      intro x hx
      simp only [List.mem_cons]
      constructor
      · rintro (h | h)
        · omega
        · exact h
      · exact Or.inr
    · have e : i - k = (i - (k + 1)) + 1 := by omega
      have hk : k ∉ i :: rest := by
        simp only [List.mem_cons, not_or]
        exact ⟨fun h => hik h.symm, fun h => by have := hs k h; omega⟩
      have hk2 : k + 1 ∉ rest := fun h => by have := hs _ h; omega
      rw [e, List.eraseIdx_cons_succ, keepFrom, keepFrom, if_neg hk, if_neg hk2, ih (k + 1) (by omega) (by simp at hlt; omega)]

theorem retainFrom_eq {α : Type} (i : Nat) (idx : List Nat) (v : List α)
    (hs : idx.Pairwise (· < ·)) (hr : ∀ x ∈ idx, i ≤ x ∧ x < i + v.length) :
    retainByIndexFrom i v idx = .ok (keepFrom i idx v) := by
  induction idx generalizing i v with
  | nil => simp [retainByIndexFrom, keepFrom_nil]
  | cons k rest ih =>
    obtain ⟨h1, h2⟩ := hr k (by simp)
    rw [List.pairwise_cons] at hs
    have hlt : k - i < v.length := by omega
    simp only [retainByIndexFrom, Nat.not_lt.2 h1, if_false, vecRemove, hlt, if_true]
    rw [keepFrom_cons_eraseIdx i k rest v h1 h2 hs.1]
    apply ih (i + 1) _ hs.2
    intro x hx
    have hkx := hs.1 x hx
    have := hr x (by simp [hx])
    rw [List.length_eraseIdx_of_lt hlt]
    omega

/-! ### positions of names -/

theorem findIdx?_eq_some_of_nodup {l : List (List Char)} {c : List Char} {i : Nat} :
    l.findIdx? (· == c) = some i → l[i]? = some c := by
  intro h
  rw [List.findIdx?_eq_some_iff_getElem] at h
  obtain ⟨h1, h2, _⟩ := h
  rw [List.getElem?_eq_getElem h1]
  simpa using h2

theorem removedIndexs_filter (orig names : List (List Char)) :
    removedIndexs orig names = removedIndexs orig (names.filter (orig.contains ·)) := by
  unfold removedIndexs
  induction names with
  | nil => rfl
  | cons c names ih =>
    by_cases hc : c ∈ orig
    · rw [List.filter_cons, if_pos (by simpa using hc), List.filterMap_cons, List.filterMap_cons, ih]
    · have hn : orig.findIdx? (· == c) = none := by
        rw [List.findIdx?_eq_none_iff]
        intro x hx
        simp only [beq_eq_false_iff_ne]
        rintro rfl
        exact hc hx
      simp [hc, ih, List.filter_cons, hn]

theorem removedIndexs_cons_of_mem {orig : List (List Char)} {c : List Char} {names : List (List Char)} (hc : c ∈ orig) :
    ∃ i, orig.findIdx? (· == c) = some i ∧ removedIndexs orig (c :: names) = i :: removedIndexs orig names := by
  cases h : orig.findIdx? (· == c) with
  | none =>
    rw [List.findIdx?_eq_none_iff] at h
    have := h c hc
    simp at this
  | some i => exact ⟨i, rfl, by simp [removedIndexs, h]⟩

/-- A sublist of a duplicate-free list has strictly increasing first positions, and those positions
hold exactly its members. -/
theorem removedIndexs_sublist {orig sub : List (List Char)} (hn : orig.Nodup) (hs : sub.Sublist orig) :
    (removedIndexs orig sub).Pairwise (· < ·) ∧ (∀ x ∈ removedIndexs orig sub, x < orig.length) ∧
    ∀ (k i : Nat), k = 0 → (∀ (h : i < orig.length), (i ∈ removedIndexs orig sub ↔ orig[i] ∈ sub)) := by
  have hmemb : ∀ x, x ∈ removedIndexs orig sub ↔ ∃ c ∈ sub, orig.findIdx? (· == c) = some x := by
    intro x; simp [removedIndexs, List.mem_filterMap]
  refine ⟨?_, ?_, ?_⟩
  · induction hs with
    | slnil => simp [removedIndexs]
    | @cons l1 l2 a h ih =>
      have hn2 := (List.nodup_cons.1 hn)
      have ih := ih hn2.2 (by intro x; simp [removedIndexs, List.mem_filterMap])
      have : removedIndexs (a :: l2) l1 = (removedIndexs l2 l1).map (· + 1) := by
        unfold removedIndexs
        rw [List.map_filterMap]
        apply List.filterMap_congr
        intro c hc
        have hne : (a == c) = false := by
          rw [beq_eq_false_iff_ne]
          rintro rfl
          exact hn2.1 (h.subset hc)
        simp [List.findIdx?_cons, hne]
      rw [this, List.pairwise_map]
      exact ih.imp (by intro a b h; omega)
    | @cons_cons l1 l2 a h ih =>
      have hn2 := (List.nodup_cons.1 hn)
      have ih := ih hn2.2 (by intro x; simp [removedIndexs, List.mem_filterMap])
      have : removedIndexs (a :: l2) (a :: l1) = 0 :: (removedIndexs l2 l1).map (· + 1) := by
        have e1 : removedIndexs (a :: l2) (a :: l1) = 0 :: removedIndexs (a :: l2) l1 := by
          simp [removedIndexs, List.findIdx?_cons]
        rw [e1]
        congr 1
        unfold removedIndexs
        rw [List.map_filterMap]
        apply List.filterMap_congr
        intro c hc
        have hne : (a == c) = false := by
          rw [beq_eq_false_iff_ne]
          rintro rfl
          exact hn2.1 (h.subset hc)
        simp [List.findIdx?_cons, hne]
      rw [this, List.pairwise_cons, List.pairwise_map]
      refine ⟨?_, ih.imp (by intro a b h; omega)⟩
      intro x hx
      simp only [List.mem_map] at hx
      obtain ⟨y, _, rfl⟩ := hx
      omega
  · intro x hx
    obtain ⟨c, _, h⟩ := (hmemb x).1 hx
    rw [List.findIdx?_eq_some_iff_getElem] at h
    exact h.1
  · intro k i _ hi
    rw [hmemb]
    constructor
    · rintro ⟨c, hc, h⟩
      have := findIdx?_eq_some_of_nodup h
      rw [List.getElem?_eq_getElem hi] at this
      simp only [Option.some.injEq] at this
      rw [this]; exact hc
    · intro h
      refine ⟨orig[i], h, ?_⟩
      rw [List.findIdx?_eq_some_iff_getElem]
      refine ⟨hi, by simp, fun j hj => ?_⟩
      have hjl : j < orig.length := by omega
      have hne : orig[j] ≠ orig[i] := by
        intro e
        have := (List.nodup_iff_injective_getElem.1 hn) (a₁ := ⟨j, hjl⟩) (a₂ := ⟨i, hi⟩) e
        simp at this
        omega
      simpa using hne

theorem keepFrom_eq_filter {α : Type} {idx : List Nat} (P : α → Bool) (k : Nat) (v : List α)
    (h : ∀ i (hi : i < v.length), (k + i ∈ idx ↔ P v[i] = false)) :
    keepFrom k idx v = v.filter P := by
  induction v generalizing k with
  | nil => rfl
  | cons a v ih =>
    have h0 := h 0 (by simp)
    simp only [Nat.add_zero, List.getElem_cons_zero] at h0
    have ih := ih (k + 1) (fun i hi => by
      have := h (i + 1) (by simpa using hi)
      simp only [List.getElem_cons_succ] at this
      rw [← this]
      have : k + 1 + i = k + (i + 1) := by omega
      rw [this])
    by_cases hp : P a
    · have : k ∉ idx := fun hm => by rw [h0.1 hm] at hp; cases hp
      simp [keepFrom, this, hp, ih]
    · have hp' : P a = false := by simpa using hp
      simp [keepFrom, h0.2 hp', hp', ih]

/-- Removing the positions of a sublist removes exactly its members. -/
theorem retain_removed {orig sub : List (List Char)} (hn : orig.Nodup) (hs : sub.Sublist orig) :
    retainByIndex orig (removedIndexs orig sub) = .ok (orig.filter fun c => !sub.contains c) := by
  obtain ⟨h1, h2, h3⟩ := removedIndexs_sublist hn hs
  unfold retainByIndex
  rw [retainFrom_eq 0 _ _ h1 (fun x hx => ⟨Nat.zero_le _, by simpa using h2 x hx⟩)]
  congr 1
  apply keepFrom_eq_filter
  intro i hi
  rw [Nat.zero_add, h3 0 i rfl hi]
  simp

/-! ### trimming -/

theorem dropWhile_split {α : Type} (p : α → Bool) (l : List α) :
    ∃ g, l = g ++ l.dropWhile p ∧ ∀ c ∈ g, p c = true :=
  ⟨l.takeWhile p, List.takeWhile_append_dropWhile.symm, fun _ h => List.mem_takeWhile_imp h⟩

theorem trim_split (s : List Char) :
    ∃ g g', s = g ++ trim s ++ g' ∧ (∀ c ∈ g, isUnicodeWs c = true) ∧ (∀ c ∈ g', isUnicodeWs c = true) := by
  obtain ⟨g, h1, h2⟩ := dropWhile_split isUnicodeWs s
  obtain ⟨g', h3, h4⟩ := dropWhile_split isUnicodeWs (s.dropWhile isUnicodeWs).reverse
  refine ⟨g, g'.reverse, ?_, h2, fun c hc => h4 c (by simpa using hc)⟩
  have h3' := congrArg List.reverse h3
  rw [List.reverse_reverse, List.reverse_append] at h3'
  rw [trim, List.append_assoc, ← h3', ← h1]

theorem getClassList_lead {g : List Char} (hg : ∀ c ∈ g, IsSpace c) (u : List Char) :
    getClassList (g ++ u) = getClassList u := by
  rw [getClassList_eq, getClassList_eq, List.foldl_append, fold_spaces hg _ rfl]

theorem getClassList_trail {g : List Char} (hg : ∀ c ∈ g, IsSpace c) (u : List Char) :
    getClassList (u ++ g) = getClassList u := by
  rw [getClassList_eq, getClassList_eq, List.foldl_append]
  generalize u.foldl classStep {} = s
  cases g with
  | nil => rfl
  | cons c g =>
    have hc : isAsciiWs c = true := (isAsciiWs_iff c).2 (hg c (by simp))
    rw [List.foldl_cons]
    have hg' : ∀ c ∈ g, IsSpace c := fun c h => hg c (by simp [h])
    by_cases hp : s.prevWs
    · have : classStep s c = s := by simp [classStep, hc, hp]
      rw [this, fold_spaces hg' s hp]
    · have : classStep s c = { list := s.list ++ [s.name], name := [], prevWs := true } := by
        simp [classStep, hc, hp]
      rw [this, fold_spaces hg' _ rfl]
      simp [classFinish, hp]

/-- Names given without exotic white space: trimming does not change the name list. -/
theorem getClassList_trim (s : List Char) (h : ∀ c ∈ s, isUnicodeWs c = true → IsSpace c) :
    getClassList (trim s) = getClassList s := by
  obtain ⟨g, g', e, h1, h2⟩ := trim_split s
  have hg : ∀ c ∈ g, IsSpace c := fun c hc => h c (by rw [e]; simp [hc]) (h1 c hc)
  have hg' : ∀ c ∈ g', IsSpace c := fun c hc => h c (by rw [e]; simp [hc]) (h2 c hc)
  rw [e, getClassList_trail hg', getClassList_lead hg, ← e]

theorem trim_subset (s : List Char) : ∀ c ∈ trim s, c ∈ s := by
  obtain ⟨g, g', e, _, _⟩ := trim_split s
  intro c hc
  rw [e]; simp [hc]

/-! ### characters of joined lists -/

theorem mem_classListToString {l : List (List Char)} {c : Char} (h : c ∈ classListToString l) :
    c = ' ' ∨ ∃ t ∈ l, c ∈ t := by
  unfold classListToString at h
  cases hl : l.getLast? with
  | none => simp [hl] at h
  | some last =>
    simp only [hl, List.mem_append, List.mem_flatMap] at h
    rcases h with ⟨t, ht, hc⟩ | h
    · simp only [List.mem_cons, List.not_mem_nil, or_false] at hc
      rcases hc with hc | hc
      · exact Or.inr ⟨t, List.dropLast_subset _ ht, hc⟩
      · exact Or.inl hc
    · exact Or.inr ⟨last, List.mem_of_getLast? hl, h⟩

theorem mem_of_mem_tokens {s : List Char} {l : List (List Char)} (h : Tokens s l) :
    ∀ t ∈ l, ∀ c ∈ t, c ∈ s := by
  induction h with
  | blank => simp
  | token g t rest l hg ht hr h ih =>
    intro u hu c hc
    rcases List.mem_cons.1 hu with rfl | hu
    · simp [hc]
    · simp [ih u hu c hc]

theorem mem_of_mem_classList {s t : List Char} (ht : t ∈ getClassList s) {c : Char} (hc : c ∈ t) : c ∈ s := by
  obtain ⟨l, hl⟩ := tokens_exists s
  exact mem_of_mem_tokens hl t (by rwa [← tokens_unique hl]) c hc

/-! ### adding -/

theorem pushMissing_spec (orig names : List (List Char)) :
    (∃ added, pushMissing orig names = orig ++ added ∧ added.Sublist names ∧ ∀ t ∈ added, t ∉ orig) ∧
    (∀ t, t ∈ pushMissing orig names ↔ t ∈ orig ∨ t ∈ names) ∧
    (orig.Nodup → (pushMissing orig names).Nodup) := by
  unfold pushMissing
  induction names generalizing orig with
  | nil => exact ⟨⟨[], by simp⟩, by simp, by simp⟩
  | cons c names ih =>
    by_cases hc : c ∈ orig
    · simp only [List.foldl_cons, List.contains_eq_mem, hc, decide_true, if_true]
      obtain ⟨h1, h2, h3⟩ := ih orig
      simp only [List.contains_eq_mem] at h1 h2 h3
      refine ⟨h1.imp fun a ha => ⟨ha.1, ha.2.1.cons c, ha.2.2⟩, fun t => ?_, h3⟩
      rw [h2 t, List.mem_cons]
      constructor
      · rintro (h | h) <;> simp [h]
      · rintro (h | h | h)
        · exact Or.inl h
        · exact Or.inl (h ▸ hc)
        · exact Or.inr h
    · simp only [List.foldl_cons, List.contains_eq_mem, hc, decide_false, if_false, Bool.false_eq_true]
      obtain ⟨⟨a, h1, h1', h1''⟩, h2, h3⟩ := ih (orig ++ [c])
      simp only [List.contains_eq_mem] at h1 h2 h3
      refine ⟨⟨c :: a, by rw [h1]; simp, h1'.cons_cons c, fun t ht => ?_⟩, fun t => ?_, fun hn => h3 ?_⟩
      · rcases List.mem_cons.1 ht with rfl | ht
        · exact hc
        · exact fun hm => h1'' t ht (by simp [hm])
      · rw [h2 t]; simp [or_assoc]
      · rw [List.nodup_append]
        refine ⟨hn, by simp, ?_⟩
        intro a ha b hb
        simp at hb
        subst hb
        rintro rfl
        exact hc ha

theorem pushMissing_idem (orig names : List (List Char)) (h : ∀ t ∈ names, t ∈ orig) :
    pushMissing orig names = orig := by
  unfold pushMissing
  induction names with
  | nil => rfl
  | cons c names ih =>
    have hc : c ∈ orig := h c (by simp)
    simp only [List.foldl_cons, List.contains_eq_mem, hc, decide_true, if_true]
    simpa using ih (fun t ht => h t (by simp [ht]))

/-! ### writing the class attribute -/

theorem classValue_view {m : Meta} (wf : MetaWF m) :
    classValue m = .ok (match viewOf m classKey with | some (some c) => some c | _ => none) := by
  unfold classValue viewOf
  obtain ⟨v, hv⟩ := getAttribute_ok wf classKey
  rw [hv]
  rcases v with _ | v
  · rfl
  · cases v <;> rfl

end Visdom
