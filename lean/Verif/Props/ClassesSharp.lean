import Verif.Props.Classes
import Mathlib.Data.List.Dedup
/-!
# C05 and C06: the condition on the order of the names is exact
-/
namespace Visdom
open Spec

theorem retainFrom_map {α β : Type} (f : α → β) : ∀ (idx : List Nat) (i : Nat) (v : List α),
    retainByIndexFrom i (v.map f) idx = (retainByIndexFrom i v idx).map (List.map f)
  | [], i, v => rfl
  | r :: idx, i, v => by
    simp only [retainByIndexFrom, vecRemove, List.length_map]
    by_cases h1 : r < i
    · simp only [if_pos h1]; rfl
    · simp only [if_neg h1]
      by_cases h2 : r - i < v.length
      · simp only [if_pos h2]
        have e : (v.map f).eraseIdx (r - i) = (v.eraseIdx (r - i)).map f := by
          rw [List.eraseIdx_eq_take_drop_succ, List.eraseIdx_eq_take_drop_succ, List.map_append, List.map_take, List.map_drop]
        rw [e, retainFrom_map f idx (i + 1)]
      · simp only [if_neg h2]; rfl

theorem retainFrom_sublist {α : Type} : ∀ (idx : List Nat) (i : Nat) (v w : List α), retainByIndexFrom i v idx = .ok w →
    w.Sublist v ∧ w.length + idx.length = v.length
  | [], i, v, w, h => by cases h; exact ⟨List.Sublist.refl _, rfl⟩
  | r :: idx, i, v, w, h => by
    simp only [retainByIndexFrom, vecRemove] at h
    split at h
    · cases h
    · split at h
      · cases h
      · rename_i v' hv
        split at hv
        · cases hv
          rename_i hlt
          obtain ⟨a, b⟩ := retainFrom_sublist idx (i + 1) _ w h
          refine ⟨a.trans (List.eraseIdx_sublist v _), ?_⟩
          rw [List.length_eraseIdx_of_lt hlt] at b
          simp only [List.length_cons]
          omega
        · cases hv

theorem sum_eraseIdx : ∀ (v : List Nat) (j : Nat) (h : j < v.length), (v.eraseIdx j).sum + v[j] = v.sum
  | a :: v, 0, _ => by simp [Nat.add_comm]
  | a :: v, j + 1, h => by
    have := sum_eraseIdx v j (by simpa using h)
    simp only [List.eraseIdx_cons_succ, List.sum_cons, List.getElem_cons_succ]
    omega

/-- What is taken out at step `i` stood at most at the position that was meant; it stood there in all steps only if the positions rise. -/
theorem retainFrom_sum : ∀ (idx : List Nat) (i p : Nat) (v w : List Nat), (∀ k (hk : k < v.length), v[k] ≤ k + i ∧ (k + i < p → v[k] < k + i)) →
    retainByIndexFrom i v idx = .ok w → v.sum ≤ w.sum + idx.sum ∧ (v.sum = w.sum + idx.sum → idx.Pairwise (· < ·) ∧ ∀ r ∈ idx, p ≤ r)
  | [], i, p, v, w, _, h => by cases h; exact ⟨by simp, fun _ => ⟨.nil, by simp⟩⟩
  | r :: idx, i, p, v, w, hv, h => by
    simp only [retainByIndexFrom, vecRemove] at h
    split at h
    · cases h
    · rename_i hri
      split at h
      · cases h
      · rename_i v' hv'
        split at hv'
        · cases hv'
          rename_i hlt
          have hs := sum_eraseIdx v (r - i) hlt
          obtain ⟨b1, b2⟩ := hv (r - i) hlt
          have b3 : r - i + i = r := by omega
          rw [b3] at b1 b2
          obtain ⟨c1, c2⟩ := retainFrom_sum idx (i + 1) (r + 1) _ w (fun k hk => by
            rw [List.getElem_eraseIdx]
            split
            · rename_i hkr
              have hk' : k < v.length := by omega
              have := (hv k hk').1
              exact ⟨by omega, fun _ => by omega⟩
            · rename_i hkr
              have hk' : k + 1 < v.length := by
                rw [List.length_eraseIdx_of_lt hlt] at hk; omega
              have := (hv (k + 1) hk').1
              exact ⟨by omega, fun _ => by omega⟩) h
          simp only [List.sum_cons]
          refine ⟨by omega, fun he => ?_⟩
          obtain ⟨d1, d2⟩ := c2 (by omega)
          refine ⟨List.pairwise_cons.2 ⟨fun x hx => d2 x hx, d1⟩, fun x hx => ?_⟩
          rcases List.mem_cons.1 hx with rfl | hx
          · by_contra hc
            have := b2 (by omega)
            omega
          · have := d2 x hx
            by_contra hc
            have := b2 (by omega)
            omega
        · cases hv'

theorem sum_le_of_subset : ∀ (n : Nat) (l : List Nat), (∀ x ∈ l, x < n) → l.Nodup →
    l.sum + ((List.range n).filter fun x => decide (x ∉ l)).sum = (List.range n).sum := by
  intro n l hl hnd
  have h1 : ((List.range n).filter fun x => decide (x ∈ l)).sum + ((List.range n).filter fun x => decide (x ∉ l)).sum = (List.range n).sum := by
    induction List.range n with
    | nil => rfl
    | cons a r ih =>
      simp only [List.filter_cons, List.sum_cons]
      by_cases h : a ∈ l
      · simp only [h, decide_true, if_true, not_true_eq_false, decide_false, Bool.false_eq_true, if_false, List.sum_cons]; omega
      · simp only [h, decide_false, Bool.false_eq_true, if_false, not_false_eq_true, decide_true, if_true, List.sum_cons]; omega
  have h2 : ((List.range n).filter fun x => decide (x ∈ l)).Perm l := by
    rw [List.perm_ext_iff_of_nodup (List.nodup_range.filter _) hnd]
    intro a
    simp only [List.mem_filter, List.mem_range, decide_eq_true_eq, and_iff_right_iff_imp]
    exact hl a
  rw [← h2.sum_nat]
  exact h1

/-- Taking out positions one after the other takes out exactly the named positions only if they rise. -/
theorem retain_only_rising {n : Nat} {idx w : List Nat} (hb : ∀ x ∈ idx, x < n) (h : retainByIndex (List.range n) idx = .ok w)
    (hw : w = (List.range n).filter fun x => decide (x ∉ idx)) : idx.Pairwise (· < ·) := by
  obtain ⟨-, hlen⟩ := retainFrom_sublist idx 0 _ w h
  rw [List.length_range] at hlen
  obtain ⟨-, hs⟩ := retainFrom_sum idx 0 0 (List.range n) w (fun k hk => by simp) h
  have hnd : idx.Nodup := by
    have h1 : idx.dedup.length = idx.length := by
      have h2 := sum_len n idx.dedup (fun x hx => hb x (List.mem_dedup.1 hx)) (List.nodup_dedup _)
      simp only [List.mem_dedup] at h2
      rw [← hw] at h2
      omega
    rw [← List.dedup_eq_self]
    exact (List.dedup_sublist idx).eq_of_length h1
  refine (hs ?_).1
  rw [hw, Nat.add_comm]
  exact (sum_le_of_subset n idx hb hnd).symm
where
  sum_len (n : Nat) (l : List Nat) (hl : ∀ x ∈ l, x < n) (hnd : l.Nodup) :
      l.length + ((List.range n).filter fun x => decide (x ∉ l)).length = n := by
    have h1 : ((List.range n).filter fun x => decide (x ∈ l)).length + ((List.range n).filter fun x => decide (x ∉ l)).length = n := by
      conv_rhs => rw [← List.length_range (n := n)]
      rw [List.length_eq_length_filter_add (l := List.range n) (fun x => decide (x ∈ l))]
      congr 2
      apply List.filter_congr
      intro x _
      simp
    have h2 : ((List.range n).filter fun x => decide (x ∈ l)).Perm l := by
      rw [List.perm_ext_iff_of_nodup (List.nodup_range.filter _) hnd]
      intro a
      simp only [List.mem_filter, List.mem_range, decide_eq_true_eq, and_iff_right_iff_imp]
      exact hl a
    rw [← h2.length_eq]
    exact h1

/-- Names at rising positions form a sublist. -/
theorem sublist_of_rising {α : Type} [BEq α] [LawfulBEq α] : ∀ (old l : List α), (∀ t ∈ l, t ∈ old) →
    (l.map fun t => old.idxOf t).Pairwise (· < ·) → l.Sublist old
  | [], l, h, _ => by
    cases l with
    | nil => exact .slnil
    | cons a l => exact absurd (h a (by simp)) (by simp)
  | b :: old, l, h, hp => by
    have down : ∀ l' : List α, (∀ t ∈ l', t ∈ b :: old) → (∀ t ∈ l', t ≠ b) → (l'.map fun t => (b :: old).idxOf t).Pairwise (· < ·) → l'.Sublist old := by
      intro l' h1 h2 h3
      refine sublist_of_rising old l' (fun t ht => (List.mem_cons.1 (h1 t ht)).resolve_left (h2 t ht)) ?_
      rw [List.pairwise_map] at h3 ⊢
      refine h3.imp_of_mem fun {x y} hx hy hxy => ?_
      rw [List.idxOf_cons_ne _ (h2 x hx).symm, List.idxOf_cons_ne _ (h2 y hy).symm] at hxy
      omega
    cases l with
    | nil => exact List.nil_sublist _
    | cons a l =>
      rw [List.map_cons, List.pairwise_cons] at hp
      have hne : ∀ t ∈ l, t ≠ b := by
        rintro t ht rfl
        have := hp.1 _ (List.mem_map.2 ⟨t, ht, rfl⟩)
        rw [List.idxOf_cons_self] at this
        omega
      by_cases e : a = b
      · subst e
        exact (down l (fun t ht => h t (by simp [ht])) hne hp.2).cons₂ a
      · refine (down (a :: l) h (fun t ht => ?_) ?_).cons b
        · rcases List.mem_cons.1 ht with rfl | ht
          · exact e
          · exact hne t ht
        · rw [List.map_cons, List.pairwise_cons]; exact hp

theorem removedIndexs_map (old names : List (List Char)) :
    removedIndexs old names = (names.filter fun t => decide (t ∈ old)).map fun t => old.idxOf t := by
  unfold removedIndexs
  induction names with
  | nil => rfl
  | cons c names ih =>
    rw [List.filterMap_cons, List.filter_cons]
    by_cases h : c ∈ old
    · simp only [h, decide_true, if_true, List.map_cons]
      have : old.findIdx? (· == c) = some (old.idxOf c) := by
        rw [List.findIdx?_eq_some_iff_findIdx_eq]
        exact ⟨List.idxOf_lt_length_of_mem h, rfl⟩
      rw [this]
      simp only [ih]
    · simp only [h, decide_false, Bool.false_eq_true, if_false]
      have : old.findIdx? (· == c) = none := by
        rw [List.findIdx?_eq_none_iff]
        intro y hy
        rw [beq_eq_false_iff_ne]
        rintro rfl
        exact h hy
      rw [this]
      exact ih

theorem getD_at {old : List (List Char)} {k : Nat} (hk : k < old.length) : old.getD k [] = old[k] := by
  simp [hk]

/-- If the removal leaves exactly the classes that were not named, the names were in order. -/
theorem retain_only_inOrder {old names left : List (List Char)} (hnd : old.Nodup)
    (h : retainByIndex old (removedIndexs old names) = .ok left) (hm : ∀ t, t ∈ left ↔ t ∈ old ∧ t ∉ names) : InOrder names old := by
  have hold : (List.range old.length).map (fun k => old.getD k []) = old := by
    apply List.ext_getElem (by simp)
    intro k h1 h2
    simp [h2]
  have hidx := removedIndexs_map old names
  have hrise : (removedIndexs old names).Pairwise (· < ·) := by
    have h' := h
    unfold retainByIndex at h'
    rw [← hold, retainFrom_map, hold] at h'
    cases hw : retainByIndexFrom 0 (List.range old.length) (removedIndexs old names) with
    | error e => rw [hw] at h'; cases h'
    | ok w =>
      rw [hw] at h'
      have hl : w.map (fun k => old.getD k []) = left := by
        injection h'
      obtain ⟨hsub, -⟩ := retainFrom_sublist _ _ _ _ hw
      refine retain_only_rising (n := old.length) ?_ hw ?_
      · intro x hx
        rw [hidx, List.mem_map] at hx
        obtain ⟨t, ht, rfl⟩ := hx
        rw [List.mem_filter, decide_eq_true_eq] at ht
        exact List.idxOf_lt_length_of_mem ht.2
      · have hinj : ∀ k, k < old.length → ∀ k', k' < old.length → old.getD k [] = old.getD k' [] → k = k' := by
          intro k hk k' hk' e
          rw [getD_at hk, getD_at hk'] at e
          exact (List.Nodup.getElem_inj_iff hnd).1 e
        have hperm : w.Perm ((List.range old.length).filter fun x => decide (x ∉ removedIndexs old names)) := by
          rw [List.perm_ext_iff_of_nodup (hsub.nodup List.nodup_range) (List.nodup_range.filter _)]
          intro k
          rw [List.mem_filter, List.mem_range, decide_eq_true_eq]
          have key : ∀ hk : k < old.length, (k ∈ removedIndexs old names ↔ old.getD k [] ∈ names) := by
            intro hk
            have hg : old.getD k [] = old[k] := getD_at hk
            rw [hidx, List.mem_map, hg]
            constructor
            · rintro ⟨t, ht, rfl⟩
              rw [List.mem_filter] at ht
              rw [List.getElem_idxOf]
              exact ht.1
            · intro hn
              exact ⟨old[k], List.mem_filter.2 ⟨hn, by simp⟩, List.Nodup.idxOf_getElem hnd k hk⟩
          constructor
          · intro hk
            have hk' : k < old.length := List.mem_range.1 (hsub.subset hk)
            refine ⟨hk', fun hi => ?_⟩
            have : old.getD k [] ∈ left := by rw [← hl]; exact List.mem_map.2 ⟨k, hk, rfl⟩
            exact ((hm _).1 this).2 ((key hk').1 hi)
          · rintro ⟨hk, hi⟩
            have : old.getD k [] ∈ left := by
              rw [hm]
              refine ⟨?_, fun hc => hi ((key hk).2 hc)⟩
              rw [getD_at hk]
              exact List.getElem_mem _
            rw [← hl, List.mem_map] at this
            obtain ⟨k', hk', e⟩ := this
            rw [← hinj _ (List.mem_range.1 (hsub.subset hk')) _ hk e]
            exact hk'
        exact hperm.eq_of_pairwise (le := (· < ·)) (fun a b _ _ h1 h2 => by omega) (List.pairwise_lt_range.sublist hsub)
          (List.pairwise_lt_range.sublist List.filter_sublist)
  rw [hidx] at hrise
  exact sublist_of_rising old _ (fun t ht => by simpa using (List.mem_filter.1 ht).2) hrise

theorem inOrder_none {old names : List (List Char)} (h : ∀ t ∈ names, t ∉ old) : InOrder names old := by
  have : (names.filter fun t => decide (t ∈ old)) = [] := by
    rw [List.filter_eq_nil_iff]
    intro t ht
    simpa using h t ht
  unfold InOrder
  rw [this]
  exact List.nil_sublist _

/-- **C05** (the exact condition, for an element without repeated classes): `remove_class` answers and leaves exactly
the classes that were not named if and only if the present names are given in the element's order, each once. -/
theorem C05_exact (x : AttrExt) (m : Meta) (wf : MetaWF m) (s : List Char)
    (old names : List (List Char)) (hold : ClassList (viewOf m) old) (hnames : Tokens s names)
    (hq : Clean (viewOf m) s) (hex : ∀ c ∈ s, ¬ ExoticSpace c) (hnd : old.Nodup) :
    (∃ m' new, removeClass x m s = .ok m' ∧ ClassList (viewOf m') new ∧ ∀ t, t ∈ new ↔ t ∈ old ∧ t ∉ names) ↔ InOrder names old := by
  constructor
  · rintro ⟨m', new, h1, h2, h3⟩
    have hn := tokens_unique hnames
    have htn : getClassList (trim s) = names := by rw [trim_ok hex, hn]
    unfold removeClass at h1
    by_cases hemp : (trim s).isEmpty
    · have : names = [] := by
        rw [← htn, List.isEmpty_iff.1 hemp]; rfl
      exact inOrder_none (by simp [this])
    · simp only [hemp, if_false, Bool.false_eq_true] at h1
      rcases classList_cases wf hold with ⟨hcv, rfl, hno⟩ | ⟨v, hv, hcv, hcl⟩
      · exact inOrder_none (by simp)
      · simp only [hcv, bind, Except.bind, hcl, htn, pure, Except.pure] at h1
        by_cases hrm : removedIndexs old names = []
        · exact inOrder_none (sublist_filter_mem.1 hrm)
        · have hne : (removedIndexs old names).isEmpty = false := by simpa using hrm
          simp only [hne, Bool.false_eq_true, if_false] at h1
          split at h1
          · cases h1
          · rename_i left hleft
            have hsub := (retainFrom_sublist _ _ _ _ hleft).1
            have hq' : OneQuoteKind (v ++ s) := by
              unfold Clean at hq
              rw [hv] at hq
              exact hq
            have hin : ∀ t ∈ left, t ∈ getClassList v := fun t ht => by rw [hcl]; exact hsub.subset ht
            obtain ⟨m₁, g1, -, g3, -⟩ := setClass x wf _ (clean_of_lists hq' (fun t ht => Or.inl (hin t ht)))
            rw [g1] at h1
            cases h1
            have := (classList_view g3).1 h2
            rw [getClassList_join fun t ht => getClassList_valid v t (hin t ht)] at this
            subst this
            exact retain_only_inOrder hnd hleft h3
  · intro h
    obtain ⟨m', h1, -, -, h4, -⟩ := C05_remove_class_partial x m wf s old names hold hnames hq hex hnd h
    exact ⟨m', _, h1, h4, by simp⟩

/-- **C06** (the exact condition, for an element without repeated classes): `toggle_class` answers and leaves each
class named or present but not both if and only if the present names are given in the element's order, each once. -/
theorem C06_exact (x : AttrExt) (m : Meta) (wf : MetaWF m) (s : List Char)
    (old names : List (List Char)) (hold : ClassList (viewOf m) old) (hnames : Tokens s names)
    (hq : Clean (viewOf m) s) (hex : ∀ c ∈ s, ¬ ExoticSpace c) (hnd : old.Nodup) :
    (∃ m' new, toggleClass x m s = .ok m' ∧ ClassList (viewOf m') new ∧
      ∀ t, t ∈ new ↔ (t ∈ old ∧ t ∉ names) ∨ (t ∈ names ∧ t ∉ old)) ↔ InOrder names old := by
  constructor
  · rintro ⟨m', new, h1, h2, h3⟩
    have hn := tokens_unique hnames
    have htn : getClassList (trim s) = names := by rw [trim_ok hex, hn]
    unfold toggleClass at h1
    by_cases hemp : (trim s).isEmpty
    · have : names = [] := by
        rw [← htn, List.isEmpty_iff.1 hemp]; rfl
      exact inOrder_none (by simp [this])
    · simp only [hemp, if_false, Bool.false_eq_true] at h1
      rcases classList_cases wf hold with ⟨hcv, rfl, hno⟩ | ⟨v, hv, hcv, hcl⟩
      · exact inOrder_none (by simp)
      · simp only [hcv, bind, Except.bind, hcl, htn, pure, Except.pure, toggle_added] at h1
        by_cases hrm : removedIndexs old names = []
        · exact inOrder_none (sublist_filter_mem.1 hrm)
        · have hne : (removedIndexs old names).isEmpty = false := by simpa using hrm
          simp only [dropFound, hne, Bool.false_eq_true, if_false, Bool.false_and] at h1
          split at h1
          · cases h1
          · rename_i left hleft
            have hsub := (retainFrom_sublist _ _ _ _ hleft).1
            have hq' : OneQuoteKind (v ++ s) := by
              unfold Clean at hq
              rw [hv] at hq
              exact hq
            have hin : ∀ t ∈ left ++ names.filter (fun t => decide (t ∉ old)), t ∈ getClassList v ∨ t ∈ getClassList s := by
              intro t ht
              rw [hcl, hn]
              rcases List.mem_append.1 ht with h | h
              · exact Or.inl (hsub.subset h)
              · exact Or.inr (List.mem_of_mem_filter h)
            obtain ⟨m₁, g1, -, g3, -⟩ := setClass x wf _ (clean_of_lists hq' hin)
            rw [g1] at h1
            cases h1
            have := (classList_view g3).1 h2
            rw [getClassList_join fun t ht => (hin t ht).elim (getClassList_valid v t) (getClassList_valid s t)] at this
            subst this
            refine retain_only_inOrder hnd hleft fun t => ⟨fun ht => ?_, fun ht => ?_⟩
            · have h4 := (h3 t).1 (List.mem_append_left _ ht)
              rcases h4 with h4 | h4
              · exact h4
              · exact absurd (hsub.subset ht) h4.2
            · rcases List.mem_append.1 ((h3 t).2 (Or.inl ht)) with h4 | h4
              · exact h4
              · exact absurd ht.1 (by simpa using (List.mem_filter.1 h4).2)
  · intro h
    obtain ⟨m', h1, -, -, -, h4⟩ := toggle_one x m wf s old names hold hnames hq hex hnd h
    exact ⟨m', _, h1, h4, by simp⟩

/-- Cases on both sides of the condition. -/
example : InOrder ["b".toList, "d".toList, "x".toList] ["a".toList, "b".toList, "c".toList, "d".toList] ∧
    ¬ InOrder ["c".toList, "b".toList] ["a".toList, "b".toList, "c".toList, "d".toList] ∧
    ¬ InOrder ["b".toList, "b".toList] ["a".toList, "b".toList, "c".toList, "d".toList] := by decide
/-- With repeated classes the condition is not necessary: the wrong positions may hold the same name. -/
example : ∃ m', removeClass quoteEnc (classMeta "a a b") "a b b".toList = .ok m' ∧ ClassList (viewOf m') [] := by
  refine ⟨_, rfl, ?_⟩
  rw [classList_view (v := "".toList) (by decide)]
  decide

end Visdom
