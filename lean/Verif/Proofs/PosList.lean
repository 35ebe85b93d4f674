import Verif.Model.Rules
import Verif.Proofs.Cands
import Mathlib.Data.List.Nodup
/-!
# Positions: the list functions behind the positional pseudo classes
-/
namespace Visdom

theorem atAll_cons {C : List Nat} {i : Nat} {is res : List Nat} (hr : atAll C (i :: is) = .ok res) :
    ∃ c res', C[i]? = some c ∧ atAll C is = .ok res' ∧ res = c :: res' := by
  simp only [atAll, flatMapR] at hr
  cases hc : C[i]? with
  | none => simp only [hc] at hr; cases hr
  | some c =>
    simp only [hc] at hr
    split at hr
    · cases hr
    · rename_i y hy
      simp only [Except.ok.injEq] at hr
      exact ⟨c, y, rfl, hy, by simp [← hr]⟩

/-- Picking sorted positions from a list is filtering by the position. -/
theorem atAll_filter {C : List Nat} {P : Nat → Bool} {allow res : List Nat} {k : Nat}
    (hs : allow.Pairwise (· < ·)) (hk : ∀ a ∈ allow, k ≤ a)
    (hP : ∀ (i : Nat) c, k ≤ i → C[i]? = some c → (P c = true ↔ i ∈ allow)) (hr : atAll C allow = .ok res) :
    res = (C.drop k).filter P := by
  generalize hn : C.length - k = n
  induction n generalizing k allow res with
  | zero =>
    rw [List.drop_eq_nil_of_le (by omega)]
    cases allow with
    | nil => simp only [atAll, flatMapR, Except.ok.injEq] at hr; simp [← hr]
    | cons a as =>
      obtain ⟨c, _, hc, _, _⟩ := atAll_cons hr
      have := (List.getElem?_eq_some_iff.1 hc).1
      have := hk a List.mem_cons_self
      omega
  | succ n ih =>
    have hlt : k < C.length := by omega
    rw [List.drop_eq_getElem_cons hlt]
    have hck := hP k C[k] (Nat.le_refl _) (List.getElem?_eq_getElem hlt)
    by_cases hmem : k ∈ allow
    · have hpc := hck.2 hmem
      rw [List.filter_cons_of_pos hpc]
      cases allow with
      | nil => cases hmem
      | cons a as =>
        obtain ⟨h1, h2⟩ := List.pairwise_cons.1 hs
        have hak : a = k := by
          rcases List.mem_cons.1 hmem with e | e
          · exact e.symm
          · have := h1 k e
            have := hk a List.mem_cons_self
            omega
        subst hak
        obtain ⟨c, res', hc, hr', rfl⟩ := atAll_cons hr
        rw [List.getElem?_eq_getElem hlt] at hc
        have hcc : C[a] = c := by simpa using hc
        rw [hcc, ← ih h2 (fun b hb => h1 b hb) ?_ hr' (by omega)]
        intro i c hi hc
        rw [hP i c (by omega) hc]
        constructor
        · intro h; rcases List.mem_cons.1 h with e | e
          · omega
          · exact e
        · exact List.mem_cons_of_mem _
    · have hpc : ¬ P C[k] = true := fun h => hmem (hck.1 h)
      rw [List.filter_cons_of_neg hpc]
      refine ih hs ?_ (fun i c hi hc => hP i c (by omega) hc) hr (by omega)
      intro a ha
      have h1 := hk a ha
      rcases Nat.lt_or_ge k a with h2 | h2
      · omega
      · have : a = k := by omega
        subst this; exact absurd ha hmem

theorem atAll_total {C allow : List Nat} (hb : ∀ a ∈ allow, a < C.length) : ∃ res, atAll C allow = .ok res := by
  induction allow with
  | nil => exact ⟨[], rfl⟩
  | cons a as ih =>
    obtain ⟨y, hy⟩ := ih fun b hb' => hb b (List.mem_cons_of_mem _ hb')
    have hlt := hb a List.mem_cons_self
    refine ⟨C[a] :: y, ?_⟩
    simp only [atAll] at hy
    simp only [atAll, flatMapR, List.getElem?_eq_getElem hlt, hy, List.cons_append, List.nil_append]

theorem sublist_drop {x i : Nat} {s L : List Nat} (hs : (x :: s).Sublist L) (hi : L.idxOf? x = some i) :
    s.Sublist (L.drop (i + 1)) := by
  induction L generalizing i with
  | nil => cases hs
  | cons c L ih =>
    rw [List.idxOf?_cons] at hi
    by_cases hc : c = x
    · subst hc
      simp at hi
      subst hi
      cases hs with
      | cons _ h => exact (List.sublist_cons_self _ _).trans h
      | cons_cons _ h => exact h
    · have hc' : (c == x) = false := by simpa using hc
      rw [hc'] at hi
      simp only [Bool.false_eq_true, if_false, Option.map_eq_some_iff] at hi
      obtain ⟨j, hj, rfl⟩ := hi
      cases hs with
      | cons _ h => exact ih h hj
      | cons_cons _ h => exact absurd rfl hc

theorem allowStep_spec {allow : List Nat} {pos : Nat} (hs : allow.Pairwise (· < ·)) :
    (allowStep pos allow).1 = decide (pos ∈ allow) ∧
    ((allowStep pos allow).2.2 = true → ∀ a ∈ allow, a < pos) ∧
    ((allowStep pos allow).2.2 = false → (allowStep pos allow).2.1.Pairwise (· < ·) ∧
      ∀ j, pos < j → (j ∈ (allowStep pos allow).2.1 ↔ j ∈ allow)) := by
  induction allow with
  | nil => simp [allowStep]
  | cons a rest ih =>
    obtain ⟨h1, h2⟩ := List.pairwise_cons.1 hs
    simp only [allowStep]
    by_cases e : a = pos
    · subst e
      simp only [if_true, List.mem_cons, true_or, decide_true, true_and, Bool.false_eq_true, false_implies]
      intro _
      exact ⟨h2, fun j hj => ⟨Or.inr, fun h => h.resolve_left (by omega)⟩⟩
    · rw [if_neg e]
      by_cases hl : a < pos
      · rw [if_pos hl]
        by_cases hr : rest.isEmpty = true
        · rw [if_pos hr]
          have : rest = [] := by simpa using hr
          subst this
          simp
          omega
        · rw [if_neg hr]
          obtain ⟨i1, i2, i3⟩ := ih h2
          refine ⟨?_, ?_, ?_⟩
          · rw [i1]; simp [show ¬ pos = a by omega]
          · intro h b hb
            rcases List.mem_cons.1 hb with rfl | hb
            · exact hl
            · exact i2 h b hb
          · intro h
            obtain ⟨j1, j2⟩ := i3 h
            exact ⟨j1, fun j hj => by rw [j2 j hj, List.mem_cons]; exact ⟨Or.inr, fun h => h.resolve_left (by omega)⟩⟩
      · rw [if_neg hl]
        refine ⟨?_, by simp, fun _ => ⟨hs, fun j _ => Iff.rfl⟩⟩
        have : pos ∉ rest := fun h => by have := h1 pos h; omega
        simp [this, show ¬ pos = a by omega]

theorem ascLoop_filter {C : List Nat} {P : Nat → Bool} {sibs allow : List Nat} {k : Nat}
    (hs : allow.Pairwise (· < ·)) (hsub : sibs.Sublist (C.drop k))
    (hP : ∀ (i : Nat) c, k ≤ i → C[i]? = some c → (P c = true ↔ i ∈ allow)) :
    ascLoop sibs (C.drop k) k allow = sibs.filter P := by
  induction sibs generalizing k allow with
  | nil => rfl
  | cons x sibs ih =>
    simp only [ascLoop]
    have hx : x ∈ C.drop k := hsub.subset List.mem_cons_self
    cases hi : (C.drop k).idxOf? x with
    | none => exact absurd hx (by simpa using hi)
    | some i =>
      simp only
      have hsub' := sublist_drop hsub hi
      have hget : C[k + i]? = some x := by
        have := (List.findIdx?_eq_some_iff_getElem (xs := C.drop k) (p := (· == x))).1 hi
        obtain ⟨hlt, he, _⟩ := this
        have he' : (C.drop k)[i] = x := by simpa using he
        rw [← List.getElem?_drop, List.getElem?_eq_getElem hlt, he']
      rw [List.drop_drop] at hsub'
      obtain ⟨a1, a2, a3⟩ := allowStep_spec (pos := k + i) hs
      have hPx : P x = decide (k + i ∈ allow) := by
        have := hP (k + i) x (by omega) hget
        by_cases hm : k + i ∈ allow
        · simp [this.2 hm, hm]
        · have : ¬ P x = true := fun h => hm (this.1 h)
          simp [hm, this]
      have hrest : (if (allowStep (k + i) allow).2.2 = true then []
          else ascLoop sibs ((C.drop k).drop (i + 1)) (k + i + 1) (allowStep (k + i) allow).2.1) = sibs.filter P := by
        by_cases hstop : (allowStep (k + i) allow).2.2 = true
        · rw [if_pos hstop]
          symm
          rw [List.filter_eq_nil_iff]
          intro y hy hPy
          obtain ⟨j, hj⟩ := List.getElem?_of_mem (hsub'.subset hy)
          rw [List.getElem?_drop] at hj
          have := (hP _ y (by omega) hj).1 hPy
          have := a2 hstop _ this
          omega
        · rw [if_neg hstop, List.drop_drop, show k + i + 1 = k + (i + 1) by omega]
          obtain ⟨b1, b2⟩ := a3 (by simpa using hstop)
          refine ih b1 hsub' ?_
          intro j c hj hc
          rw [hP j c (by omega) hc, b2 j (by omega)]
      rw [hrest, a1, ← hPx, List.filter_cons]

theorem beforeLast_snoc {c : Nat} {U : List Nat} (hU : c ∉ U) (T : List Nat) :
    beforeLast c (U ++ c :: T).reverse = some T.reverse := by
  have : (U ++ c :: T).dropWhile (fun x => decide (x ≠ c)) = c :: T := by
    rw [List.dropWhile_append_of_pos]
    · simp
    · intro x hx
      simp only [ne_eq, decide_eq_true_eq]
      rintro rfl; exact hU hx
  unfold beforeLast
  rw [List.reverse_reverse, this]

theorem beforeLast_none {c : Nat} {T : List Nat} (h : c ∉ T) : beforeLast c T.reverse = none := by
  have : T.dropWhile (fun x => decide (x ≠ c)) = [] := by
    rw [List.dropWhile_eq_nil_iff]
    intro x hx
    simp only [ne_eq, decide_eq_true_eq]
    rintro rfl; exact h hx
  unfold beforeLast
  rw [List.reverse_reverse, this]

/-- `U` are the siblings already passed without being allowed. -/
theorem descLoop_filter {P : Nat → Bool} {allow : List Nat} {D T U : List Nat} {k : Nat} (hn : D.Nodup)
    (hsub : T.Sublist D) (hU : ∀ u ∈ U, u ∉ D) (hP : ∀ (i : Nat) c, D[i]? = some c → (P c = true ↔ k + i ∈ allow)) :
    descLoop allow D k (U ++ T).reverse = T.filter P := by
  induction D generalizing T U k with
  | nil => cases hsub; rfl
  | cons c D ih =>
    obtain ⟨hc, hn'⟩ := List.nodup_cons.1 hn
    have hP0 := hP 0 c (by simp)
    have hP' : ∀ (i : Nat) d, D[i]? = some d → (P d = true ↔ k + 1 + i ∈ allow) := by
      intro i d hd
      rw [hP (i + 1) d (by simpa using hd)]
      rw [show k + (i + 1) = k + 1 + i by omega]
    have hU' : ∀ u ∈ U, u ∉ D := fun u hu h => hU u hu (List.mem_cons_of_mem _ h)
    have hcU : c ∉ U := fun h => hU c h List.mem_cons_self
    simp only [descLoop]
    by_cases hk : k ∈ allow
    · rw [if_pos hk]
      cases hsub with
      | cons _ h =>
        have hcT : c ∉ U ++ T := by
          rw [List.mem_append]
          rintro (h' | h')
          · exact hcU h'
          · exact hc (h.subset h')
        rw [beforeLast_none hcT]
        simp only
        split
        · rename_i he
          have : T = [] := by
            simp only [List.isEmpty_iff, List.reverse_eq_nil_iff, List.append_eq_nil_iff] at he
            exact he.2
          simp [this]
        · exact ih hn' h hU' hP'
      | @cons_cons T' _ _ h =>
        rw [beforeLast_snoc hcU]
        simp only
        rw [List.filter_cons_of_pos (hP0.2 (by simpa using hk))]
        split
        · rename_i he
          have : T' = [] := by simpa using he
          simp [this]
        · have := ih (U := []) hn' h (by simp) hP'
          simp only [List.nil_append] at this
          rw [this]
    · rw [if_neg hk]
      have hpc : ¬ P c = true := fun h => hk (by simpa using hP0.1 h)
      cases hsub with
      | cons _ h => exact ih hn' h hU' hP'
      | @cons_cons T' _ _ h =>
        rw [List.filter_cons_of_neg hpc]
        have := ih (U := U ++ [c]) hn' h ?_ hP'
        · rw [List.append_assoc] at this
          exact this
        · intro u hu
          rcases List.mem_append.1 hu with h' | h'
          · exact hU' u h'
          · simp only [List.mem_singleton] at h'
            subst h'; exact hc

/-- `make_asc_or_desc_nth_child_handle` filters the siblings by their position among the children. -/
theorem nthChildHandle_filter {asc : Bool} {P : Nat → Bool} {sibs allow C res : List Nat} (hn : C.Nodup)
    (hs : allow.Pairwise (· < ·)) (hsub : sibs.Sublist C)
    (hP : ∀ (i : Nat) c, C[i]? = some c → (P c = true ↔ (if asc then i else C.length - 1 - i) ∈ allow))
    (hr : nthChildHandle asc sibs allow C = .ok res) : res = sibs.filter P := by
  cases asc with
  | true =>
    simp only [nthChildHandle, if_true] at hr hP
    split at hr
    · rename_i hl
      obtain rfl := hsub.eq_of_length hl
      simpa using atAll_filter (k := 0) hs (by simp) (fun i c _ hc => hP i c hc) hr
    · simp only [Except.ok.injEq] at hr
      rw [← hr]
      simpa using ascLoop_filter (k := 0) (C := C) hs (by simpa using hsub) (fun i c _ hc => hP i c hc)
  | false =>
    simp only [nthChildHandle, Bool.false_eq_true, if_false] at hr hP
    split at hr
    · rename_i hl
      obtain rfl := hsub.eq_of_length hl
      have hb : ∀ a ∈ allow, a < sibs.length := by
        intro a ha
        obtain ⟨y, hy⟩ := (flatMapR_mem hr).1 a (by simpa using ha)
        by_cases hlt : sibs.length < a + 1
        · simp only [hlt, if_true] at hy; cases hy
        · omega
      have hr' : atAll sibs (allow.reverse.map fun a => sibs.length - a - 1) = .ok res := by
        rw [← hr]
        unfold atAll
        clear hr hP
        have : ∀ a ∈ allow.reverse, a < sibs.length := by simpa using hb
        generalize allow.reverse = al at this
        induction al with
        | nil => rfl
        | cons a al ih =>
          have h1 := this a List.mem_cons_self
          simp only [List.map_cons, flatMapR, ih fun b hb => this b (List.mem_cons_of_mem _ hb)]
          rw [if_neg (by omega)]
      refine atAll_filter (k := 0) ?_ (by simp) ?_ hr'
      · rw [List.pairwise_map]
        rw [List.pairwise_reverse]
        refine List.Pairwise.imp_of_mem ?_ hs
        intro a b ha hb' hab
        have := hb a ha
        have := hb b hb'
        omega
      · intro i c _ hc
        have hil := (List.getElem?_eq_some_iff.1 hc).1
        rw [hP i c hc]
        simp only [List.mem_map, List.mem_reverse]
        constructor
        · intro h; exact ⟨_, h, by omega⟩
        · rintro ⟨a, ha, he⟩
          have := hb a ha
          rwa [show sibs.length - 1 - i = a by omega]
    · simp only [Except.ok.injEq] at hr
      rw [← hr]
      have := descLoop_filter (P := P) (allow := allow) (D := C.reverse) (T := sibs.reverse) (U := []) (k := 0)
        (List.nodup_reverse.2 hn) (List.reverse_sublist.2 hsub) (by simp) ?_
      · simp only [List.nil_append, List.reverse_reverse] at this
        rw [this, List.filter_reverse, List.reverse_reverse]
      · intro i c hc
        have hil := (List.getElem?_eq_some_iff.1 hc).1
        rw [List.length_reverse] at hil
        rw [List.getElem?_reverse hil] at hc
        rw [hP _ c hc, Nat.zero_add, show C.length - 1 - (C.length - 1 - i) = i by omega]

theorem nthChildHandle_total {asc : Bool} {sibs allow C : List Nat} (hb : ∀ a ∈ allow, a < C.length) :
    ∃ res, nthChildHandle asc sibs allow C = .ok res := by
  unfold nthChildHandle
  cases asc with
  | true =>
    simp only [if_true]
    split
    · exact atAll_total hb
    · exact ⟨_, rfl⟩
  | false =>
    simp only [Bool.false_eq_true, if_false]
    split
    · refine flatMapR_total ?_
      intro a ha
      have := hb a (by simpa using ha)
      rw [if_neg (by omega)]
      have hlt : C.length - a - 1 < C.length := by omega
      simp [List.getElem?_eq_getElem hlt]
    · exact ⟨_, rfl⟩

end Visdom
