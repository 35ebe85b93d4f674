import Verif.Props.InsertMany
/-!
# C39: `replace_with`
-/
namespace Visdom
open Spec

section
variable {h : Heap} {D : Nat → Prop} {e : Ext}

theorem map_pair {r : R Heap} {a b : Nat} {h' : Heap} (hr : r.map (·, a) = .ok (h', b)) : b = a := by
  cases r with
  | error x => cases hr
  | ok g => cases hr; rfl

/-- The node that the handle of the replaced element refers to afterwards. -/
theorem replaceWith_handle {t n t' : Nat} {h' : Heap} (hd : ¬ IsDoc e h n) (hr : h.replaceWith e t n = .ok (h', t')) :
    t' = match moved h n with | [m] => m | _ => t := by
  have hm : ∀ g N, h.takeNodes e n = .ok (g, N) → N = moved h n ∧
      (if h.isFragment e n then (match h.kids n with | [c] => some c | _ => none) else some n : Option Nat).getD t =
        match moved h n with | [m] => m | _ => t := by
    intro g N hN
    unfold Heap.takeNodes at hN
    by_cases hf : h.isFragment e n = true
    · rw [if_pos hf] at hN ⊢
      cases hN
      have hk : (h.node n).kind = .root := by
        simp only [Heap.isFragment, Heap.isRoot, Bool.and_eq_true, beq_iff_eq] at hf
        exact hf.1
      unfold moved
      rw [if_pos hk]
      refine ⟨rfl, ?_⟩
      split <;> rfl
    · rw [if_neg hf] at hN ⊢
      have hk : (h.node n).kind ≠ .root := fun hk => hf (by
        simp only [Heap.isFragment, Heap.isRoot, hk, beq_self_eq_true, Bool.true_and, Bool.not_eq_true']
        cases hb : e.isDoc h n
        · rfl
        · exact absurd ⟨hk, hb⟩ hd)
      unfold moved
      rw [if_neg hk]
      cases hdt : h.detach n with
      | error x => rw [hdt] at hN; cases hN
      | ok g' => rw [hdt] at hN; cases hN; exact ⟨rfl, rfl⟩
  unfold Heap.replaceWith at hr
  simp only [] at hr
  cases ht : h.takeNodes e n with
  | error x => rw [ht] at hr; cases hr
  | ok r =>
    obtain ⟨g, N⟩ := r
    obtain ⟨h1, h2⟩ := hm g N ht
    rw [ht] at hr
    simp only [] at hr
    split at hr
    · rename_i he
      rw [List.isEmpty_iff] at he
      cases hr
      rw [← h1, he]
    · exact (map_pair hr).trans h2

theorem replace_one (ok : HeapOk h D) {t n p : Nat} (u : Usable e h D (.replace t n)) (hpar : h.parent t = some p)
    (hne : moved h n ≠ []) :
    ∃ h' A B, h.replaceWith e t n = .ok (h', match moved h n with | [m] => m | _ => t) ∧
      (h.kids p).filter (· ∉ moved h n) = A ++ t :: B ∧ h'.kids p = A ++ moved h n ++ B ∧
      (∀ q, ¬ D q → q ≠ p → (q ≠ n ∨ (h.node n).kind ≠ .root) → h'.kids q = (h.kids q).filter (· ∉ moved h n)) ∧
      (∀ y, h'.parent y = if y ∈ moved h n then some p else h.parent y) ∧ SameData h h' := by
  obtain ⟨ht, hn, hDn, hbn, hd, htn, hab⟩ := u
  obtain ⟨h1, N, k1, rfl, k3, k4, k5, k6, k7, k8, k9, k10, k11, k12, k13⟩ := takeNodes_step (e := e) ok hn hDn hbn hd
  have k11 := k11 t htn hab
  have htN : t ∉ moved h n := fun h2 => (k11 t h2).1 rfl
  have hpar1 : h1.parent t = some p := (k6 t).trans hpar
  have hDp := (ht p hpar).1
  obtain ⟨h', t', r1, r2⟩ := replaceWith_taken k1 k3 (k12 t htN ht) k8 k9 k10 k11 k7
  have hk1 := k13 p hDp (.inl (by rintro rfl; exact hab (.parent hpar)))
  obtain ⟨_, hi⟩ := k12 t htN ht p hpar1
  have hsplit := (split_at hi).1
  rw [replaceWith_handle hd r1] at r1
  rcases r2 with ⟨r2, _⟩ | ⟨r2, _⟩ | ⟨p', _, r3, _, _, s⟩
  · exact absurd r2 hne
  · rw [hpar1] at r2; cases r2
  · rw [hpar1] at r3
    cases r3
    refine ⟨h', _, _, r1, ?_, s.new, fun q hq hqt hqn => by rw [s.other q hqt, k13 q hq hqn], fun y => ?_, k5.trans s.data⟩
    · rw [← hk1]; simpa using hsplit
    · rw [s.parent, k6]

/-- C39, the part that holds: replacing an element in place by another node in place, or by a fragment that is not empty, puts the
node (the children of the fragment, in order) exactly where the element was; every list only loses the moved nodes
besides, all links are right, and the handle refers to the new node if there is one. Missing: sets of several nodes
(`C39_several`, `C39_fails`), ancestors (`C37_fails_replace`), nodes not in place. -/
theorem C39_one_partial (ok : HeapOk h D) {t n p : Nat} (u : Usable e h D (.replace t n)) (hpar : h.parent t = some p)
    (hne : moved h n ≠ []) :
    ∃ h' A B, replaceAll e [n] h [t] = .ok (h', [match moved h n with | [m] => m | _ => t]) ∧
      (h.kids p).filter (· ∉ moved h n) = A ++ t :: B ∧ h'.kids p = A ++ moved h n ++ B ∧
      (∀ q, ¬ D q → q ≠ p → (q ≠ n ∨ (h.node n).kind ≠ .root) → h'.kids q = (h.kids q).filter (· ∉ moved h n)) ∧
      SameData h h' ∧ LinksRight h' (fun x => Used e h D x (.replace t n)) := by
  obtain ⟨h', A, B, r1, r2, r3, r4, _, r6⟩ := replace_one ok u hpar hne
  obtain ⟨h6, st⟩ := replace_step ok u
  have : h6 = h' := by
    have := st.run
    simp only [Op.run, r1, Except.map, Except.ok.injEq] at this
    exact this.symm
  subst this
  exact ⟨h6, A, B, by simp [replaceAll, replaceLoop, r1], r2, r3, r4, r6, st.ok.right⟩

theorem replaceLoop_chain (p : Nat) (L : List Nat) : ∀ t h, HeapOk h D → Attached h D t → h.parent t = some p → L.Nodup →
    (∀ n ∈ L, Attached h D n ∧ n < h.size ∧ (h.node n).kind ≠ .root ∧ n ≠ t ∧ ¬ Above h n t) →
    ∃ h' A B, replaceLoop e t h L = .ok (h', L.getLastD t) ∧ (h.kids p).filter (· ∉ L) = A ++ t :: B ∧
      h'.kids p = A ++ L.getLastD t :: B ∧ (∀ q, ¬ D q → q ≠ p → h'.kids q = (h.kids q).filter (· ∉ L)) ∧ SameData h h' ∧
      HeapOk h' D := by
  induction L with
  | nil =>
    intro t h ok ht hp _ _
    obtain ⟨hD, hi⟩ := ht p hp
    refine ⟨h, (h.kids p).take (h.index t), (h.kids p).drop (h.index t + 1), rfl, ?_, ?_, fun q _ _ => by simp, .refl h, ok⟩
    · simpa using (split_at hi).1
    · simpa using (split_at hi).1
  | cons n L ih =>
    intro t h ok ht hp hnd hL
    obtain ⟨n1, n2, n3, n4, n5⟩ := hL n (by simp)
    have hDn : ¬ D n := fun hD => n3 (ok.dead n hD).1
    have hm : moved h n = [n] := if_neg n3
    have u : Usable e h D (.replace t n) := ⟨ht, n1, hDn, n2, fun hd => n3 hd.1, Ne.symm n4, n5⟩
    obtain ⟨h1, A, B, r1, r2, r3, r4, r5, r6⟩ := replace_one ok u hp (by simp [hm])
    obtain ⟨h2, st⟩ := replace_step ok u
    have e2 : h2 = h1 := by
      have := st.run
      simp only [Op.run, r1, Except.map, Except.ok.injEq] at this
      exact this.symm
    subst e2
    rw [hm] at r1 r2 r3 r4 r5
    have hU : (fun x => Used e h D x (.replace t n)) = D := by funext x; simp [Used, n3]
    have ok2 : HeapOk h2 D := hU ▸ st.ok
    have hat : ∀ y, y < h.size → Attached h D y → y ≠ t → Attached h2 D y := by
      intro y hb hy hyt
      have := st.attached y hb hy (by simp [Lost, hyt, hp])
      rwa [hU] at this
    have hpn : h2.parent n = some p := by rw [r5]; simp
    have hnp : n ≠ p := by rintro rfl; exact n5 (.parent hp)
    have hnap : ¬ Above h n p := fun h1 => n5 (.step h1 hp)
    obtain ⟨hnL, hnd'⟩ := List.nodup_cons.1 hnd
    obtain ⟨h', A', B', s1, s2, s3, s4, s5, s6⟩ := ih n h2 ok2 (hat n n2 n1 n4) hpn hnd' (fun m hmL => by
      obtain ⟨m1, m2, m3, m4, m5⟩ := hL m (by simp [hmL])
      refine ⟨hat m m2 m1 m4, Nat.lt_of_lt_of_le m2 st.size, by rw [(r6 m).1]; exact m3, by rintro rfl; exact hnL hmL, ?_⟩
      intro h3
      have hpm : m = p ∨ Above h2 m p := by
        cases h3 with
        | parent h4 => rw [hpn] at h4; cases h4; exact .inl rfl
        | step h4 h5 => rw [hpn] at h5; cases h5; exact .inr h4
      rcases hpm with rfl | h4
      · exact m5 (.parent hp)
      · rw [above_stays r5 (by simpa using Ne.symm hnp) (by simpa using hnap)] at h4
        exact m5 (.step h4 hp))
    have hff : ∀ l : List Nat, (l.filter (· ∉ [n])).filter (· ∉ L) = l.filter (· ∉ n :: L) := by
      intro l
      rw [List.filter_filter]
      congr 1
      funext x
      rw [Bool.eq_iff_iff]
      simp only [List.mem_cons, not_or, Bool.decide_and, Bool.and_eq_true, decide_eq_true_iff, List.not_mem_nil, or_false]
      exact and_comm
    have htL : t ∉ L := fun h3 => (hL t (by simp [h3])).2.2.2.1 rfl
    have e1 : (h.kids p).filter (· ∉ n :: L) = A.filter (· ∉ L) ++ t :: B.filter (· ∉ L) := by
      rw [← hff, r2]
      simp [htL]
    have hAB : A' = A.filter (· ∉ L) ∧ B' = B.filter (· ∉ L) := by
      rw [r3] at s2
      have hnA : n ∉ A := by
        have h3 : n ∉ (h.kids p).filter (· ∉ [n]) := by simp
        rw [r2] at h3
        simp at h3
        exact h3.1
      have hnA' : n ∉ A' := by
        have h3 := ok2.kids_nodup (ht p hp).1
        have h4 := h3.filter (fun x => decide (x ∉ L))
        rw [r3, s2] at h4
        simp only [List.nodup_append, List.nodup_cons] at h4
        exact fun h5 => h4.2.2 n h5 n (by simp) rfl
      have h4 : A.filter (· ∉ L) ++ n :: B.filter (· ∉ L) = A' ++ n :: B' := by
        rw [← s2]; simp [hnL]
      have := append_cons_unique (by simp [hnA]) hnA' h4
      exact ⟨this.1.symm, this.2.symm⟩
    refine ⟨h', A', B', ?_, by rw [e1, hAB.1, hAB.2], ?_, fun q hq hqp => ?_, r6.trans s5, s6⟩
    · simp only [replaceLoop, r1]
      rw [s1]
      cases L <;> rfl
    · rw [s3]; cases L <;> rfl
    · rw [s4 q hq hqp, r4 q hq hqp (.inr n3), hff]

/-- What `replace_with` does with several elements: all are taken out of their places, and only the first of them is put
where the old element was; the others are lost. -/
theorem C39_several (ok : HeapOk h D) {t n p : Nat} {ns : List Nat} (ht : Attached h D t) (hp : h.parent t = some p)
    (hnd : (n :: ns).Nodup)
    (hL : ∀ m ∈ n :: ns, Attached h D m ∧ m < h.size ∧ (h.node m).kind ≠ .root ∧ m ≠ t ∧ ¬ Above h m t) :
    ∃ h' A B, replaceAll e (n :: ns) h [t] = .ok (h', [n]) ∧ (h.kids p).filter (· ∉ n :: ns) = A ++ t :: B ∧
      h'.kids p = A ++ n :: B ∧ (∀ q, ¬ D q → q ≠ p → h'.kids q = (h.kids q).filter (· ∉ n :: ns)) ∧ SameData h h' ∧
      LinksRight h' D := by
  obtain ⟨h', A, B, s1, s2, s3, s4, s5, s6⟩ := replaceLoop_chain (e := e) p (n :: ns).reverse t h ok ht hp
    (List.nodup_reverse.2 hnd) (fun m hm => hL m (List.mem_reverse.1 hm))
  have hl : (n :: ns).reverse.getLastD t = n := by simp
  rw [hl] at s1 s3
  rw [filter_reverse_mem] at s2
  exact ⟨h', A, B, by simp [replaceAll, s1, -List.reverse_cons], s2, s3, fun q hq hqp => by rw [s4 q hq hqp, filter_reverse_mem], s5,
    s6.right⟩

end

/-! ### Examples -/

theorem demo2_usable_replace {t n : Nat} (h1 : (attachedB demo2 [] t && attachedB demo2 [] n && decide (n < demo2.size)) = true)
    (h2 : (demo2.validate ext0 t n).toOption = some true) : Usable ext0 demo2 noneUsed (.replace t n) := by
  simp only [Bool.and_eq_true, decide_eq_true_iff] at h1
  rw [noneUsed_eq]
  have hv : demo2.validate ext0 t n = .ok true := by
    cases hv : demo2.validate ext0 t n with
    | error x => rw [hv] at h2; cases h2
    | ok b => rw [hv] at h2; simp only [Except.toOption, Option.some.injEq] at h2; rw [h2]
  obtain ⟨_, a2, a3, a4⟩ := (validate_sound hv).1 rfl
  exact ⟨attachedB_sound h1.1.1, attachedB_sound h1.1.2, by simp, h1.2, a2, a3, a4⟩

set_option maxRecDepth 100000 in
/-- `div(5)` is replaced by the fragment `[b, i]`. -/
example : ∃ h' A B, replaceAll ext0 [10] demo2 [5] = .ok (h', [5]) ∧ (demo2.kids 1).filter (· ∉ [11, 12]) = A ++ 5 :: B ∧
    h'.kids 1 = A ++ [11, 12] ++ B := by
  obtain ⟨h', A, B, h1, h2, h3, _⟩ := C39_one_partial (e := ext0) (D := noneUsed) (t := 5) (n := 10) (p := 1) demo2_ok
    (demo2_usable_replace (by decide) (by decide)) (by decide) (by decide)
  exact ⟨h', A, B, h1, h2, h3⟩

set_option maxRecDepth 100000 in
/-- `p(2)` is replaced by `span(7)`, which comes from a sibling of `p`. -/
example : ∃ h' A B, replaceAll ext0 [7] demo2 [2] = .ok (h', [7]) ∧ (demo2.kids 1).filter (· ∉ [7]) = A ++ 2 :: B ∧
    h'.kids 1 = A ++ [7] ++ B ∧ h'.kids 5 = [6] := by
  obtain ⟨h', A, B, h1, h2, h3, h4, _⟩ := C39_one_partial (e := ext0) (D := noneUsed) (t := 2) (n := 7) (p := 1) demo2_ok
    (demo2_usable_replace (by decide) (by decide)) (by decide) (by decide)
  exact ⟨h', A, B, h1, h2, h3, (h4 5 id (by decide) (.inl (by decide))).trans (by decide)⟩

set_option maxRecDepth 100000 in
example : ∃ h' A B, replaceAll ext0 [6, 9] demo2 [2] = .ok (h', [6]) ∧ (demo2.kids 1).filter (· ∉ [6, 9]) = A ++ 2 :: B ∧
    h'.kids 1 = A ++ 6 :: B := by
  have u1 := demo2_usable_replace (t := 2) (n := 6) (by decide) (by decide)
  have u2 := demo2_usable_replace (t := 2) (n := 9) (by decide) (by decide)
  obtain ⟨h', A, B, h1, h2, h3, _⟩ := C39_several (e := ext0) (D := noneUsed) (t := 2) (n := 6) (ns := [9]) (p := 1) demo2_ok
    u1.1 (by decide) (by decide) (fun m hm => by
      simp only [List.mem_cons, List.not_mem_nil, or_false] at hm
      rcases hm with rfl | rfl
      · exact ⟨u1.2.1, u1.2.2.2.1, by decide, by decide, u1.2.2.2.2.2.2⟩
      · exact ⟨u2.2.1, u2.2.2.2.1, by decide, by decide, u2.2.2.2.2.2.2⟩)
  exact ⟨h', A, B, h1, h2, h3⟩

/-- C39 does not hold in full: `ul > li` replaced by `[p, span]` leaves only `p`; `span` is in no list. -/
theorem C39_fails : ∃ h', replaceAll ext0 [6, 7] demo2 [9] = .ok (h', [6]) ∧ h'.kids 8 = [6] ∧
    ∀ q < demo2.size, 7 ∉ h'.kids q :=
  ⟨_, rfl, by decide, by decide⟩

end Visdom
