import Verif.Proofs.Again
import Verif.Proofs.Insert
/-!
# Siblings that are not touched keep their order
-/
namespace Visdom
open Spec

section
variable {h h' : Heap} {e : Ext} {D : Nat → Prop}

theorem sublist_filter_out {l K : List Nat} {p : Nat → Bool} (hl : ∀ x ∈ l, p x = true) (hs : l.Sublist K) : l.Sublist (K.filter p) := by
  have := hs.filter p
  rwa [List.filter_eq_self.2 hl] at this

theorem sublist_spliced {l A M N B : List Nat} (hl : ∀ x ∈ l, x ∉ M) (hs : l.Sublist (A ++ M ++ B)) : l.Sublist (A ++ N ++ B) := by
  have := sublist_filter_out (p := fun x => decide (x ∉ M)) (fun x hx => by simpa using hl x hx) hs
  rw [List.filter_append, List.filter_append] at this
  have hM : M.filter (fun x => decide (x ∉ M)) = [] := by
    rw [List.filter_eq_nil_iff]
    intro a ha
    simpa using ha
  rw [hM, List.append_nil] at this
  rw [List.append_assoc]
  exact this.trans (.append List.filter_sublist (List.filter_sublist.trans (List.sublist_append_right ..)))

theorem Spec.Spliced.order {p : Nat} {A M N B : List Nat} (s : Spliced h h' p A M N B) {q : Nat} {l : List Nat} (hl : ∀ x ∈ l, q = p → x ∉ M)
    (hs : l.Sublist (h.kids q)) : l.Sublist (h'.kids q) := by
  by_cases hq : q = p
  · subst hq
    rw [s.new]
    rw [s.old] at hs
    exact sublist_spliced (fun x hx => hl x hx rfl) hs
  · rwa [s.other q hq]

/-- Children that the call does not touch stay children of the same node, in the same order. -/
theorem untouched_order (P : ParseOk e) (ok : HeapOk h D) {op : Op} (u : Usable e h D op) (hr : op.run e h = .ok h') {q : Nat} (hq : q < h.size)
    (hU : ¬ Used e h D q op) {l : List Nat} (hl : ∀ x ∈ l, ¬ Touched e h x op) (hs : l.Sublist (h.kids q)) : l.Sublist (h'.kids q) := by
  cases op with
  | remove x =>
    obtain ⟨h1, he, d⟩ := detach_detached ok u
    simp only [Op.run] at hr
    rw [he] at hr
    cases hr
    rw [d.kids q hU]
    exact sublist_filter_out (fun y hy => decide_eq_true fun h1 => hl y hy (.inl h1)) hs
  | removeText x =>
    obtain ⟨h1, he, h2⟩ := removeText_eq ok u
    simp only [Op.run] at hr
    rw [he] at hr
    cases hr
    rcases h2 with ⟨_, rfl⟩ | ⟨p, hpar, hp, s⟩
    · exact hs
    · exact s.order (fun y hy _ h1 => hl y hy (.inl (List.mem_singleton.1 h1))) hs
  | insert pos t n =>
    have hl2 : ∀ x ∈ l, x ∉ moved h n := fun x hx h2 => hl x hx (.inr h2)
    by_cases ha : Accepted e h t n
    · have hqD : ¬ D q := fun h2 => hU (.inl h2)
      have hqn : q ≠ n ∨ (h.node n).kind ≠ .root := by
        by_cases h2 : q = n
        · exact .inr fun h3 => hU (.inr ⟨h2, h3, ha⟩)
        · exact .inl h2
      have hf : l.Sublist ((h.kids q).filter (· ∉ moved h n)) := sublist_filter_out (fun x hx => by simpa using hl2 x hx) hs
      by_cases hpos : pos = .afterBegin ∨ pos = .beforeEnd
      · obtain ⟨h1, he, k1, k2, _⟩ := insert_inside ok u ha hpos
        simp only [Op.run] at hr
        rw [he] at hr
        cases hr
        by_cases hqt : q = t
        · subst hqt
          rw [k1]
          split
          · exact hf.trans (List.sublist_append_left ..)
          · exact hf.trans (List.sublist_append_right ..)
        · rwa [k2 q hqD hqt hqn]
      · cases hpar : h.parent t with
        | some p =>
          obtain ⟨h1, A, B, he, k1, k2, k3, _⟩ := insert_beside ok u ha hpos hpar
          simp only [Op.run] at hr
          rw [he] at hr
          cases hr
          by_cases hqp : q = p
          · subst hqp
            rw [k1] at hf
            rw [k2]
            split
            · refine hf.trans (.append (.refl _) (.cons_cons _ (List.sublist_append_right ..)))
            · exact hf.trans (.append (.refl _) (List.sublist_append_right ..))
          · rwa [k3 q hqD hqp hqn]
        | none =>
          obtain ⟨ht, hn, hDn, hbn, hbt⟩ := u
          obtain ⟨h1, N, k1, k2, k3, k4, k5, k6, k7, k8, k9, k10, k11, k12, k13⟩ := takeNodes_step (e := e) ok hn hDn hbn ha.2.1
          simp only [Op.run, Heap.insertAdjacent, (Accepted.validate (e := e) ok).1 ha, k1] at hr
          obtain ⟨i, hi⟩ := placeNodes_lost (e := e) (h := h1) (N := moved h n) ((k6 t).trans hpar) pos hpos
          rw [hi] at hr
          cases hr
          rw [kids_of_childs ((resetIndex_fields _ h1 _).2.1 q), k13 q hqD hqn, k2]
          exact hf
    · simp only [Op.run, Heap.insertAdjacent, (Accepted.validate (e := e) ok).2 ha] at hr
      cases hr
      exact hs
  | replace t n =>
    have hl2 : ∀ x ∈ l, x ∉ moved h n := fun x hx h2 => hl x hx (.inr h2)
    have hqD : ¬ D q := fun h2 => hU (.inl h2)
    have hqn : q ≠ n ∨ (h.node n).kind ≠ .root := by
      by_cases h2 : q = n
      · exact .inr fun h3 => hU (.inr ⟨h2, h3⟩)
      · exact .inl h2
    have hf : l.Sublist ((h.kids q).filter (· ∉ moved h n)) := sublist_filter_out (fun x hx => by simpa using hl2 x hx) hs
    obtain ⟨ht, hn, hDn, hbn, hdoc, hne, hab⟩ := u
    obtain ⟨h1, N, k1, k2, k3, k4, k5, k6, k7, k8, k9, k10, k11, k12, k13⟩ := takeNodes_step (e := e) ok hn hDn hbn hdoc
    have k11 := k11 t hne hab
    have htN : t ∉ N := fun h2 => (k11 t h2).1 rfl
    rw [← k2] at k1
    obtain ⟨h2, t', r1, r2⟩ := replaceWith_taken k1 k3 (k12 t htN ht) k8 k9 k10 k11 k7
    simp only [Op.run, r1] at hr
    cases hr
    have h1s : l.Sublist (h1.kids q) := by rw [k13 q hqD hqn, k2]; exact hf
    rcases r2 with ⟨_, rfl⟩ | ⟨_, rfl⟩ | ⟨p, _, _, _, _, s⟩
    · exact h1s
    · exact h1s
    · exact s.order (fun y hy _ => by simpa using fun h3 => hl y hy (.inl (.inl h3))) h1s
  | setText x s =>
    simp only [Op.run] at hr
    cases hr
    by_cases hk : (h.node x).kind = .tag
    · by_cases hct : e.contentTag (h.tagNames x) = true
      · simp only [Heap.setText, hk, hct, if_true]
        rwa [(upd_content_fields ..).1]
      · rw [Bool.not_eq_true] at hct
        by_cases hse : s = []
        · subst hse
          have : h.setText e x [] = h.setChilds x none := by simp only [Heap.setText, hk, hct]; rfl
          rw [this]
          exact (setChilds_spliced (h := h) x none rfl).order (fun y hy _ h2 => hl y hy (.inl h2)) hs
        · obtain ⟨h1, e1, sp, _⟩ := setText_spliced ok u hk hct hse
          obtain ⟨a1, a2, a3, a4, a5, a6, a7, a8⟩ :=
            alloc_ok ok u { kind := .text, content := some (e.encode s), parent := some x } rfl rfl (by simp)
          refine sp.order (fun y hy _ h2 => hl y hy (.inl h2)) ?_
          rw [e1, a3]
          exact hs
    · unfold Heap.setText
      split
      · rename_i h2; exact absurd h2 hk
      all_goals first
        | exact hs
        | (split
           · exact hs
           · rwa [(upd_content_fields ..).1])
  | appendText x s =>
    simp only [Op.run, Heap.appendText] at hr
    split at hr
    · cases hr; rwa [(upd_content_fields ..).1]
    · cases hr
  | prependText x s =>
    simp only [Op.run, Heap.prependText] at hr
    split at hr
    · cases hr; rwa [(upd_content_fields ..).1]
    · cases hr
  | setHtml x s =>
    obtain ⟨h2, hrun, hc⟩ := setHtml_cases ok P u
    obtain ⟨hxb, hxa, _, _⟩ := u
    simp only [Op.run] at hr
    rw [hrun] at hr
    cases hr
    rcases hc with ⟨_, rfl⟩ | ⟨t, ht, htb, htk, hc⟩
    · exact hs
    have htt : (h.node x).kind = .tag ∧ t = x ∨ (h.node x).kind ≠ .tag ∧ h.parent x = some t := by
      rcases htmlTarget_cases h x with ⟨h2, _⟩ | ⟨h2, hk⟩ | ⟨h2, hk⟩ <;> rw [h2] at ht
      · cases ht
      · cases ht; exact .inl ⟨hk, rfl⟩
      · exact .inr ⟨hk, ht⟩
    rcases hc with ⟨_, rfl⟩ | ⟨_, h1, r, hr, hc⟩
    · rwa [(upd_content_fields ..).1]
    obtain ⟨p1, p2, p3, p4, p5, p6⟩ := P h s h1 r hr
    have hkq : h1.kids q = h.kids q := by unfold Heap.kids; rw [p2 q hq]
    rcases hc with ⟨hch, rfl⟩ | ⟨parsed, hch, sp⟩
    · refine (setChilds_spliced (h := h1) t none rfl).order (fun y hy _ h2 => hl y hy (.inl ?_)) (by rw [hkq]; exact hs)
      have hkt : h1.kids t = h.kids t := by unfold Heap.kids; rw [p2 t htb]
      rw [hkt] at h2
      rcases htt with ⟨_, rfl⟩ | ⟨hk, hpx⟩
      · exact .inl h2
      · exact .inr ⟨hk, .inr ⟨t, h1, r, hpx, hr, hch, h2⟩⟩
    · obtain ⟨okE, atE, nodeE, hnd, hidx, hnew, hpl⟩ := parsed_taken P hr ok hch
      have hkE : (h1.setChilds r (some [])).kids q = h.kids q := by unfold Heap.kids; rw [nodeE q hq]
      split at sp
      · exact sp.order (fun y hy _ h2 => hl y hy (.inl (.inl h2))) (by rw [hkE]; exact hs)
      · rename_i hk
        refine sp.order (fun y hy _ h2 => hl y hy (.inl (.inr ⟨hk, .inl ?_⟩))) (by rw [hkE]; exact hs)
        simpa using h2
  | load s =>
    simp only [Op.run] at hr
    cases hp : e.parse h s with
    | error x => rw [hp] at hr; cases hr
    | ok r =>
      obtain ⟨h1, r⟩ := r
      rw [hp] at hr
      cases hr
      unfold Heap.kids
      rw [(P _ _ _ _ hp).2.1 q hq]
      exact hs

theorem used_mono {op : Op} {x : Nat} (hD : D x) : Used e h D x op := by
  cases op <;> simp only [Used] <;> first | exact hD | exact .inl hD

/-- What has been used stays used. -/
theorem used_stays (P : ParseOk e) (ops : List Op) : ∀ (h : Heap) (D : Nat → Prop), HeapOk h D → History e h D ops → ∀ q, D q → UsedAll e h D ops q := by
  induction ops with
  | nil => intro h D _ _ q hq; exact hq
  | cons op ops ih =>
    intro h D ok hh q hq
    obtain ⟨h1, st⟩ := op_step ok P op hh.1
    simp only [UsedAll, st.run]
    exact ih h1 _ st.ok (hh.2 h1 st.run) q (used_mono hq)

/-- Over a whole history. -/
theorem untouched_order_history (P : ParseOk e) (ops : List Op) : ∀ (h h' : Heap) (D : Nat → Prop), HeapOk h D → History e h D ops → runAll e h ops = .ok h' →
    ∀ q, q < h.size → ¬ UsedAll e h D ops q → ∀ l : List Nat, (∀ x ∈ l, ¬ TouchedAny e h ops x) → l.Sublist (h.kids q) → l.Sublist (h'.kids q) := by
  induction ops with
  | nil => intro h h' D _ _ hr q _ _ l _ hs; cases hr; exact hs
  | cons op ops ih =>
    intro h h' D ok hh hr q hq hU l hl hs
    obtain ⟨h1, st⟩ := op_step ok P op hh.1
    simp only [TouchedAny, st.run, not_or] at hl
    simp only [runAll, st.run] at hr
    simp only [UsedAll, st.run] at hU
    refine ih h1 h' _ st.ok (hh.2 h1 st.run) hr q (Nat.lt_of_lt_of_le hq st.size) hU l (fun x hx => (hl x hx).2) ?_
    refine untouched_order P ok hh.1 st.run hq (fun h2 => hU ?_) (fun x hx => (hl x hx).1) hs
    exact used_stays P ops h1 _ st.ok (hh.2 h1 st.run) q h2

end
end Visdom
