import Verif.Props.Markup
/-!
# C72: elements that move inside one and the same element
-/
namespace Visdom
open Spec

section
variable {rd : Render} {e : Ext} {h h' : Heap} {D : Nat → Prop}

/-- A tree below one that does not lose a node is kept by a removal. -/
theorem within_removed {x q : Nat} (ok : HeapOk h D) (hqD : ¬ D q) (hk : ∀ y, ¬ D y → h'.kids y = (h.kids y).filter (· ∉ [x])) {y : Nat}
    (hw : Within h' q y) : Within h q y := by
  induction hw with
  | self => exact .self
  | step _ hc ih =>
    rw [hk _ (within_live ok hqD ih)] at hc
    exact .step ih (List.mem_of_mem_filter hc)

theorem within_kept {x q : Nat} (ok : HeapOk h D) (hqD : ¬ D q) (hk : ∀ y, ¬ D y → h'.kids y = (h.kids y).filter (· ∉ [x])) {y : Nat}
    (hw : Within h q y) (hne : y ≠ x) (hab : ¬ Above h x y) : Within h' q y := by
  induction hw with
  | self => exact .self
  | @step p c hp hc ih =>
    have lp := within_live ok hqD hp
    have hpar := ok.kid_parent lp hc
    refine .step (ih (fun h1 => hab (h1 ▸ .parent hpar)) fun h1 => hab (.step h1 hpar)) ?_
    rw [hk _ lp]
    exact List.mem_filter.2 ⟨hc, by simpa using hne⟩

theorem above_same (hp : ∀ y, h'.parent y = h.parent y) {a y : Nat} (ha : Above h' a y) : Above h a y := by
  induction ha with
  | parent h1 => exact .parent (by rw [← hp]; exact h1)
  | step _ h1 ih => exact .step ih (by rw [← hp]; exact h1)

/-- An element `n` leaves its place and gets a new one in the list of `p`, beside the nodes `T`; both places are within `q`. -/
theorem markup_move (ok : HeapOk h D) {D' : Nat → Prop} (ok' : HeapOk h' D') (hsz : h.size ≤ h'.size) (hs : SameData h h') {p n q po : Nat}
    (ho : OthersFiltered D h h' p n) (hn : ¬ D n) (hkn : (h.node n).kind = .tag) (hat : Attached h D n) (hpo : h.parent n = some po) (hne : p ≠ n)
    (hab : ¬ Above h n p) (hpl : PlainIn e h p) (hpb : p < h.size) (hqD : ¬ D q) (hqD' : ¬ D' q) (hq : Within h q p) (hqo : Within h q po)
    {A B T : List Nat} (hk : (h.kids p).filter (· ∉ moved h n) = A ++ T ++ B) (l r : Bool)
    (hk' : h'.kids p = A ++ ((if l then T else []) ++ [n] ++ (if r then T else [])) ++ B) :
    ∃ o a b c t d, outerHtml rd e h n = .ok o ∧ HtmlsOf rd e h' false T t ∧ HtmlOf rd e h' false n o ∧ innerHtml rd e h q = .ok (a ++ o ++ b) ∧
      a ++ b = c ++ t ++ d ∧ innerHtml rd e h' q = .ok (c ++ ((if l then t else []) ++ o ++ (if r then t else [])) ++ d) := by
  obtain ⟨hm, a, o, b, r1, o1, o2, i1, i2⟩ := C72_remove_partial (rd := rd) (e := e) ok hat hpo hkn hqD hqo
  obtain ⟨hm', hrun, d⟩ := detach_detached ok hat
  have : hm' = hm := by
    simp only [removeAll, hrun, Except.ok.injEq] at r1
    exact r1
  subst this
  have hmv : moved h n = [n] := by unfold moved; rw [if_neg (by rw [hkn]; decide)]
  have hmv' : moved hm' n = [n] := by unfold moved; rw [if_neg (by rw [(d.data n).1, hkn]; decide)]
  have hkm : ∀ y, ¬ D y → hm'.kids y = (h.kids y).filter (· ∉ [n]) := fun y hy => by
    rw [d.kids y hy]; congr 1; funext c; simp
  have hqn : q ≠ n := by
    rintro rfl
    rcases within_above ok hn hq with h1 | h1
    · exact hne h1.symm
    · exact hab h1
  have hnotin : ¬ Within hm' q n := by
    intro hw
    cases hw with
    | self => exact hqn rfl
    | @step y _ hy hc =>
      rw [hkm y (within_live ok hqD (within_removed ok hqD hkm hy))] at hc
      simpa using (List.mem_filter.1 hc).2
  have hs' : SameData hm' h' := fun x => by
    obtain ⟨a1, a2, a3, a4, a5⟩ := hs x
    obtain ⟨b1, b2, b3, b4, b5⟩ := d.data x
    exact ⟨a1.trans b1.symm, a2.trans b2.symm, a3.trans b3.symm, a4.trans b4.symm, a5.trans b5.symm⟩
  have ho' : OthersFiltered D hm' h' p n := by
    intro y hy hyp _
    rw [ho y hy hyp (.inr (by rw [hkn]; decide)), hkm y hy, hmv, hmv', List.filter_filter]
    simp
  have hpl' : PlainIn e hm' p := by
    unfold PlainIn at *
    rw [(d.data p).1, (d.data p).2.1]
    exact hpl
  have hab' : ¬ Above hm' n p := fun h1 => hab (above_same d.parent h1)
  have hfm : FiniteTree hm' n := heapOk_finite_of d.ok (by rw [d.size]; exact (ok.bound _ _ hpo).1) hn
  have hno := (outerHtml_iff hfm o).1 o2
  have hqm := within_kept ok hqD hkm hq hne hab
  have lp := within_live d.ok hqD hqm
  have hkp : hm'.kids p = A ++ T ++ B := by rw [hkm p lp, ← hmv, hk]
  have hout : ∀ m ∈ moved hm' n, ¬ Within hm' q m := by rw [hmv']; simpa using hnotin
  have hTf : ∀ c ∈ T, FiniteTree hm' c := fun c hc => by
    have hc' : c ∈ hm'.kids p := by rw [hkp]; simp [hc]
    exact heapOk_finite_of d.ok (d.ok.bound _ _ (d.ok.kid_parent lp hc')).1 fun hd => d.ok.kid _ _ lp hc' (d.ok.dead _ hd).1
  obtain ⟨t, _, ht⟩ := pieces_full (rd := rd) (e := e) (l := T) hTf false
  have hkeep : ∀ c ∈ T, SameTree hm' h' c c := fun c hc => by
    have hc' : c ∈ hm'.kids p := by rw [hkp]; simp [hc]
    exact sameTree_of fun y hy => others_same d.ok hs' ho' hqD (.inl hqn) hout (hqm.trans (hy.head hc'))
      (by rintro rfl; exact not_within_parent d.ok lp hc' hy)
  have hone := htmlsOf_one.2 hno
  have hN : ∀ m ∈ (if l then T else []) ++ [n] ++ (if r then T else []), m ∈ moved hm' n ∨ m ∈ hm'.kids p := fun m hm => by
    rw [hmv', hkp]
    cases l <;> cases r <;> simp at hm ⊢ <;> tauto
  have hr : HtmlsOf rd e hm' false ((if l then T else []) ++ [n] ++ (if r then T else [])) ((if l then t else []) ++ o ++ (if r then t else [])) := by
    refine htmlsOf_append (htmlsOf_append ?_ hone) ?_
    · cases l; exacts [.nil, ht]
    · cases r; exacts [.nil, ht]
  obtain ⟨c, d', j1, j2⟩ := markup_change (rd := rd) (A := A) (T := T) (B := B) (N := (if l then T else []) ++ [n] ++ (if r then T else [])) (t := t)
    (r := (if l then t else []) ++ o ++ (if r then t else [])) d.ok ok' (d.size ▸ hsz) hs' ho' hn hne hab' hpl' (d.size ▸ hpb) hqD hqD' hqm hout hkp hk' hN ht hr
  rw [i2] at j1
  simp only [Except.ok.injEq] at j1
  exact ⟨o, a, b, c, t, d', o1, htmlsOf_kept ht hkeep, htmlsOf_one.1 (htmlsOf_kept hone fun m hm => moved_same d.ok hs' ho' hn hne hab' (by
    rw [hmv']; exact hm)), i1, j1, j2⟩

/-- C72, `append` and `prepend` of an element that moves inside one and the same element `q`: in the `html` of `q` its HTML disappears at the old place
and appears at the end or at the beginning of what is then left of the `html` of the target; nothing else changes. -/
theorem C72_move_inside_partial (ok : HeapOk h D) {pos : InsertPosition} {t n q po : Nat} (u : Usable e h D (.insert pos t n)) (ha : Accepted e h t n)
    (hpos : pos = .afterBegin ∨ pos = .beforeEnd) (hct : e.contentTag (h.node t).name = false) (hal : e.allow (h.tagNames t) n = true)
    (hkn : (h.node n).kind = .tag) (hpo : h.parent n = some po) (hqD : ¬ D q) (hq : Within h q t) (hqo : Within h q po) :
    ∃ h' o a b c s d, h.insertAdjacent e pos t n = .ok h' ∧ outerHtml rd e h n = .ok o ∧ innerHtml rd e h q = .ok (a ++ o ++ b) ∧
      a ++ b = c ++ s ++ d ∧ innerHtml rd e h' t = .ok (if pos = .beforeEnd then s ++ o else o ++ s) ∧
      innerHtml rd e h' q = .ok (c ++ (if pos = .beforeEnd then s ++ o else o ++ s) ++ d) := by
  obtain ⟨h', h1, h2, h3, _, h4⟩ := insert_inside ok u ha hpos
  obtain ⟨h5, st⟩ := insert_step ok u
  have := st.run
  simp only [Op.run, h1, Except.ok.injEq] at this
  subst this
  have hU : ∀ x, ¬ D x → ¬ Used e h D x (.insert pos t n) := by
    rintro x hx (h6 | ⟨_, h6, _⟩)
    · exact hx h6
    · rw [hkn] at h6; cases h6
  have hat : Attached h D n := u.2.1
  obtain ⟨_, _, hDn, hbn, hbt⟩ := u
  have hpl : PlainIn e h t := .inr ⟨ha.1, hct⟩
  have hDt := tag_live ok ha.1
  have hmv : moved h n = [n] := by unfold moved; rw [if_neg (by rw [hkn]; decide)]
  have hk0 : h'.kids t = if pos = .beforeEnd then (h.kids t).filter (· ∉ moved h n) ++ [n] else n :: (h.kids t).filter (· ∉ moved h n) := by
    rw [h2, hmv]
    simp [hal]
  have hk' : h'.kids t = [] ++ ((if decide (pos = .beforeEnd) then (h.kids t).filter (· ∉ moved h n) else []) ++ [n] ++
      (if decide (pos ≠ .beforeEnd) then (h.kids t).filter (· ∉ moved h n) else [])) ++ [] := by
    rw [hk0]
    by_cases hp : pos = .beforeEnd
    · simp [hp]
    · simp [hp]
  obtain ⟨o, a, b, c, s, d, g1, g2, g2', g3, g4, g5⟩ := markup_move (rd := rd) (A := []) (B := []) ok st.ok st.size h4 h3 hDn hkn hat hpo ha.2.2.1 ha.2.2.2 hpl hbt
    hqD (hU q hqD) hq hqo (T := (h.kids t).filter (· ∉ moved h n)) (by simp) (decide (pos = .beforeEnd)) (decide (pos ≠ .beforeEnd)) hk'
  have hg : (if decide (pos = .beforeEnd) = true then s else []) ++ o ++ (if decide (pos ≠ .beforeEnd) = true then s else []) =
      if pos = .beforeEnd then s ++ o else o ++ s := by
    by_cases hp : pos = .beforeEnd
    · simp [hp]
    · simp [hp]
  rw [hg] at g5
  refine ⟨h', o, a, b, c, s, d, h1, g1, g3, g4, ?_, g5⟩
  have hpl' : PlainIn e h' t := by
    unfold PlainIn at *
    rw [(h4 t).1, (h4 t).2.1]
    exact hpl
  refine (innerHtml_iff (heapOk_finite_of st.ok (Nat.lt_of_lt_of_le hbt st.size) (hU t hDt)) hpl'.kind _).2 (hpl'.inner.2 ?_)
  rw [hk0]
  by_cases hp : pos = .beforeEnd
  · rw [if_pos hp, if_pos hp]; exact htmlsOf_append g2 (htmlsOf_one.2 g2')
  · rw [if_neg hp, if_neg hp]; exact htmlsOf_append (htmlsOf_one.2 g2') g2

/-- C72, `before` and `after` with an element that moves inside one and the same element `q`: in the `html` of `q` its HTML disappears at the old place
and appears directly before or after what is then left of the HTML of the target; nothing else changes. -/
theorem C72_move_beside_partial (ok : HeapOk h D) {pos : InsertPosition} {t n p q po : Nat} (u : Usable e h D (.insert pos t n)) (ha : Accepted e h t n)
    (hpos : pos = .beforeBegin ∨ pos = .afterEnd) (hpar : h.parent t = some p) (hpl : PlainIn e h p)
    (hkn : (h.node n).kind = .tag) (hpo : h.parent n = some po) (hqD : ¬ D q) (hq : Within h q p) (hqo : Within h q po) :
    ∃ h' o a b c s d, h.insertAdjacent e pos t n = .ok h' ∧ outerHtml rd e h n = .ok o ∧ innerHtml rd e h q = .ok (a ++ o ++ b) ∧
      a ++ b = c ++ s ++ d ∧ outerHtml rd e h' t = .ok s ∧
      innerHtml rd e h' q = .ok (c ++ (if pos = .afterEnd then s ++ o else o ++ s) ++ d) := by
  obtain ⟨h', A, B, h1, h2, h2', h3, _, h4⟩ := insert_beside ok u ha (by rcases hpos with rfl | rfl <;> simp) hpar
  obtain ⟨h5, st⟩ := insert_step ok u
  have := st.run
  simp only [Op.run, h1, Except.ok.injEq] at this
  subst this
  have hU : ∀ x, ¬ D x → ¬ Used e h D x (.insert pos t n) := by
    rintro x hx (h6 | ⟨_, h6, _⟩)
    · exact hx h6
    · rw [hkn] at h6; cases h6
  have hat : Attached h D n := u.2.1
  obtain ⟨_, _, hDn, hbn, hbt⟩ := u
  have hDt := tag_live ok ha.1
  have hab : ¬ Above h n p := fun h6 => ha.2.2.2 (.step h6 hpar)
  have hpn : p ≠ n := by rintro rfl; exact ha.2.2.2 (.parent hpar)
  have hmv : moved h n = [n] := by unfold moved; rw [if_neg (by rw [hkn]; decide)]
  obtain ⟨o, a, b, c, s, d, g1, g2, _, g3, g4, g5⟩ := markup_move (rd := rd) (A := A) (B := B) (T := [t]) ok st.ok st.size h4 h3 hDn hkn hat hpo hpn hab hpl
    (ok.bound _ _ hpar).2 hqD (hU q hqD) hq hqo (by simpa using h2) (decide (pos = .afterEnd)) (decide (pos ≠ .afterEnd)) (by
      rw [h2', hmv]
      by_cases hp : pos = .afterEnd
      · simp [hp]
      · simp [hp])
  have hg : (if decide (pos = .afterEnd) = true then s else []) ++ o ++ (if decide (pos ≠ .afterEnd) = true then s else []) =
      if pos = .afterEnd then s ++ o else o ++ s := by
    by_cases hp : pos = .afterEnd
    · simp [hp]
    · simp [hp]
  rw [hg] at g5
  exact ⟨h', o, a, b, c, s, d, h1, g1, g3, g4,
    (outerHtml_iff (heapOk_finite_of st.ok (Nat.lt_of_lt_of_le hbt st.size) (hU t hDt)) s).2 (htmlsOf_one.1 g2), g5⟩

/-- C72, `replace_with` an element that moves inside one and the same element `q` (it may come from inside the target): in the `html` of `q` its HTML
disappears at the old place and takes the place of what is then left of the HTML of the target; nothing else changes. -/
theorem C72_move_replace_partial (ok : HeapOk h D) {t n p q po : Nat} (u : Usable e h D (.replace t n)) (hpar : h.parent t = some p) (hpl : PlainIn e h p)
    (htk : (h.node t).kind = .tag) (hkn : (h.node n).kind = .tag) (hpo : h.parent n = some po) (hqD : ¬ D q) (hq : Within h q p) (hqo : Within h q po) :
    ∃ h' T o a b c s d, replaceAll e [n] h [t] = .ok (h', T) ∧ outerHtml rd e h n = .ok o ∧ innerHtml rd e h q = .ok (a ++ o ++ b) ∧
      a ++ b = c ++ s ++ d ∧ outerHtml rd e h' t = .ok s ∧ innerHtml rd e h' q = .ok (c ++ o ++ d) := by
  have hmv : moved h n = [n] := by unfold moved; rw [if_neg (by rw [hkn]; decide)]
  obtain ⟨h', A, B, h1, h2, h2', h3, _, h4⟩ := replace_one ok u hpar (by rw [hmv]; simp)
  obtain ⟨h5, st⟩ := replace_step ok u
  have := st.run
  simp only [Op.run, h1, Except.map, Except.ok.injEq] at this
  subst this
  have hat : Attached h D n := u.2.1
  have hU : ∀ x, ¬ D x → ¬ Used e h D x (.replace t n) := by
    rintro x hx (h6 | ⟨_, h6⟩)
    · exact hx h6
    · rw [hkn] at h6; cases h6
  obtain ⟨_, _, hDn, hbn, _, htn, htab⟩ := u
  have hDt := tag_live ok htk
  have hbt := (ok.bound _ _ hpar).1
  have hab : ¬ Above h n p := fun h6 => htab (.step h6 hpar)
  have hpn : p ≠ n := by rintro rfl; exact htab (.parent hpar)
  obtain ⟨o, a, b, c, s, d, g1, g2, _, g3, g4, g5⟩ := markup_move (rd := rd) (A := A) (B := B) (T := [t]) ok st.ok st.size h4 h3 hDn hkn hat hpo hpn hab hpl
    (ok.bound _ _ hpar).2 hqD (hU q hqD) hq hqo (by simpa using h2) false false (by rw [h2', hmv]; simp)
  obtain ⟨T, h1⟩ : ∃ T, h.replaceWith e t n = .ok (h', T) := ⟨_, h1⟩
  exact ⟨h', [T], o, a, b, c, s, d, by simp [replaceAll, replaceLoop, h1], g1, g3, g4,
    (outerHtml_iff (heapOk_finite_of st.ok (Nat.lt_of_lt_of_le hbt st.size) (hU t hDt)) s).2 (htmlsOf_one.1 g2), by simpa using g5⟩

end

/-! ### Examples -/

set_option maxRecDepth 100000 in
/-- `div(5).append(p(2))`: the paragraph moves inside the document. -/
example : ∃ h' o a b c s d, demo2.insertAdjacent ext0 .beforeEnd 5 2 = .ok h' ∧ outerHtml rd0 ext0 demo2 2 = .ok o ∧ innerHtml rd0 ext0 demo2 0 = .ok (a ++ o ++ b) ∧
    a ++ b = c ++ s ++ d ∧ innerHtml rd0 ext0 h' 5 = .ok (s ++ o) ∧ innerHtml rd0 ext0 h' 0 = .ok (c ++ (s ++ o) ++ d) :=
  C72_move_inside_partial (rd := rd0) (e := ext0) demo2_ok (pos := .beforeEnd) (t := 5) (n := 2) (q := 0) (po := 1)
    (noneUsed_eq ▸ usableB_sound (by decide)) (demo2_accepted (by decide)) (.inr rfl) (by decide) (by decide) (by decide) (by decide) id
    (.step (p := 1) (.step .self (by decide)) (by decide)) (.step .self (by decide))

set_option maxRecDepth 100000 in
/-- `p(2).before(span(7))`. -/
example : ∃ h' o a b c s d, demo2.insertAdjacent ext0 .beforeBegin 2 7 = .ok h' ∧ outerHtml rd0 ext0 demo2 7 = .ok o ∧
    innerHtml rd0 ext0 demo2 0 = .ok (a ++ o ++ b) ∧ a ++ b = c ++ s ++ d ∧ outerHtml rd0 ext0 h' 2 = .ok s ∧ innerHtml rd0 ext0 h' 0 = .ok (c ++ (o ++ s) ++ d) :=
  C72_move_beside_partial (rd := rd0) (e := ext0) demo2_ok (pos := .beforeBegin) (t := 2) (n := 7) (p := 1) (q := 0) (po := 5)
    (noneUsed_eq ▸ usableB_sound (by decide)) (demo2_accepted (by decide)) (.inl rfl) (by decide) (.inr ⟨by decide, by decide⟩) (by decide) (by decide) id
    (.step .self (by decide)) (.step (p := 1) (.step .self (by decide)) (by decide))

set_option maxRecDepth 100000 in
/-- `div(5).replace_with(span(7))`: an element takes the place of the one it stands in. -/
example : ∃ h' T o a b c s d, replaceAll ext0 [7] demo2 [5] = .ok (h', T) ∧ outerHtml rd0 ext0 demo2 7 = .ok o ∧
    innerHtml rd0 ext0 demo2 0 = .ok (a ++ o ++ b) ∧ a ++ b = c ++ s ++ d ∧ outerHtml rd0 ext0 h' 5 = .ok s ∧ innerHtml rd0 ext0 h' 0 = .ok (c ++ o ++ d) :=
  C72_move_replace_partial (rd := rd0) (e := ext0) demo2_ok (t := 5) (n := 7) (p := 1) (q := 0) (po := 5) (noneUsed_eq ▸ usableB_sound (by decide))
    (by decide) (.inr ⟨by decide, by decide⟩) (by decide) (by decide) (by decide) id (.step .self (by decide))
    (.step (p := 1) (.step .self (by decide)) (by decide))

end Visdom
