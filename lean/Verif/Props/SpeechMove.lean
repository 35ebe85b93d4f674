import Verif.Props.Speech
import Verif.Props.MarkupMove
/-!
# C87: the text when elements are inserted beside others, replaced, moved, or given new html
-/
namespace Visdom
open Spec

section
variable {v : Voice} {e : Ext} {h : Heap} {D : Nat → Prop}

/-- Below a node that is in use there are no roots. -/
theorem noRoot_below (ok : HeapOk h D) {p c y : Nat} (hp : ¬ D p) (hc : c ∈ h.kids p) (hy : Within h c y) : (h.node y).kind ≠ .root := by
  have hDc : ¬ D c := fun hd => ok.kid p c hp hc (ok.dead c hd).1
  induction hy with
  | self => exact ok.kid p c hp hc
  | step hw hk ih => exact ok.kid _ _ (within_live ok hDc hw) hk

/-- What an element or fragment that is inserted says. -/
theorem moved_spoken (ok : HeapOk h D) {n : Nat} (hD : ¬ D n) (hb : n < h.size) (hk : (h.node n).kind = .tag ∨ (h.node n).kind = .root) {r : List Char}
    (hr : outerHtml v.quiet e h n = .ok r) : SpokenAll v e h false (moved h n) r := by
  have h1 := (outerHtml_iff (heapOk_finite_of ok hb hD) r).1 hr
  unfold moved
  rcases hk with hk | hk
  · rw [if_neg (by rw [hk]; decide), ← List.append_nil r]
    exact .cons (html_spoken h1 fun y hy => (live_inside ok hk hy).2) .nil
  · rw [if_pos hk]
    cases h1 with
    | root _ h2 => exact htmls_spoken h2 fun c hc y hy => noRoot_below ok hD hc hy
    | elem h2 _ => rw [hk] at h2; cases h2
    | leaf h2 _ => exact absurd hk h2

/-- C87: what is inserted before or after an element, an element or a fragment from outside, is heard directly before or after the text of that element. -/
theorem C87_beside_partial (ok : HeapOk h D) {pos : InsertPosition} {t n p q : Nat} (u : Usable e h D (.insert pos t n)) (ha : Accepted e h t n)
    (hpos : pos = .beforeBegin ∨ pos = .afterEnd) (hpar : h.parent t = some p) (hpl : PlainIn e h p) (hkn : (h.node n).kind = .tag ∨ (h.node n).kind = .root)
    (hkq : (h.node q).kind = .tag) (hq : Within h q p) (hout : ∀ m ∈ moved h n, ¬ Within h q m) :
    ∃ h' a o r b, h.insertAdjacent e pos t n = .ok h' ∧ textContents v e h t = .ok o ∧ SpokenAll v e h false (moved h n) r ∧
      textContents v e h q = .ok (a ++ o ++ b) ∧ textContents v e h' q = .ok (a ++ (if pos = .afterEnd then o ++ r else r ++ o) ++ b) := by
  have hqD := tag_live ok hkq
  have hqb := within_bound ok hqD (ok.bound t p hpar).2 hq
  obtain ⟨h', a, o, r, b, h1, h2, h3, h4, h5⟩ := C72_beside_partial (rd := v.quiet) ok u ha hpos hpar hpl hqD hq hout
  obtain ⟨h1', _, _, g1, _, _, _, _, sd⟩ := insert_beside ok u ha (by rcases hpos with rfl | rfl <;> simp) hpar
  rw [h1] at g1
  cases g1
  obtain ⟨h6, st⟩ := insert_step ok u
  have hrun := st.run
  simp only [Op.run, h1, Except.ok.injEq] at hrun
  subst hrun
  have hkq' : (h'.node q).kind = .tag := by rw [(sd q).1]; exact hkq
  refine ⟨h', a, o, r, b, h1, ?_, moved_spoken ok u.2.2.1 u.2.2.2.1 hkn h3, ?_, ?_⟩
  · rw [textContents_outer ha.1]; exact h2
  · rw [textContents_inner' ok hqb hkq]; exact h4
  · rw [textContents_inner' st.ok (Nat.lt_of_lt_of_le hqb st.size) hkq']; exact h5

/-- C87: an element that is replaced is no longer heard, and what takes its place is heard there. -/
theorem C87_replace_partial (ok : HeapOk h D) {t n p q : Nat} (u : Usable e h D (.replace t n)) (hpar : h.parent t = some p) (hpl : PlainIn e h p)
    (hne : moved h n ≠ []) (htk : (h.node t).kind = .tag) (hkn : (h.node n).kind = .tag ∨ (h.node n).kind = .root)
    (hkq : (h.node q).kind = .tag) (hq : Within h q p) (hout : ∀ m ∈ moved h n, ¬ Within h q m) :
    ∃ h' T a o r b, replaceAll e [n] h [t] = .ok (h', T) ∧ textContents v e h t = .ok o ∧ SpokenAll v e h false (moved h n) r ∧
      textContents v e h q = .ok (a ++ o ++ b) ∧ textContents v e h' q = .ok (a ++ r ++ b) := by
  have hqD := tag_live ok hkq
  have hqb := within_bound ok hqD (ok.bound t p hpar).2 hq
  obtain ⟨h', T, a, o, r, b, h1, h2, h3, h4, h5⟩ := C72_replace_partial (rd := v.quiet) ok u hpar hpl hne htk hqD hq hout
  obtain ⟨h1', _, _, g1, _, _, _, _, sd⟩ := replace_one ok u hpar hne
  obtain ⟨h6, st⟩ := replace_step ok u
  have hrun := st.run
  simp only [Op.run, g1, Except.map, Except.ok.injEq] at hrun
  subst hrun
  have heq : h' = h1' := by
    have g2 : ∃ T', replaceAll e [n] h [t] = .ok (h1', T') := by
      obtain ⟨T', g1⟩ : ∃ T', h.replaceWith e t n = .ok (h1', T') := ⟨_, g1⟩
      exact ⟨[T'], by simp [replaceAll, replaceLoop, g1]⟩
    obtain ⟨T', g2⟩ := g2
    rw [h1] at g2
    exact (Prod.mk.inj (Except.ok.inj g2)).1
  subst heq
  have hkq' : (h'.node q).kind = .tag := by rw [(sd q).1]; exact hkq
  refine ⟨h', T, a, o, r, b, h1, ?_, moved_spoken ok u.2.2.1 u.2.2.2.1 hkn h3, ?_, ?_⟩
  · rw [textContents_outer htk]; exact h2
  · rw [textContents_inner' ok hqb hkq]; exact h4
  · rw [textContents_inner' st.ok (Nat.lt_of_lt_of_le hqb st.size) hkq']; exact h5

/-- C87: after `set_html` the text of the element is what the nodes of the given html say, and it is heard around where the old text was. -/
theorem C87_set_html_partial (ok : HeapOk h D) (P : ParseOk e) {x r q : Nat} {s : List Char} {h1 : Heap} (u : Usable e h D (.setHtml x s))
    (hk : (h.node x).kind = .tag) (hct : e.contentTag (h.node x).name = false) (hp : e.parse h s = .ok (h1, r))
    (hal : ∀ m ∈ h1.kids r, e.allow (h.node x).name m = true) (hkq : (h.node q).kind = .tag) (hq : Within h q x) :
    ∃ h' a o t b, h.setHtml e x s = .ok h' ∧ SpokenAll v e h1 false (h1.kids r) t ∧ textContents v e h x = .ok o ∧ textContents v e h q = .ok (a ++ o ++ b) ∧
      textContents v e h' x = .ok t ∧ textContents v e h' q = .ok (a ++ t ++ b) := by
  have hqD := tag_live ok hkq
  have hqb := within_bound ok hqD u.1 hq
  obtain ⟨h', a, o, t, b, g1, g2, g3, g4, g5, g6⟩ := C72_set_html_partial (rd := v.quiet) ok P u hk hct hp hal hqD hq
  obtain ⟨h5, st⟩ := setHtml_step ok P u
  have hrun := st.run
  simp only [Op.run, g1, Except.ok.injEq] at hrun
  subst hrun
  obtain ⟨p1, p2, p3, p4, p5, p6⟩ := P h s h1 r hp
  have hDr : ¬ D r := fun hd => by have := (ok.dead r hd).2; omega
  have hkinds : ∀ y < h.size, (h'.node y).kind = (h.node y).kind := by
    obtain ⟨h'', r1, ol, _⟩ := C41_element ok P u hk hct hp
    rw [g1] at r1
    cases r1
    exact fun y hy => (ol.data y hy).1
  refine ⟨h', a, o, t, b, g1, ?_, ?_, ?_, ?_, ?_⟩
  · have hi := (innerHtml_iff (heapOk_finite_of (p6 D ok) p4 hDr) (.inl p5) t).1 g2
    exact htmls_spoken ((PlainIn.inner (e := e) (.inl p5)).1 hi) fun c hc y hy => noRoot_below (p6 D ok) hDr hc hy
  · rw [textContents_inner' ok u.1 hk]; exact g3
  · rw [textContents_inner' ok hqb hkq]; exact g4
  · rw [textContents_inner' st.ok (Nat.lt_of_lt_of_le u.1 st.size) (by rw [hkinds x u.1, hk])]; exact g5
  · rw [textContents_inner' st.ok (Nat.lt_of_lt_of_le hqb st.size) (by rw [hkinds q hqb, hkq])]; exact g6

/-- C87: an element that moves inside another one (`append`, `prepend`): its text is heard at the new place and no longer at the old one. -/
theorem C87_move_inside_partial (ok : HeapOk h D) {pos : InsertPosition} {t n q po : Nat} (u : Usable e h D (.insert pos t n)) (ha : Accepted e h t n)
    (hpos : pos = .afterBegin ∨ pos = .beforeEnd) (hct : e.contentTag (h.node t).name = false) (hal : e.allow (h.tagNames t) n = true)
    (hkn : (h.node n).kind = .tag) (hpo : h.parent n = some po) (hkq : (h.node q).kind = .tag) (hq : Within h q t) (hqo : Within h q po) :
    ∃ h' o a b c s d, h.insertAdjacent e pos t n = .ok h' ∧ textContents v e h n = .ok o ∧ textContents v e h q = .ok (a ++ o ++ b) ∧
      a ++ b = c ++ s ++ d ∧ textContents v e h' t = .ok (if pos = .beforeEnd then s ++ o else o ++ s) ∧
      textContents v e h' q = .ok (c ++ (if pos = .beforeEnd then s ++ o else o ++ s) ++ d) := by
  have hqD := tag_live ok hkq
  have hqb := within_bound ok hqD u.2.2.2.2 hq
  obtain ⟨h', o, a, b, c, s, d, h1, h2, h3, h4, h5, h6⟩ := C72_move_inside_partial (rd := v.quiet) ok u ha hpos hct hal hkn hpo hqD hq hqo
  obtain ⟨h1', g1, _, _, _, sd⟩ := insert_inside ok u ha hpos
  rw [h1] at g1
  cases g1
  obtain ⟨h7, st⟩ := insert_step ok u
  have hrun := st.run
  simp only [Op.run, h1, Except.ok.injEq] at hrun
  subst hrun
  refine ⟨h', o, a, b, c, s, d, h1, ?_, ?_, h4, ?_, ?_⟩
  · rw [textContents_outer hkn]; exact h2
  · rw [textContents_inner' ok hqb hkq]; exact h3
  · rw [textContents_inner' st.ok (Nat.lt_of_lt_of_le u.2.2.2.2 st.size) (by rw [(sd t).1]; exact ha.1)]; exact h5
  · rw [textContents_inner' st.ok (Nat.lt_of_lt_of_le hqb st.size) (by rw [(sd q).1]; exact hkq)]; exact h6

/-- C87: likewise for `before` and `after`. -/
theorem C87_move_beside_partial (ok : HeapOk h D) {pos : InsertPosition} {t n p q po : Nat} (u : Usable e h D (.insert pos t n)) (ha : Accepted e h t n)
    (hpos : pos = .beforeBegin ∨ pos = .afterEnd) (hpar : h.parent t = some p) (hpl : PlainIn e h p)
    (hkn : (h.node n).kind = .tag) (hpo : h.parent n = some po) (hkq : (h.node q).kind = .tag) (hq : Within h q p) (hqo : Within h q po) :
    ∃ h' o a b c s d, h.insertAdjacent e pos t n = .ok h' ∧ textContents v e h n = .ok o ∧ textContents v e h q = .ok (a ++ o ++ b) ∧
      a ++ b = c ++ s ++ d ∧ textContents v e h' t = .ok s ∧ textContents v e h' q = .ok (c ++ (if pos = .afterEnd then s ++ o else o ++ s) ++ d) := by
  have hqD := tag_live ok hkq
  have hqb := within_bound ok hqD (ok.bound t p hpar).2 hq
  obtain ⟨h', o, a, b, c, s, d, h1, h2, h3, h4, h5, h6⟩ := C72_move_beside_partial (rd := v.quiet) ok u ha hpos hpar hpl hkn hpo hqD hq hqo
  obtain ⟨h1', _, _, g1, _, _, _, _, sd⟩ := insert_beside ok u ha (by rcases hpos with rfl | rfl <;> simp) hpar
  rw [h1] at g1
  cases g1
  obtain ⟨h7, st⟩ := insert_step ok u
  have hrun := st.run
  simp only [Op.run, h1, Except.ok.injEq] at hrun
  subst hrun
  refine ⟨h', o, a, b, c, s, d, h1, ?_, ?_, h4, ?_, ?_⟩
  · rw [textContents_outer hkn]; exact h2
  · rw [textContents_inner' ok hqb hkq]; exact h3
  · rw [textContents_outer (by rw [(sd t).1]; exact ha.1)]; exact h5
  · rw [textContents_inner' st.ok (Nat.lt_of_lt_of_le hqb st.size) (by rw [(sd q).1]; exact hkq)]; exact h6

end

/-! ### Examples -/

set_option maxRecDepth 100000 in
/-- `div(5).before(fragment)`. -/
example : ∃ h' a o r b, demo2.insertAdjacent ext0 .beforeBegin 5 10 = .ok h' ∧ textContents voice0 ext0 demo2 5 = .ok o ∧
    SpokenAll voice0 ext0 demo2 false (moved demo2 10) r ∧ textContents voice0 ext0 demo2 1 = .ok (a ++ o ++ b) ∧
    textContents voice0 ext0 h' 1 = .ok (a ++ (r ++ o) ++ b) :=
  C87_beside_partial (v := voice0) (e := ext0) demo2_ok (pos := .beforeBegin) (t := 5) (n := 10) (p := 1) (q := 1)
    (noneUsed_eq ▸ usableB_sound (by decide)) (demo2_accepted (by decide)) (.inl rfl) (by decide) (.inr ⟨by decide, by decide⟩) (.inr (by decide)) (by decide) .self
    fun m hm hw => frag_out m hm (.trans (.step .self (by decide)) hw)

set_option maxRecDepth 100000 in
/-- `div(5).replace_with(fragment)`. -/
example : ∃ h' T a o r b, replaceAll ext0 [10] demo2 [5] = .ok (h', T) ∧ textContents voice0 ext0 demo2 5 = .ok o ∧
    SpokenAll voice0 ext0 demo2 false (moved demo2 10) r ∧ textContents voice0 ext0 demo2 1 = .ok (a ++ o ++ b) ∧ textContents voice0 ext0 h' 1 = .ok (a ++ r ++ b) :=
  C87_replace_partial (v := voice0) (e := ext0) demo2_ok (t := 5) (n := 10) (p := 1) (q := 1) (noneUsed_eq ▸ usableB_sound (by decide))
    (by decide) (.inr ⟨by decide, by decide⟩) (by decide) (by decide) (.inr (by decide)) (by decide) .self fun m hm hw => frag_out m hm (.trans (.step .self (by decide)) hw)

set_option maxRecDepth 100000 in
/-- `div(5).set_html("x")`. -/
example : ∃ h' a o t b, demo2.setHtml ext0 5 ['x'] = .ok h' ∧ textContents voice0 ext0 demo2 5 = .ok o ∧ textContents voice0 ext0 demo2 1 = .ok (a ++ o ++ b) ∧
    textContents voice0 ext0 h' 5 = .ok t ∧ textContents voice0 ext0 h' 1 = .ok (a ++ t ++ b) := by
  obtain ⟨g, hp⟩ : ∃ g, ext0.parse demo2 ['x'] = .ok (g, 14) := ⟨_, rfl⟩
  obtain ⟨h', a, o, t, b, h1, h2, h3, h4, h5, h6⟩ := C87_set_html_partial (v := voice0) (x := 5) (q := 1) demo2_ok ext0_parse
    (demo2_usable_html (by decide) (.inl (by decide))) (by decide) (by decide) hp
    (fun m _ => by show ((demo2.node 5).name != "br".toList) = true; decide) (by decide) (.step .self (by decide))
  exact ⟨h', a, o, t, b, h1, h3, h4, h5, h6⟩

set_option maxRecDepth 100000 in
/-- `div(5).append(p(2))`: the paragraph moves inside the outer `div`. -/
example : ∃ h' o a b c s d, demo2.insertAdjacent ext0 .beforeEnd 5 2 = .ok h' ∧ textContents voice0 ext0 demo2 2 = .ok o ∧
    textContents voice0 ext0 demo2 1 = .ok (a ++ o ++ b) ∧ a ++ b = c ++ s ++ d ∧ textContents voice0 ext0 h' 5 = .ok (s ++ o) ∧
    textContents voice0 ext0 h' 1 = .ok (c ++ (s ++ o) ++ d) :=
  C87_move_inside_partial (v := voice0) (e := ext0) demo2_ok (pos := .beforeEnd) (t := 5) (n := 2) (q := 1) (po := 1)
    (noneUsed_eq ▸ usableB_sound (by decide)) (demo2_accepted (by decide)) (.inr rfl) (by decide) (by decide) (by decide) (by decide) (by decide)
    (.step .self (by decide)) .self

set_option maxRecDepth 100000 in
/-- `p(2).before(span(7))`. -/
example : ∃ h' o a b c s d, demo2.insertAdjacent ext0 .beforeBegin 2 7 = .ok h' ∧ textContents voice0 ext0 demo2 7 = .ok o ∧
    textContents voice0 ext0 demo2 1 = .ok (a ++ o ++ b) ∧ a ++ b = c ++ s ++ d ∧ textContents voice0 ext0 h' 2 = .ok s ∧
    textContents voice0 ext0 h' 1 = .ok (c ++ (o ++ s) ++ d) :=
  C87_move_beside_partial (v := voice0) (e := ext0) demo2_ok (pos := .beforeBegin) (t := 2) (n := 7) (p := 1) (q := 1) (po := 5)
    (noneUsed_eq ▸ usableB_sound (by decide)) (demo2_accepted (by decide)) (.inl rfl) (by decide) (.inr ⟨by decide, by decide⟩) (by decide) (by decide) (by decide)
    .self (.step .self (by decide))

end Visdom
