import Verif.Props.BackHtml
import Mathlib.Tactic.IntervalCases
/-!
# C91: an element put around another one, and taken away again
-/
namespace Visdom
open Spec

section
variable {rd : Render} {e : Ext} {h : Heap} {D : Nat → Prop}

/-- C91, the part that holds: the new element `w` is inserted before the element `x`, then `x` is appended to `w`. Afterwards `w` stands where `x` stood, `x` is
the last child of `w`, and no other list of children has changed. Missing: `w` brought in with `replace_with` (`C91_fails_replace`). -/
theorem C91_wrap_partial (ok : HeapOk h D) {x w p : Nat} {A B : List Nat} (hD : ¬ D p) (hkp : h.kids p = A ++ x :: B) (hx : (h.node x).kind = .tag)
    (hw : (h.node w).kind = .tag) (hb : w < h.size) (hpw : h.parent w = none) (hxw : x ≠ w) (hab : ¬ Above h w x) (hal : e.allow (h.tagNames w) x = true) :
    ∃ h1 h2, h.insertAdjacent e .beforeBegin x w = .ok h1 ∧ h1.insertAdjacent e .beforeEnd w x = .ok h2 ∧
      h2.kids p = A ++ w :: B ∧ h2.kids w = h.kids w ++ [x] ∧ (∀ q, ¬ D q → q ≠ p → q ≠ w → h2.kids q = h.kids q) ∧
      h2.parent w = some p ∧ h2.parent x = some w ∧ SameData h h2 ∧ HeapOk h2 D ∧ h2.size = h.size := by
  have hxk : x ∈ h.kids p := by rw [hkp]; simp
  have hpar := ok.kid_parent hD hxk
  have hbx := (ok.bound _ _ hpar).1
  have hi : (h.kids p)[A.length]? = some x := by rw [hkp]; simp
  have hax : Attached h D x := by
    intro q hq
    rw [hpar] at hq; cases hq
    exact ⟨hD, by rw [(ok.link p _ x hD hi).2]; exact hi⟩
  have haw : Attached h D w := by intro q hq; rw [hpw] at hq; cases hq
  have hDw := tag_live ok hw
  have hDx := tag_live ok hx
  have hwr : (h.node w).kind ≠ .root := by rw [hw]; simp
  have hxr : (h.node x).kind ≠ .root := by rw [hx]; simp
  have hpw' : p ≠ w := by rintro rfl; exact hab (.parent hpar)
  have hxp : x ≠ p := ok.parent_ne hpar
  have free : ∀ q, ¬ D q → w ∉ h.kids q := fun q hq => free_of_parent_none ok hpw hq
  have hnd := ok.kids_nodup hD
  rw [hkp] at hnd
  have u : Usable e h D (.insert .beforeBegin x w) := ⟨hax, haw, hDw, hb, hbx⟩
  have ha : Accepted e h x w := ⟨hx, fun h1 => hwr h1.1, hxw, hab⟩
  obtain ⟨h1, A', B', r1, k1, k2, k3, k4, k5⟩ := insert_beside ok u ha (by simp) hpar
  obtain ⟨g, r1', kept⟩ := insert_kept ok (pos := .beforeBegin) (dest := [w]) (by simp) ⟨hax, hbx⟩ ⟨haw, hb, hwr⟩
    (show Welcome e h .beforeBegin x [w] by unfold Welcome; rw [if_neg (by simp), hpar]; simp)
  rw [r1] at r1'; cases r1'
  have hm : moved h w = [w] := if_neg hwr
  simp only [hm, filter_notMem_single, List.cons_append, List.nil_append] at k1 k2 k3 k4
  rw [filter_ne_self (free p hD), hkp] at k1
  have hxA : x ∉ A := fun h2 => (List.nodup_append.1 hnd).2.2 x h2 x (by simp) rfl
  have hxB : x ∉ B := (List.nodup_cons.1 (List.nodup_append.1 hnd).2.1).1
  have hxA' : x ∉ A' := by
    intro h2
    rw [k1] at hnd
    exact (List.nodup_append.1 hnd).2.2 x h2 x (by simp) rfl
  obtain ⟨rfl, rfl⟩ := append_cons_unique (t := x) hxA hxA' k1
  rw [if_neg (by simp)] at k2
  have k3' : ∀ q, ¬ D q → q ≠ p → h1.kids q = h.kids q := fun q hq hqp => by
    rw [k3 q hq hqp (.inr hwr), filter_ne_self (free q hq)]
  have hpx1 : h1.parent x = some p := by rw [k4, if_neg (by simpa using hxw), hpar]
  have hpw1 : h1.parent w = some p := by rw [k4, if_pos (by simp)]
  have hk1 : ∀ y, (h1.node y).kind = (h.node y).kind := fun y => (k5 y).1
  have ha1 : Accepted e h1 w x := by
    refine ⟨by rw [hk1, hw], fun h2 => hxr (by rw [← hk1]; exact h2.1), hxw.symm, fun h2 => ?_⟩
    rcases above_cases h2 hpw1 with h3 | h3
    · exact hxp h3
    · exact kept.ok.not_above_self x (.step h3 hpx1)
  have u1 : Usable e h1 D (.insert .beforeEnd w x) := ⟨kept.attached w hb haw, kept.attached x hbx hax, hDx, Nat.lt_of_lt_of_le hbx kept.size,
    Nat.lt_of_lt_of_le hb kept.size⟩
  obtain ⟨h2, r2, l1, l2, l3, l4⟩ := insert_inside kept.ok u1 ha1 (.inr rfl)
  obtain ⟨g, r2', kept2⟩ := insert_kept kept.ok (pos := .beforeEnd) (dest := [x]) (by simp) ⟨u1.1, u1.2.2.2.2⟩ ⟨u1.2.1, u1.2.2.2.1, by rw [hk1]; exact hxr⟩
    (show Welcome e h1 .beforeEnd w [x] by unfold Welcome; rw [if_pos (by simp), tagNames_same k5]; simpa using hal)
  rw [r2] at r2'; cases r2'
  have hm1 : moved h1 x = [x] := if_neg (by rw [hk1]; exact hxr)
  have hal1 : e.allow (h1.tagNames w) x = true := by rw [tagNames_same k5]; exact hal
  simp only [hm1, filter_notMem_single, List.filter_cons, hal1, if_true, List.filter_nil] at l1 l2 l3
  have hxfree : ∀ q, ¬ D q → q ≠ p → x ∉ h.kids q := fun q hq hqp hxq => hqp (ok.kid_unique hq hD hxq hxk)
  refine ⟨h1, h2, r1, r2, ?_, ?_, fun q hq hqp hqw => ?_, ?_, ?_, k5.trans l4, kept2.ok, ?_⟩
  · rw [l2 p hD hpw' (.inr (by rw [hk1]; exact hxr)), k2]
    simp only [List.filter_append, List.filter_cons, hxw.symm, ne_eq, decide_true]
    rw [filter_ne_self hxA, filter_ne_self hxB]
    simp
  · rw [l1, k3' w hDw (Ne.symm hpw'), filter_ne_self (hxfree w hDw (Ne.symm hpw'))]
  · rw [l2 q hq hqw (.inr (by rw [hk1]; exact hxr)), k3' q hq hqp, filter_ne_self (hxfree q hq hqp)]
  · rw [l3, if_neg (by simpa using hxw.symm), hpw1]
  · rw [l3, if_pos (by simp)]
  · rw [(data_insertAdjacent r2).size, (data_insertAdjacent r1).size]

/-- C91: when `w` is afterwards replaced with `x`, every list of children is as it was before, and so is every `html` and `outer_html`. -/
theorem C91_unwrap_partial (ok : HeapOk h D) {x w p : Nat} {A B : List Nat} (hD : ¬ D p) (hkp : h.kids p = A ++ x :: B) (hx : (h.node x).kind = .tag)
    (hw : (h.node w).kind = .tag) (hb : w < h.size) (hpw : h.parent w = none) (hxw : x ≠ w) (hab : ¬ Above h w x) (hal : e.allow (h.tagNames w) x = true) :
    ∃ h1 h2 h3, h.insertAdjacent e .beforeBegin x w = .ok h1 ∧ h1.insertAdjacent e .beforeEnd w x = .ok h2 ∧ replaceAll e [x] h2 [w] = .ok (h3, [x]) ∧
      (∀ q, ¬ D q → h3.kids q = h.kids q) ∧ SameData h h3 ∧ HeapOk h3 D ∧
      ∀ q < h.size, ¬ D q → innerHtml rd e h3 q = innerHtml rd e h q ∧ outerHtml rd e h3 q = outerHtml rd e h q := by
  obtain ⟨h1, h2, r1, r2, k1, k2, k3, k4, k5, k6, k7, k8⟩ := C91_wrap_partial (e := e) ok hD hkp hx hw hb hpw hxw hab hal
  have hk : ∀ y, (h2.node y).kind = (h.node y).kind := fun y => (k6 y).1
  have hxr : (h2.node x).kind ≠ .root := by rw [hk, hx]; simp
  have hDw := tag_live ok hw
  have hpw' : p ≠ w := k7.parent_ne k4 |>.symm
  have hxk : x ∈ h.kids p := by rw [hkp]; simp
  have hnd2 := k7.kids_nodup hD
  rw [k1] at hnd2
  have haw : Attached h2 D w := by
    intro q hq
    rw [k4] at hq; cases hq
    have hi : (h2.kids p)[A.length]? = some w := by rw [k1]; simp
    exact ⟨hD, by rw [(k7.link p _ w hD hi).2]; exact hi⟩
  have hax : Attached h2 D x := by
    intro q hq
    rw [k5] at hq; cases hq
    have hi : (h2.kids w)[(h.kids w).length]? = some x := by rw [k2]; simp
    exact ⟨hDw, by rw [(k7.link w _ x hDw hi).2]; exact hi⟩
  have hbx : x < h2.size := (k7.bound _ _ k5).1
  have u : Usable e h2 D (.replace w x) := ⟨haw, hax, tag_live ok hx, hbx, fun h3 => hxr h3.1, hxw.symm, fun h3 => k7.not_above_self x (.step h3 k5)⟩
  have hm : moved h2 x = [x] := if_neg hxr
  obtain ⟨h3, A', B', r3, l1, l2, l3, -, l4⟩ := replace_one k7 u k4 (by rw [hm]; simp)
  obtain ⟨g, st⟩ := replace_step k7 u
  have hg : g = h3 := by
    have := st.run
    simp only [Op.run, r3, Except.map, Except.ok.injEq] at this
    exact this.symm
  subst hg
  have ok3 : HeapOk g D := by
    have hU : (fun y => Used e h2 D y (.replace w x)) = D := by
      funext y; simp only [Used, hxr, and_false, or_false]
    exact hU ▸ st.ok
  simp only [hm, filter_notMem_single] at r3 l1 l2 l3
  have hx2 : ∀ q, ¬ D q → q ≠ w → x ∉ h2.kids q := fun q hq hqw hxq => hqw (k7.kid_unique hq hDw hxq (by rw [k2]; simp))
  rw [filter_ne_self (hx2 p hD hpw'), k1] at l1
  have hwA : w ∉ A := fun h4 => (List.nodup_append.1 hnd2).2.2 w h4 w (by simp) rfl
  have hwA' : w ∉ A' := by
    intro h4
    rw [l1] at hnd2
    exact (List.nodup_append.1 hnd2).2.2 w h4 w (by simp) rfl
  obtain ⟨rfl, rfl⟩ := append_cons_unique (t := w) hwA hwA' l1
  have hxw0 : x ∉ h.kids w := fun h4 => hpw' (ok.kid_unique hD hDw hxk h4)
  have hall : ∀ q, ¬ D q → g.kids q = h.kids q := by
    intro q hq
    by_cases hqp : q = p
    · subst hqp; rw [l2, hkp]; simp
    · rw [l3 q hq hqp (.inr hxr)]
      by_cases hqw : q = w
      · subst hqw
        rw [k2, List.filter_append, filter_ne_self hxw0]; simp
      · rw [filter_ne_self (hx2 q hq hqw), k3 q hq hqp hqw]
  have hs := k6.trans l4
  exact ⟨h1, h2, g, r1, r2, by simp [replaceAll, replaceLoop, r3], hall, hs, ok3, fun q hq hqD =>
    html_restored ok ((data_replaceWith r3).size.trans k8) hall hs hq hqD⟩

/-- C91: in the `html` of every node above `x` the HTML of `x` is replaced with that of `w`: the start tag, what was in `w` before, the HTML of `x`, and the end
tag; nothing else changes. -/
theorem C91_html_partial (ok : HeapOk h D) {x w p q : Nat} {A B : List Nat} (hD : ¬ D p) (hkp : h.kids p = A ++ x :: B) (hx : (h.node x).kind = .tag)
    (hw : (h.node w).kind = .tag) (hb : w < h.size) (hpw : h.parent w = none) (hxw : x ≠ w) (hab : ¬ Above h w x) (hal : e.allow (h.tagNames w) x = true)
    (hpl : PlainIn e h p) (hct : e.contentTag (h.node w).name = false) (hqD : ¬ D q) (hq : Within h q p) :
    ∃ h1 h2 a s o b, h.insertAdjacent e .beforeBegin x w = .ok h1 ∧ h1.insertAdjacent e .beforeEnd w x = .ok h2 ∧
      outerHtml rd e h x = .ok o ∧ innerHtml rd e h w = .ok s ∧ outerHtml rd e h2 w = .ok (startOf rd h w ++ (s ++ o) ++ endOf rd h w) ∧
      innerHtml rd e h q = .ok (a ++ o ++ b) ∧ innerHtml rd e h2 q = .ok (a ++ (startOf rd h w ++ (s ++ o) ++ endOf rd h w) ++ b) := by
  obtain ⟨h1, h2, r1, r2, k1, k2, k3, k4, k5, k6, k7, k8⟩ := C91_wrap_partial (e := e) ok hD hkp hx hw hb hpw hxw hab hal
  have hxk : x ∈ h.kids p := by rw [hkp]; simp
  have hpar := ok.kid_parent hD hxk
  obtain ⟨hbx, hbp⟩ := ok.bound _ _ hpar
  have hDw := tag_live ok hw
  have hDx := tag_live ok hx
  have hqb := within_bound ok hqD hbp hq
  have hpw' : p ≠ w := by rintro rfl; exact hab (.parent hpar)
  have hft := heapOk_finite_of ok hbx hDx
  have hfw := heapOk_finite_of ok hb hDw
  obtain ⟨o, ho⟩ := outer_total (rd := rd) (e := e) hft
  obtain ⟨s, hs⟩ := inner_total (rd := rd) (e := e) hfw (.inr hw)
  have hplw : PlainIn e h w := .inr ⟨hw, hct⟩
  have hs' := hplw.inner.1 hs
  -- nodes that are not in `w` and not above `x`
  have hnw : ∀ y, Within h q y → y ≠ w := by
    rintro y hy rfl
    cases hy with
    | self => exact (within_above ok hqD hq).elim (fun h4 => hpw' h4.symm) fun h4 => hab (.step h4 hpar)
    | step h4 h5 => exact free_of_parent_none ok hpw (within_live ok hqD h4) h5
  have hfin : ∀ c ∈ h.kids p, FiniteTree h c := fun c hc =>
    heapOk_finite_of ok (ok.bound _ _ (ok.kid_parent hD hc)).1 fun hd => ok.kid _ _ hD hc (ok.dead _ hd).1
  have hkeep : ∀ c ∈ h.kids p, SameTree h h2 c c := fun c hc => sameTree_of fun y hy =>
    ⟨SameData.text k6 y, k3 y (within_live ok hqD (hq.trans (hy.head hc))) (by rintro rfl; exact not_within_parent ok hD hc hy) (hnw y (hq.trans (hy.head hc)))⟩
  have hkeepw : ∀ c ∈ h.kids w, SameTree h h2 c c := fun c hc => sameTree_of fun y hy => by
    refine ⟨SameData.text k6 y, k3 y (within_live ok hDw (hy.head hc)) ?_ (by rintro rfl; exact not_within_parent ok hDw hc hy)⟩
    rintro rfl
    rcases within_above ok hDw (hy.head hc) with h4 | h4
    · exact hpw' h4.symm
    · exact hab (.step h4 hpar)
  obtain ⟨la, _, hla⟩ := pieces_full (rd := rd) (e := e) (l := A) (fun c hc => hfin c (by rw [hkp]; simp [hc])) false
  obtain ⟨lb, _, hlb⟩ := pieces_full (rd := rd) (e := e) (l := B) (fun c hc => hfin c (by rw [hkp]; simp [hc])) false
  have w1 : HtmlsOf rd e h false (h.kids p) (la ++ o ++ lb) := by
    rw [hkp, show A ++ x :: B = A ++ [x] ++ B by simp]; exact htmlsOf_append (htmlsOf_append hla (htmlsOf_one.2 ho)) hlb
  have hname : (h2.node w).name = (h.node w).name := (k6 w).2.1
  have how : HtmlOf rd e h2 false w (startOf rd h w ++ (s ++ o) ++ endOf rd h w) := by
    have h4 : HtmlsOf rd e h2 false (h2.kids w) (s ++ o) := by
      rw [k2]
      exact htmlsOf_append (htmlsOf_kept hs' hkeepw) (htmlsOf_kept (htmlsOf_one.2 ho) (by simpa using hkeep x hxk))
    have h5 := HtmlOf.elem (rd := rd) (e := e) (h := h2) (ct := false) (x := w) (by rw [(k6 w).1, hw]) (s := s ++ o) (by rw [hname, hct]; exact h4)
    have hbody : bodyOf rd e h2 w = [] := by simp [bodyOf, hname, hct]
    rw [hbody] at h5
    have hst : startOf rd h2 w = startOf rd h w ∧ endOf rd h2 w = endOf rd h w := by
      unfold startOf endOf
      rw [hname, (k6 w).2.2.1]
      exact ⟨rfl, rfl⟩
    rw [hst.1, hst.2] at h5
    exact h5
  have w2 : HtmlsOf rd e h2 false (h2.kids p) (la ++ (startOf rd h w ++ (s ++ o) ++ endOf rd h w) ++ lb) := by
    rw [k1, show A ++ w :: B = A ++ [w] ++ B by simp]
    exact htmlsOf_append (htmlsOf_append (htmlsOf_kept hla fun c hc => hkeep c (by rw [hkp]; simp [hc])) (htmlsOf_one.2 how))
      (htmlsOf_kept hlb fun c hc => hkeep c (by rw [hkp]; simp [hc]))
  rw [← hpl.flag] at w1 w2
  obtain ⟨a, b, i1, i2⟩ := html_context (rd := rd) (e := e) ok hqb hqD hq hpl.kind (SameData.text k6 p)
    (fun y hy hny => ⟨SameData.text k6 y, k3 y (within_live ok hqD hy) (by rintro rfl; exact hny .self) (hnw y hy)⟩) w1 w2
  have hkq : (h.node q).kind = .root ∨ (h.node q).kind = .tag := by
    by_contra hc
    have hl := ok.leaf q (fun h1 => hc (.inl h1)) fun h1 => hc (.inr h1)
    rcases within_cases hq with rfl | ⟨c, hcq, _⟩
    · exact hc hpl.kind
    · rw [hl] at hcq; cases hcq
  refine ⟨h1, h2, a ++ la, s, o, lb ++ b, r1, r2, (outerHtml_iff hft o).2 ho, (innerHtml_iff hfw (.inr hw) s).2 hs,
    (outerHtml_iff (heapOk_finite_of k7 (by rw [k8]; exact hb) hDw) _).2 how, ?_, ?_⟩
  · refine (innerHtml_iff (heapOk_finite_of ok hqb hqD) hkq _).2 ?_
    simpa [List.append_assoc] using i1
  · refine (innerHtml_iff (heapOk_finite_of k7 (by rw [k8]; exact hqb) hqD) (by rw [(k6 q).1]; exact hkq) _).2 ?_
    simpa [List.append_assoc] using i2

/-- C91 fails for every element when the new element is brought in with `replace_with` and the old one appended to it then: the element that was replaced still
has its old parent and position, so the second call takes the new element out of the document, and the old one with it. -/
theorem C91_replace_first (ok : HeapOk h D) {x w p : Nat} {A B : List Nat} (hD : ¬ D p) (hkp : h.kids p = A ++ x :: B)
    (hw : (h.node w).kind = .tag) (hb : w < h.size) (hpw : h.parent w = none) (hxw : x ≠ w) (hab : ¬ Above h w x) :
    ∃ h1, replaceAll e [w] h [x] = .ok (h1, [w]) ∧ h1.kids p = A ++ w :: B ∧
      ∀ pos t, Accepted e h1 t x → ∀ h2, h1.insertAdjacent e pos t x = .ok h2 → ∀ q, ¬ D q → w ∉ h2.kids q := by
  have hk : (h.node w).kind ≠ .root := by rw [hw]; simp
  have hp := ok.kid_parent hD (show x ∈ h.kids p by rw [hkp]; simp)
  have hi : (h.kids p)[A.length]? = some x := by rw [hkp]; simp
  have hidx : h.index x = A.length := (ok.link p _ x hD hi).2
  have ht : Attached h D x := by
    intro q hq
    rw [hp] at hq; cases hq
    exact ⟨hD, by rw [hidx]; exact hi⟩
  have haw : Attached h D w := by intro q hq; rw [hpw] at hq; cases hq
  have hkt : (h.node x).kind ≠ .root := ok.kid p x hD (by rw [hkp]; simp)
  have htake : h.takeNodes e w = .ok (h, [w]) := by
    have hf : h.isFragment e w = false := by simp [Heap.isFragment, Heap.isRoot, hk]
    simp only [Heap.takeNodes, hf, detach_none hpw]; rfl
  have hnd := ok.kids_nodup hD
  rw [hkp] at hnd
  have hfree : ∀ q, ¬ D q → w ∉ h.kids q := fun q hq => free_of_parent_none ok hpw hq
  obtain ⟨h1, t', r1, r2⟩ := replaceWith_taken htake ok ht (by simpa using hfree) (by simpa using hk) (by simpa using hb)
    (by simpa using ⟨hxw.symm, hab⟩) (by simp)
  have ht' := replaceWith_handle (fun hd : IsDoc e h w => hk hd.1) r1
  have hm : moved h w = [w] := if_neg hk
  simp only [hm] at ht'
  rw [ht'] at r1
  obtain ⟨h1', st⟩ := replace_step ok (show Usable e h D (.replace x w) from ⟨ht, haw, tag_live ok hw, hb, fun hd => hk hd.1, hxw, hab⟩)
  have hst : h1' = h1 := by
    have := st.run
    simp only [Op.run, r1, Except.map, Except.ok.injEq] at this
    exact this.symm
  subst hst
  rcases r2 with ⟨r2, -⟩ | ⟨r2, -⟩ | ⟨p', -, r3, -, -, s⟩
  · cases r2
  · rw [hp] at r2; cases r2
  rw [hp] at r3; cases r3
  rw [hidx] at s
  have hA : (h.kids p).take A.length = A := by rw [hkp]; simp
  have hB : (h.kids p).drop (A.length + 1) = B := by rw [hkp]; simp
  rw [hA, hB] at s
  have htA : x ∉ A := fun h2 => (List.nodup_append.1 hnd).2.2 x h2 x (by simp) rfl
  have htB : x ∉ B := (List.nodup_cons.1 (List.nodup_append.1 hnd).2.1).1
  have hpB : p ∉ B := fun h2 => ok.parent_ne (ok.kid_parent hD (c := p) (by rw [hkp]; simp [h2])) rfl
  have htp : x ≠ p := ok.parent_ne hp
  have hk1 : h1'.kids p = A ++ w :: B := by rw [s.new]; simp
  have hc1 : (h1'.node p).childs = some (A ++ w :: B) := by
    rw [childs_of_kid (h := h1') (p := p) (i := A.length) (c := w) (by rw [hk1]; simp), hk1]
  have ht1 : h1'.index x = A.length := by rw [s.indexOther x (by simp [htA, htB, hxw]), hidx]
  have hpt1 : h1'.parent x = some p := by rw [s.parent, if_neg (by simpa using hxw), hp]
  refine ⟨h1', by simp [replaceAll, replaceLoop, r1], hk1, fun pos t ha h2 he q hq hwq => ?_⟩
  obtain ⟨g, g1, g2, g3⟩ : ∃ g, h1'.detach x = .ok g ∧ g.kids p = A ++ B ∧ ∀ q, q ≠ p → g.kids q = h1'.kids q := by
    have her : (A ++ w :: B).eraseIdx A.length = A ++ B := by
      rw [List.eraseIdx_append_of_length_le (Nat.le_refl _)]; simp
    have hdr : (A ++ w :: B).drop (A.length + 1) = B := by simp
    simp only [Heap.detach, hpt1, Heap.removeChild, if_true, hc1, ht1, her, hdr]
    rw [if_neg (by simp [htp.symm, hpB]), if_neg (by simp)]
    split
    · exact ⟨_, rfl, by rw [setChilds_kids, if_pos rfl]; rfl, fun q hq => by rw [setChilds_kids, if_neg hq]⟩
    · rw [if_neg (by simp)]
      obtain ⟨f1, f2, f3, f4, f5, f6⟩ := resetIndex_fields B h1' A.length
      refine ⟨_, rfl, by rw [setChilds_kids, if_pos rfl]; rfl, fun q hq => ?_⟩
      rw [setChilds_kids, if_neg hq]; exact kids_of_childs (f2 q)
  have hf : h1'.isFragment e x = false := by simp [Heap.isFragment, Heap.isRoot, (s.data x).1, hkt]
  have hrun : h1'.insertAdjacent e pos t x = g.placeNodes e pos t [x] := by
    simp only [Heap.insertAdjacent, (Accepted.validate (e := e) st.ok).1 ha, Heap.takeNodes, hf, g1]
    rfl
  rw [hrun] at he
  rcases placeNodes_mem he hwq with h3 | h3
  · by_cases hqp : q = p
    · subst hqp
      rw [g2] at h3
      refine hfree q hq ?_
      rw [hkp]
      rcases List.mem_append.1 h3 with h4 | h4 <;> simp [h4]
    · rw [g3 q hqp, s.other q hqp] at h3
      exact hfree q hq h3
  · exact hxw (List.mem_singleton.1 h3).symm

end

/-! ### Examples -/

theorem spare_free {t : Nat} : ¬ Above spare 5 t := by
  intro h1
  have h2 : ∀ y, spare.parent y ≠ some 5 := by
    intro y hy
    rcases Nat.lt_or_ge y 6 with h3 | h3
    · interval_cases y <;> revert hy <;> decide
    · have : spare.node y = {} := by
        show (spareNodes[y]?).getD {} = {}
        rw [List.getElem?_eq_none (by simpa [spareNodes] using h3)]; rfl
      rw [Heap.parent, this] at hy; cases hy
  induction h1 with
  | parent h3 => exact h2 _ h3
  | step _ _ ih => exact ih

set_option maxRecDepth 100000 in
/-- The `b` of `spare` in the new `u`, and taken out again. -/
example : (∃ h1 h2, spare.insertAdjacent ext0 .beforeBegin 3 5 = .ok h1 ∧ h1.insertAdjacent ext0 .beforeEnd 5 3 = .ok h2 ∧
      h2.kids 1 = [2, 5, 4] ∧ h2.kids 5 = [3]) ∧
    ∃ h1 h2 h3, spare.insertAdjacent ext0 .beforeBegin 3 5 = .ok h1 ∧ h1.insertAdjacent ext0 .beforeEnd 5 3 = .ok h2 ∧
      replaceAll ext0 [3] h2 [5] = .ok (h3, [3]) ∧ ∀ q, h3.kids q = spare.kids q := by
  constructor
  · obtain ⟨h1, h2, r1, r2, r3, r4, -⟩ := C91_wrap_partial (e := ext0) spare_ok (x := 3) (w := 5) (p := 1) (A := [2]) (B := [4]) id (by decide) (by decide) (by decide)
      (by decide) (by decide) (by decide) spare_free (by decide)
    exact ⟨h1, h2, r1, r2, r3, by rw [r4]; decide⟩
  · obtain ⟨h1, h2, h3, r1, r2, r3, r4, -⟩ := C91_unwrap_partial (rd := rd0) (e := ext0) spare_ok (x := 3) (w := 5) (p := 1) (A := [2]) (B := [4]) id (by decide)
      (by decide) (by decide) (by decide) (by decide) (by decide) spare_free (by decide)
    exact ⟨h1, h2, h3, r1, r2, r3, fun q => r4 q id⟩

set_option maxRecDepth 100000 in
/-- The HTML of the whole document. -/
example : ∃ h1 h2 a s o b, spare.insertAdjacent ext0 .beforeBegin 3 5 = .ok h1 ∧ h1.insertAdjacent ext0 .beforeEnd 5 3 = .ok h2 ∧
    outerHtml rd0 ext0 spare 3 = .ok o ∧ innerHtml rd0 ext0 spare 5 = .ok s ∧ innerHtml rd0 ext0 spare 0 = .ok (a ++ o ++ b) ∧
    innerHtml rd0 ext0 h2 0 = .ok (a ++ (startOf rd0 spare 5 ++ (s ++ o) ++ endOf rd0 spare 5) ++ b) := by
  obtain ⟨h1, h2, a, s, o, b, r1, r2, r3, r4, -, r5, r6⟩ := C91_html_partial (rd := rd0) (e := ext0) spare_ok (x := 3) (w := 5) (p := 1) (q := 0) (A := [2]) (B := [4])
    id (by decide) (by decide) (by decide) (by decide) (by decide) (by decide) spare_free (by decide) (.inr ⟨by decide, by decide⟩) (by decide) id
    (.step .self (by decide))
  exact ⟨h1, h2, a, s, o, b, r1, r2, r3, r4, r5, r6⟩

set_option maxRecDepth 100000 in
/-- C91 does not hold in full: with `replace_with` first both elements are gone. -/
theorem C91_fails_replace : ∃ h1 h2, HeapOk spare noneUsed ∧ replaceAll ext0 [5] spare [3] = .ok (h1, [5]) ∧ h1.insertAdjacent ext0 .beforeEnd 5 3 = .ok h2 ∧
    h2.kids 1 = [2, 4] ∧ h2.kids 5 = [3] ∧ h2.parent 5 = some 1 :=
  ⟨_, _, spare_ok, rfl, rfl, by decide, by decide, by decide⟩

/-- The general theorem for the same case. -/
example : ∃ h1, replaceAll ext0 [5] spare [3] = .ok (h1, [5]) ∧ h1.kids 1 = [2, 5, 4] :=
  let ⟨h1, r1, r2, _⟩ := C91_replace_first (e := ext0) spare_ok (x := 3) (w := 5) (p := 1) (A := [2]) (B := [4]) id (by decide) (by decide) (by decide) (by decide) (by decide)
    spare_free
  ⟨h1, r1, r2⟩

end Visdom
