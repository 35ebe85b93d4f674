import Verif.Props.Wrap
import Verif.Props.Arrange
/-!
# C91: an element put around several elements
-/
namespace Visdom
open Spec

section
variable {rd : Render} {e : Ext} {h : Heap} {D : Nat → Prop}

/-- A new element `w` is inserted before `x`: nothing but the list of children of `p` changes. -/
theorem wrap_first (ok : HeapOk h D) {x w p : Nat} {A B : List Nat} (hD : ¬ D p) (hkp : h.kids p = A ++ x :: B) (hx : (h.node x).kind = .tag)
    (hw : (h.node w).kind = .tag) (hb : w < h.size) (hpw : h.parent w = none) (hxw : x ≠ w) (hab : ¬ Above h w x) :
    ∃ h1, h.insertAdjacent e .beforeBegin x w = .ok h1 ∧ h1.kids p = A ++ w :: x :: B ∧ (∀ q, ¬ D q → q ≠ p → h1.kids q = h.kids q) ∧
      (∀ y, h1.parent y = if y = w then some p else h.parent y) ∧ SameData h h1 ∧ Kept h h1 D ∧ h1.size = h.size := by
  have hxk : x ∈ h.kids p := by rw [hkp]; simp
  have hpar := ok.kid_parent hD hxk
  have hbx := (ok.bound _ _ hpar).1
  have hi : (h.kids p)[A.length]? = some x := by rw [hkp]; simp
  have hax : Attached h D x := by
    intro q hq
    rw [hpar] at hq; cases hq
    exact ⟨hD, by rw [(ok.link p _ x hD hi).2]; exact hi⟩
  have haw : Attached h D w := by intro q hq; rw [hpw] at hq; cases hq
  have hDw := tag_live ok hw
  have hwr : (h.node w).kind ≠ .root := by rw [hw]; simp
  have free : ∀ q, ¬ D q → w ∉ h.kids q := fun q hq => free_of_parent_none ok hpw hq
  have hnd := ok.kids_nodup hD
  rw [hkp] at hnd
  have u : Usable e h D (.insert .beforeBegin x w) := ⟨hax, haw, hDw, hb, hbx⟩
  have ha : Accepted e h x w := ⟨hx, fun h1 => hwr h1.1, hxw, hab⟩
  obtain ⟨h1, A', B', r1, k1, k2, k3, k4, k5⟩ := insert_beside ok u ha (by simp) hpar
  obtain ⟨g, r1', kept⟩ := insert_kept ok (pos := .beforeBegin) (dest := [w]) (by simp) ⟨hax, hbx⟩ ⟨haw, hb, hwr⟩
    (show Welcome e h .beforeBegin x [w] by unfold Welcome; rw [if_neg (by simp), hpar]; simp)
  rw [r1] at r1'; cases r1'
  have hm : moved h w = [w] := if_neg hwr
  simp only [hm, filter_notMem_single, List.cons_append, List.nil_append] at k1 k2 k3 k4
  rw [filter_ne_self (free p hD), hkp] at k1
  have hxA : x ∉ A := fun h2 => (List.nodup_append.1 hnd).2.2 x h2 x (by simp) rfl
  have hxA' : x ∉ A' := by
    intro h2
    rw [k1] at hnd
    exact (List.nodup_append.1 hnd).2.2 x h2 x (by simp) rfl
  obtain ⟨rfl, rfl⟩ := append_cons_unique (t := x) hxA hxA' k1
  rw [if_neg (by simp)] at k2
  refine ⟨h1, r1, k2, fun q hq hqp => by rw [k3 q hq hqp (.inr hwr), filter_ne_self (free q hq)], fun y => by rw [k4]; simp, k5, kept,
    (data_insertAdjacent r1).size⟩

theorem insertLoop_size {pos : InsertPosition} {t : Nat} {L : List Nat} : ∀ {h h' : Heap}, insertLoop e pos t h L = .ok h' → h'.size = h.size := by
  induction L with
  | nil => intro h h' hr; simp only [insertLoop, Except.ok.injEq] at hr; rw [hr]
  | cons n L ih =>
    intro h h' hr
    simp only [insertLoop] at hr
    split at hr
    · cases hr
    · rename_i h1 h2
      rw [ih hr, (data_insertAdjacent h2).size]

/-- **C91, several elements, the part that holds**: the new element `w` is inserted before a child `x` of `p`, then children `l` of `p` are appended to `w` one by one.
Afterwards `w` stands where `x` stood among the children that are left, the others stand in `w` in the given order, and no other list of children has changed.
Missing: as for `C91_wrap_partial`. -/
theorem C91_wrap_all_partial (ok : HeapOk h D) {x w p : Nat} {A B l : List Nat} (hD : ¬ D p) (hkp : h.kids p = A ++ x :: B) (hx : (h.node x).kind = .tag)
    (hw : (h.node w).kind = .tag) (hb : w < h.size) (hpw : h.parent w = none) (hxw : x ≠ w) (hab : ¬ Above h w x)
    (hl : l.Nodup) (hlp : ∀ n ∈ l, n ∈ h.kids p) (hal : ∀ n ∈ l, e.allow (h.tagNames w) n = true) :
    ∃ h1 h2, insertAll e .beforeBegin [w] h [x] = .ok h1 ∧ appendEach e w h1 l = .ok h2 ∧
      h2.kids p = A.filter (· ∉ l) ++ w :: (x :: B).filter (· ∉ l) ∧ h2.kids w = h.kids w ++ l ∧
      (∀ q, ¬ D q → q ≠ p → q ≠ w → h2.kids q = h.kids q) ∧ SameData h h2 ∧ HeapOk h2 D ∧ h2.size = h.size := by
  obtain ⟨h1, r1, k1, k2, k3, k4, kept, ksz⟩ := wrap_first (e := e) ok hD hkp hx hw hb hpw hxw hab
  have hpar : ∀ n ∈ l, h.parent n = some p := fun n hn => ok.kid_parent hD (hlp n hn)
  have hne : ∀ n ∈ l, n ≠ w := by
    rintro n hn rfl
    rw [hpar n hn] at hpw; cases hpw
  have hDw := tag_live ok hw
  have hpw' : p ≠ w := by
    rintro rfl
    exact hab (.parent (ok.kid_parent hD (by rw [hkp]; simp)))
  have hpw1 : h1.parent w = some p := by rw [k3, if_pos rfl]
  have hat : ∀ n ∈ l, Attached h D n := fun n hn q hq => by
    rw [hpar n hn, Option.some.injEq] at hq
    subst hq
    obtain ⟨i, hi⟩ := List.mem_iff_getElem?.1 (hlp n hn)
    rw [(ok.link p i n hD hi).2]
    exact ⟨hD, hi⟩
  have ins : Insertable e h1 D w l := by
    refine ⟨hl, ⟨kept.attached w hb (by intro q hq; rw [hpw] at hq; cases hq), Nat.lt_of_lt_of_le hb kept.size⟩, fun n hn => ?_⟩
    have hnr : (h1.node n).kind ≠ .root := by rw [(k4 n).1]; exact ok.kid p n hD (hlp n hn)
    have hbn := (ok.bound _ _ (hpar n hn)).1
    have hpn1 : h1.parent n = some p := by rw [k3, if_neg (hne n hn), hpar n hn]
    refine ⟨kept.attached n hbn (hat n hn), Nat.lt_of_lt_of_le hbn kept.size, hnr, by rw [(k4 w).1, hw], fun h2 => hnr h2.1, (hne n hn).symm, fun h2 => ?_⟩
    rcases above_cases h2 hpw1 with h3 | h3
    · exact ok.parent_ne (hpar n hn) h3
    · exact kept.ok.not_above_self n (.step h3 hpn1)
  obtain ⟨h2, s1, s2, s3, s4, s5⟩ := insertLoop_inside .beforeEnd (.inr rfl) w l h1 kept.ok ins (fun n hn => by rw [tagNames_same k4]; exact hal n hn)
  have hfree : ∀ q, ¬ D q → q ≠ p → (h.kids q).filter (· ∉ l) = h.kids q := fun q hq hqp =>
    List.filter_eq_self.2 fun c hc => by
      simp only [decide_eq_true_eq]
      exact fun hcl => hqp (ok.kid_unique hq hD hc (hlp c hcl))
  refine ⟨h1, h2, by simp only [insertAll, insertLoop, List.reverse_singleton, r1], by rw [appendEach_loop, s1], ?_, ?_, fun q hq hqp hqw => ?_,
    k4.trans s4, s5, by rw [insertLoop_size s1, ksz]⟩
  · rw [s3 p hD hpw', k1, List.filter_append, List.filter_cons, if_pos (by simpa using fun h3 => hne w h3 rfl)]
  · rw [s2, if_pos rfl, k2 w hDw hpw'.symm, hfree w hDw hpw'.symm]
  · rw [s3 q hq hqw, k2 q hq hqp, hfree q hq hqp]

theorem htmlsOf_forall₂ {ct : Bool} {l : List Nat} {o : List (List Char)} (hl : List.Forall₂ (fun x s => HtmlOf rd e h ct x s) l o) :
    HtmlsOf rd e h ct l o.flatten := by
  induction hl with
  | nil => exact .nil
  | cons h1 _ ih => exact .cons h1 ih

/-- **C91, the html of several elements**: when neighbouring children `l` of `p` are put into `w`, their html appears between the tags of `w`, behind what was in
`w`, in place of where it was, in everything `p` stands in. -/
theorem C91_html_all_partial (ok : HeapOk h D) {x w p q : Nat} {A M B : List Nat} (hD : ¬ D p) (hkp : h.kids p = A ++ ((x :: M) ++ B)) (hx : (h.node x).kind = .tag)
    (hw : (h.node w).kind = .tag) (hb : w < h.size) (hpw : h.parent w = none) (hxw : x ≠ w) (hab : ¬ Above h w x)
    (hal : ∀ n ∈ x :: M, e.allow (h.tagNames w) n = true) (hel : ∀ n ∈ x :: M, (h.node n).kind = .tag)
    (hpl : PlainIn e h p) (hct : e.contentTag (h.node w).name = false) (hqD : ¬ D q) (hq : Within h q p) :
    ∃ h1 h2 a s o b, insertAll e .beforeBegin [w] h [x] = .ok h1 ∧ appendEach e w h1 (x :: M) = .ok h2 ∧
      h2.kids p = A ++ w :: B ∧ h2.kids w = h.kids w ++ (x :: M) ∧
      outerHtmlsS rd e h (x :: M) = .ok o ∧ innerHtml rd e h w = .ok s ∧ outerHtml rd e h2 w = .ok (startOf rd h w ++ (s ++ o) ++ endOf rd h w) ∧
      innerHtml rd e h q = .ok (a ++ o ++ b) ∧ innerHtml rd e h2 q = .ok (a ++ (startOf rd h w ++ (s ++ o) ++ endOf rd h w) ++ b) := by
  have hnd := ok.kids_nodup hD
  rw [hkp] at hnd
  obtain ⟨nA, nMB, dA⟩ := List.nodup_append.1 hnd
  obtain ⟨nM, nB, dM⟩ := List.nodup_append.1 nMB
  have hlk : ∀ n ∈ x :: M, n ∈ h.kids p := fun n hn => by rw [hkp]; simp only [List.mem_append]; exact .inr (.inl hn)
  obtain ⟨h1, h2, r1, r2, k1, k2, k3, k6, k7, k8⟩ := C91_wrap_all_partial (e := e) ok hD (B := M ++ B) hkp hx hw hb hpw hxw hab nM hlk hal
  have hA : A.filter (· ∉ x :: M) = A := List.filter_eq_self.2 fun c hc => by
    simp only [decide_eq_true_eq]
    exact fun h4 => dA c hc c (List.mem_append_left _ h4) rfl
  have hMB : (x :: (M ++ B)).filter (· ∉ x :: M) = B := by
    rw [← List.cons_append, List.filter_append]
    have e1 : (x :: M).filter (· ∉ x :: M) = [] := List.filter_eq_nil_iff.2 fun c hc => by
      simp only [decide_eq_true_eq]
      exact fun h4 => h4 hc
    have e2 : B.filter (· ∉ x :: M) = B := List.filter_eq_self.2 fun c hc => by
      simp only [decide_eq_true_eq]
      exact fun h4 => dM c h4 c hc rfl
    rw [e1, e2, List.nil_append]
  rw [hA, hMB] at k1
  have hxk : x ∈ h.kids p := hlk x (by simp)
  have hpar := ok.kid_parent hD hxk
  obtain ⟨hbx, hbp⟩ := ok.bound _ _ hpar
  have hDw := tag_live ok hw
  have hqb := within_bound ok hqD hbp hq
  have hpw' : p ≠ w := by rintro rfl; exact hab (.parent hpar)
  have hfw := heapOk_finite_of ok hb hDw
  obtain ⟨s, hs⟩ := inner_total (rd := rd) (e := e) hfw (.inr hw)
  have hplw : PlainIn e h w := .inr ⟨hw, hct⟩
  have hs' := hplw.inner.1 hs
  have hnw : ∀ y, Within h q y → y ≠ w := by
    rintro y hy rfl
    cases hy with
    | self => exact (within_above ok hqD hq).elim (fun h4 => hpw' h4.symm) fun h4 => hab (.step h4 hpar)
    | step h4 h5 => exact free_of_parent_none ok hpw (within_live ok hqD h4) h5
  have hfin : ∀ c ∈ h.kids p, FiniteTree h c := fun c hc =>
    heapOk_finite_of ok (ok.bound _ _ (ok.kid_parent hD hc)).1 fun hd => ok.kid _ _ hD hc (ok.dead _ hd).1
  have hkeep : ∀ c ∈ h.kids p, SameTree h h2 c c := fun c hc => sameTree_of fun y hy =>
    ⟨SameData.text k6 y, k3 y (within_live ok hqD (hq.trans (hy.head hc))) (by rintro rfl; exact not_within_parent ok hD hc hy) (hnw y (hq.trans (hy.head hc)))⟩
  have hkeepw : ∀ c ∈ h.kids w, SameTree h h2 c c := fun c hc => sameTree_of fun y hy => by
    refine ⟨SameData.text k6 y, k3 y (within_live ok hDw (hy.head hc)) ?_ (by rintro rfl; exact not_within_parent ok hDw hc hy)⟩
    rintro rfl
    rcases within_above ok hDw (hy.head hc) with h4 | h4
    · exact hpw' h4.symm
    · exact hab (.step h4 hpar)
  obtain ⟨la, _, hla⟩ := pieces_full (rd := rd) (e := e) (l := A) (fun c hc => hfin c (by rw [hkp]; simp [hc])) false
  obtain ⟨lb, _, hlb⟩ := pieces_full (rd := rd) (e := e) (l := B) (fun c hc => hfin c (by rw [hkp]; simp [hc])) false
  obtain ⟨_, outs, _, f2, _, o2, _⟩ := C72_sets (rd := rd) (e := e) (h := h) (S := x :: M) fun c hc => ⟨hfin c (hlk c hc), .inr (hel c hc)⟩
  have ho : HtmlsOf rd e h false (x :: M) outs.flatten := by
    exact htmlsOf_forall₂ f2
  have w1 : HtmlsOf rd e h false (h.kids p) (la ++ outs.flatten ++ lb) := by
    rw [hkp, ← List.append_assoc]; exact htmlsOf_append (htmlsOf_append hla ho) hlb
  have hname : (h2.node w).name = (h.node w).name := (k6 w).2.1
  have how : HtmlOf rd e h2 false w (startOf rd h w ++ (s ++ outs.flatten) ++ endOf rd h w) := by
    have h4 : HtmlsOf rd e h2 false (h2.kids w) (s ++ outs.flatten) := by
      rw [k2]
      exact htmlsOf_append (htmlsOf_kept hs' hkeepw) (htmlsOf_kept ho fun c hc => hkeep c (hlk c hc))
    have h5 := HtmlOf.elem (rd := rd) (e := e) (h := h2) (ct := false) (x := w) (by rw [(k6 w).1, hw]) (s := s ++ outs.flatten) (by rw [hname, hct]; exact h4)
    have hbody : bodyOf rd e h2 w = [] := by simp [bodyOf, hname, hct]
    rw [hbody] at h5
    have hst : startOf rd h2 w = startOf rd h w ∧ endOf rd h2 w = endOf rd h w := by
      unfold startOf endOf
      rw [hname, (k6 w).2.2.1]
      exact ⟨rfl, rfl⟩
    rw [hst.1, hst.2] at h5
    exact h5
  have w2 : HtmlsOf rd e h2 false (h2.kids p) (la ++ (startOf rd h w ++ (s ++ outs.flatten) ++ endOf rd h w) ++ lb) := by
    rw [k1, show A ++ w :: B = A ++ [w] ++ B by simp]
    exact htmlsOf_append (htmlsOf_append (htmlsOf_kept hla fun c hc => hkeep c (by rw [hkp]; simp [hc])) (htmlsOf_one.2 how))
      (htmlsOf_kept hlb fun c hc => hkeep c (by rw [hkp]; simp [hc]))
  rw [← hpl.flag] at w1 w2
  obtain ⟨a, b, i1, i2⟩ := html_context (rd := rd) (e := e) ok hqb hqD hq hpl.kind (SameData.text k6 p)
    (fun y hy hny => ⟨SameData.text k6 y, k3 y (within_live ok hqD hy) (by rintro rfl; exact hny .self) (hnw y hy)⟩) w1 w2
  have hkq : (h.node q).kind = .root ∨ (h.node q).kind = .tag := by
    by_contra hc
    have hl := ok.leaf q (fun h1 => hc (.inl h1)) fun h1 => hc (.inr h1)
    rcases within_cases hq with rfl | ⟨c, hcq, _⟩
    · exact hc hpl.kind
    · rw [hl] at hcq; cases hcq
  refine ⟨h1, h2, a ++ la, s, outs.flatten, lb ++ b, r1, r2, k1, k2, o2, (innerHtml_iff hfw (.inr hw) s).2 hs,
    (outerHtml_iff (heapOk_finite_of k7 (by rw [k8]; exact hb) hDw) _).2 how, ?_, ?_⟩
  · refine (innerHtml_iff (heapOk_finite_of ok hqb hqD) hkq _).2 ?_
    simpa [List.append_assoc] using i1
  · refine (innerHtml_iff (heapOk_finite_of k7 (by rw [k8]; exact hqb) hqD) (by rw [(k6 q).1]; exact hkq) _).2 ?_
    simpa [List.append_assoc] using i2

end

/-! ## The hypotheses are satisfiable -/

/-- `<div><p/><b/><i/></div>` and a new `u`: put around the first and the third child, in reverse order. -/
example : ∃ h1 h2, insertAll ext0 .beforeBegin [5] spare [2] = .ok h1 ∧ appendEach ext0 5 h1 [4, 2] = .ok h2 ∧ h2.kids 1 = [5, 3] ∧ h2.kids 5 = [4, 2] := by
  obtain ⟨h1, h2, r1, r2, k1, k2, -⟩ := C91_wrap_all_partial (e := ext0) spare_ok (x := 2) (w := 5) (p := 1) (A := []) (B := [3, 4]) (l := [4, 2]) id (by decide)
    (by decide) (by decide) (by decide) (by decide) (by decide) spare_free (by decide) (by decide) (by decide)
  exact ⟨h1, h2, r1, r2, k1.trans (by decide), k2.trans (by decide)⟩

set_option maxRecDepth 100000 in
/-- Around the second and the third: `<div><p></p><u><b></b><i></i></u></div>`. -/
example : ∃ h1 h2 a o b, insertAll ext0 .beforeBegin [5] spare [3] = .ok h1 ∧ appendEach ext0 5 h1 [3, 4] = .ok h2 ∧ h2.kids 1 = [2, 5] ∧
    outerHtmlsS rd0 ext0 spare [3, 4] = .ok o ∧ innerHtml rd0 ext0 spare 0 = .ok (a ++ o ++ b) ∧
    innerHtml rd0 ext0 h2 0 = .ok (a ++ ("<u>".toList ++ o ++ "</u>".toList) ++ b) := by
  obtain ⟨h1, h2, a, s, o, b, r1, r2, r3, -, r4, r5, -, r6, r7⟩ := C91_html_all_partial (rd := rd0) (e := ext0) spare_ok (x := 3) (w := 5) (p := 1) (q := 0) (A := [2])
    (M := [4]) (B := []) id (by decide) (by decide) (by decide) (by decide) (by decide) (by decide) spare_free (by decide) (by decide) (.inr ⟨by decide, by decide⟩)
    (by decide) id (.step .self (by decide))
  have hs : s = [] := by
    have h3 : innerHtml rd0 ext0 spare 5 = .ok [] := rfl
    rw [h3, Except.ok.injEq] at r5
    exact r5.symm
  subst hs
  exact ⟨h1, h2, a, o, b, r1, r2, r3, r4, r6, r7⟩

end Visdom
