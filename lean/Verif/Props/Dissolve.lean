import Verif.Props.WrapAll
import Verif.Props.Exchange
import Verif.Props.History
/-!
# C100: an element gives way to its children
-/
namespace Visdom
open Spec

section
variable {rd : Render} {e : Ext} {h : Heap} {D : Nat → Prop}

/-- The element children can be inserted beside their parent. -/
theorem children_insertable (ok : HeapOk h D) {x : Nat} (hx : (h.node x).kind = .tag) (ha : Attached h D x ∧ x < h.size) :
    Insertable e h D x (h.children x) := by
  have hD := tag_live ok hx
  refine ⟨(ok.kids_nodup hD).filter _, ha, fun n hn => ?_⟩
  have hk : n ∈ h.kids x := (List.mem_filter.1 hn).1
  have hpar := ok.kid_parent hD hk
  have hnr := ok.kid x n hD hk
  exact ⟨attached_kid ok hD hk, (ok.bound n x hpar).1, hnr, hx, fun hd => hnr hd.1, ok.parent_ne hpar |>.symm, fun hab => ok.not_above_self n (.step hab hpar)⟩

/-- **C100**: the children of an element `x` are inserted after it in one call, then `x` is removed. The element children stand in their order where `x` stood; texts and
comments stay in `x`; no other list of children changes. -/
theorem C100_dissolve (ok : HeapOk h D) {x p : Nat} {A B : List Nat} (hD : ¬ D p) (hkp : h.kids p = A ++ x :: B) (hx : (h.node x).kind = .tag) :
    ∃ h1 h2, insertAll e .afterEnd (h.children x) h [x] = .ok h1 ∧ removeAll h1 [x] = .ok h2 ∧ h2.kids p = A ++ (h.children x ++ B) ∧
      h2.kids x = (h.kids x).filter (fun c => !h.isElem c) ∧ (∀ q, ¬ D q → q ≠ p → q ≠ x → h2.kids q = h.kids q) ∧
      SameData h h2 ∧ HeapOk h2 D ∧ h2.size = h.size := by
  have hxk : x ∈ h.kids p := by rw [hkp]; simp
  have hpar := ok.kid_parent hD hxk
  have hbx := (ok.bound _ _ hpar).1
  have hax := attached_kid ok hD hxk
  have hDx := tag_live ok hx
  have hxp : x ≠ p := ok.parent_ne hpar
  have ins := children_insertable (e := e) ok hx ⟨hax, hbx⟩
  obtain ⟨h1, A', B', s1, s2, s3, s4, s5, s6⟩ := insertLoop_beside .afterEnd (.inr rfl) x p (h.children x).reverse h ok ins.reverse hpar
  rw [filter_reverse_mem] at s2
  rw [if_pos rfl, List.reverse_reverse] at s3
  have hfree : ∀ q, ¬ D q → q ≠ x → (h.kids q).filter (· ∉ h.children x) = h.kids q := fun q hq hqx => List.filter_eq_self.2 fun c hc => by
    simp only [decide_eq_true_eq]
    exact fun h3 => hqx (ok.kid_unique hq hDx hc (List.mem_filter.1 h3).1)
  rw [hfree p hD hxp.symm, hkp] at s2
  have hnd := ok.kids_nodup hD
  rw [hkp] at hnd
  have hxA : x ∉ A := fun h3 => (List.nodup_append.1 hnd).2.2 x h3 x (by simp) rfl
  have hxA' : x ∉ A' := fun h3 => by
    rw [s2] at hnd
    exact (List.nodup_append.1 hnd).2.2 x h3 x (by simp) rfl
  obtain ⟨rfl, rfl⟩ := append_cons_unique (t := x) hxA hxA' s2
  have hxk1 : x ∈ h1.kids p := by rw [s3]; simp
  obtain ⟨h2, r1, r2, r3, r4, r5⟩ := removeAll_ok [x] h1 s6 (by simpa using attached_kid s6 hD hxk1) (by simp)
  have hnd1 := s6.kids_nodup hD
  rw [s3] at hnd1
  have hxB : x ∉ h.children x ++ B := (List.nodup_cons.1 (List.nodup_append.1 hnd1).2.1).1
  have hsing : ∀ q, ¬ D q → h2.kids q = (h1.kids q).filter (· ≠ x) := fun q hq => by rw [r2 q hq, filter_notMem_single]
  refine ⟨h1, h2, by simp only [insertAll, s1], r1, ?_, ?_, fun q hq hqp hqx => ?_, s5.trans r3, r4, ?_⟩
  · rw [hsing p hD, s3, List.filter_append, List.filter_cons, if_neg (by simp), filter_ne_self hxA, filter_ne_self hxB]
  · have hx1 : x ∉ h1.kids x := fun h3 => s6.parent_ne (s6.kid_parent hDx h3) rfl
    rw [hsing x hDx, filter_ne_self hx1, s4 x hDx hxp, filter_reverse_mem]
    refine List.filter_congr fun c hc => ?_
    by_cases he : h.isElem c = true <;> simp [Heap.children, hc, he]
  · have hx1 : x ∉ h1.kids q := fun h3 => hqp (s6.kid_unique hq hD h3 hxk1)
    rw [hsing q hq, filter_ne_self hx1, s4 q hq hqp, filter_reverse_mem, hfree q hq hqx]
  · rw [r5, insertLoop_size s1]

/-- **C100, the html**: when the children of `x` are all elements, its tags disappear from the html of everything above, and what is written between them stays. -/
theorem C100_html (ok : HeapOk h D) {x p q : Nat} {A B : List Nat} (hD : ¬ D p) (hkp : h.kids p = A ++ x :: B) (hx : (h.node x).kind = .tag)
    (hall : ∀ c ∈ h.kids x, h.isElem c = true) (hpl : PlainIn e h p) (hct : e.contentTag (h.node x).name = false) (hqD : ¬ D q) (hq : Within h q p) :
    ∃ h1 h2 a s b, insertAll e .afterEnd (h.children x) h [x] = .ok h1 ∧ removeAll h1 [x] = .ok h2 ∧ innerHtml rd e h x = .ok s ∧
      innerHtml rd e h q = .ok (a ++ (startOf rd h x ++ s ++ endOf rd h x) ++ b) ∧ innerHtml rd e h2 q = .ok (a ++ s ++ b) := by
  obtain ⟨h1, h2, r1, r2, k1, -, k3, k6, k7, k8⟩ := C100_dissolve (e := e) ok hD hkp hx
  have hch : h.children x = h.kids x := List.filter_eq_self.2 hall
  rw [hch] at k1
  have hxk : x ∈ h.kids p := by rw [hkp]; simp
  have hpar := ok.kid_parent hD hxk
  obtain ⟨hbx, hbp⟩ := ok.bound _ _ hpar
  have hDx := tag_live ok hx
  have hqb := within_bound ok hqD hbp hq
  have hxp : x ≠ p := ok.parent_ne hpar
  have hfx := heapOk_finite_of ok hbx hDx
  have hplx : PlainIn e h x := .inr ⟨hx, hct⟩
  obtain ⟨s, hs⟩ := inner_total (rd := rd) (e := e) hfx (.inr hx)
  have hs' := hplx.inner.1 hs
  have hfin : ∀ c ∈ h.kids p, FiniteTree h c := fun c hc =>
    heapOk_finite_of ok (ok.bound _ _ (ok.kid_parent hD hc)).1 fun hd => ok.kid _ _ hD hc (ok.dead _ hd).1
  -- the subtrees beside `x` and in `x` are as before
  have hkeep : ∀ c ∈ h.kids p, c ≠ x → SameTree h h2 c c := fun c hc hcx => sameTree_of fun y hy => by
    have hcD : ¬ D c := fun hd => ok.kid _ _ hD hc (ok.dead _ hd).1
    refine ⟨SameData.text k6 y, k3 y (within_live ok hcD hy) (by rintro rfl; exact not_within_parent ok hD hc hy) ?_⟩
    rintro rfl
    rcases within_above ok hcD hy with h4 | h4
    · exact hcx h4
    · rcases above_cases h4 hpar with h5 | h5
      · exact ok.parent_ne (ok.kid_parent hD hc) h5
      · exact ok.not_above_self c (.step h5 (ok.kid_parent hD hc))
  have hkeepx : ∀ c ∈ h.kids x, SameTree h h2 c c := fun c hc => sameTree_of fun y hy => by
    have hcD : ¬ D c := fun hd => ok.kid _ _ hDx hc (ok.dead _ hd).1
    refine ⟨SameData.text k6 y, k3 y (within_live ok hcD hy) ?_ (by rintro rfl; exact not_within_parent ok hDx hc hy)⟩
    rintro rfl
    have hcx := ok.kid_parent hDx hc
    rcases within_above ok hcD hy with h4 | h4
    · subst h4; exact ok.not_above_self c (.step (.parent hpar) hcx)
    · exact ok.not_above_self c (.step (.step h4 hpar) hcx)
  have hnd := ok.kids_nodup hD
  rw [hkp] at hnd
  have hxA : x ∉ A := fun h3 => (List.nodup_append.1 hnd).2.2 x h3 x (by simp) rfl
  have hxB : x ∉ B := (List.nodup_cons.1 (List.nodup_append.1 hnd).2.1).1
  obtain ⟨la, _, hla⟩ := pieces_full (rd := rd) (e := e) (l := A) (fun c hc => hfin c (by rw [hkp]; simp [hc])) false
  obtain ⟨lb, _, hlb⟩ := pieces_full (rd := rd) (e := e) (l := B) (fun c hc => hfin c (by rw [hkp]; simp [hc])) false
  have hox : HtmlOf rd e h false x (startOf rd h x ++ s ++ endOf rd h x) := by
    have h5 := HtmlOf.elem (rd := rd) (e := e) (h := h) (ct := false) (x := x) hx (s := s) (by rw [hct]; exact hs')
    have hbody : bodyOf rd e h x = [] := by simp [bodyOf, hct]
    rwa [hbody, List.nil_append] at h5
  have w1 : HtmlsOf rd e h false (h.kids p) (la ++ ((startOf rd h x ++ s ++ endOf rd h x) ++ lb)) := by
    rw [hkp]; exact htmlsOf_append hla (.cons hox hlb)
  have w2 : HtmlsOf rd e h2 false (h2.kids p) (la ++ (s ++ lb)) := by
    rw [k1]
    exact htmlsOf_append (htmlsOf_kept hla fun c hc => hkeep c (by rw [hkp]; simp [hc]) (by rintro rfl; exact hxA hc))
      (htmlsOf_append (htmlsOf_kept hs' hkeepx) (htmlsOf_kept hlb fun c hc => hkeep c (by rw [hkp]; simp [hc]) (by rintro rfl; exact hxB hc)))
  rw [← hpl.flag] at w1 w2
  obtain ⟨a, b, i1, i2⟩ := html_context (rd := rd) (e := e) ok hqb hqD hq hpl.kind (SameData.text k6 p)
    (fun y hy hny => ⟨SameData.text k6 y, k3 y (within_live ok hqD hy) (by rintro rfl; exact hny .self)
      (by rintro rfl; exact hny (.step .self hxk))⟩) w1 w2
  have hkq : (h.node q).kind = .root ∨ (h.node q).kind = .tag := by
    by_contra hc
    have hl := ok.leaf q (fun h1 => hc (.inl h1)) fun h1 => hc (.inr h1)
    rcases within_cases hq with rfl | ⟨c, hcq, _⟩
    · exact hc hpl.kind
    · rw [hl] at hcq; cases hcq
  refine ⟨h1, h2, a ++ la, s, lb ++ b, r1, r2, (innerHtml_iff hfx (.inr hx) s).2 hs, ?_, ?_⟩
  · refine (innerHtml_iff (heapOk_finite_of ok hqb hqD) hkq _).2 ?_
    simpa [List.append_assoc] using i1
  · refine (innerHtml_iff (heapOk_finite_of k7 (by rw [k8]; exact hqb) hqD) (by rw [(k6 q).1]; exact hkq) _).2 ?_
    simpa [List.append_assoc] using i2

/-- **C100, the way back of C91**: neighbouring elements that were put into a new empty element `w` come out again when `w` gives way to its children: every list of
children and all html is as before. -/
theorem C100_unwrap (ok : HeapOk h D) {x w p : Nat} {A M B : List Nat} (hD : ¬ D p) (hkp : h.kids p = A ++ ((x :: M) ++ B))
    (hw : (h.node w).kind = .tag) (hb : w < h.size) (hpw : h.parent w = none) (hxw : x ≠ w) (hab : ¬ Above h w x) (hwe : h.kids w = [])
    (hal : ∀ n ∈ x :: M, e.allow (h.tagNames w) n = true) (hel : ∀ n ∈ x :: M, (h.node n).kind = .tag) :
    ∃ h1 h2 h3 h4, insertAll e .beforeBegin [w] h [x] = .ok h1 ∧ appendEach e w h1 (x :: M) = .ok h2 ∧
      insertAll e .afterEnd (h2.children w) h2 [w] = .ok h3 ∧ removeAll h3 [w] = .ok h4 ∧ h2.kids p = A ++ w :: B ∧ h2.children w = x :: M ∧
      (∀ q, ¬ D q → h4.kids q = h.kids q) ∧ SameData h h4 ∧ HeapOk h4 D ∧
      ∀ q < h.size, ¬ D q → innerHtml rd e h4 q = innerHtml rd e h q ∧ outerHtml rd e h4 q = outerHtml rd e h q := by
  have hnd := ok.kids_nodup hD
  rw [hkp] at hnd
  obtain ⟨nA, nMB, dA⟩ := List.nodup_append.1 hnd
  obtain ⟨nM, nB, dM⟩ := List.nodup_append.1 nMB
  have hlk : ∀ n ∈ x :: M, n ∈ h.kids p := fun n hn => by rw [hkp]; simp only [List.mem_append]; exact .inr (.inl hn)
  obtain ⟨h1, h2, r1, r2, k1, k2, k3, k6, k7, k8⟩ := C91_wrap_all_partial (e := e) ok hD (B := M ++ B) hkp (hel x (by simp)) hw hb hpw hxw hab nM hlk hal
  have hA : A.filter (· ∉ x :: M) = A := List.filter_eq_self.2 fun c hc => by
    simp only [decide_eq_true_eq]
    exact fun h4 => dA c hc c (List.mem_append_left _ h4) rfl
  have hMB : (x :: (M ++ B)).filter (· ∉ x :: M) = B := by
    rw [← List.cons_append, List.filter_append]
    have e1 : (x :: M).filter (· ∉ x :: M) = [] := List.filter_eq_nil_iff.2 fun c hc => by
      simp only [decide_eq_true_eq]
      exact fun h4 => h4 hc
    have e2 : B.filter (· ∉ x :: M) = B := List.filter_eq_self.2 fun c hc => by
      simp only [decide_eq_true_eq]
      exact fun h4 => dM c h4 c hc rfl
    rw [e1, e2, List.nil_append]
  rw [hA, hMB] at k1
  rw [hwe, List.nil_append] at k2
  have hch : h2.children w = x :: M := by
    unfold Heap.children
    rw [k2]
    exact List.filter_eq_self.2 fun c hc => by simp [Heap.isElem, (k6 c).1, hel c hc]
  obtain ⟨h3, h4, s1, s2, l1, l2, l3, l4, l5, l6⟩ := C100_dissolve (e := e) k7 (x := w) hD k1 (by rw [(k6 w).1, hw])
  have hpw' : p ≠ w := by
    rintro rfl
    exact hab (.parent (ok.kid_parent hD (hlk x (by simp))))
  have hall : ∀ q, ¬ D q → h4.kids q = h.kids q := by
    intro q hq
    by_cases hqp : q = p
    · subst hqp; rw [l1, hch, hkp]
    · by_cases hqw : q = w
      · subst hqw
        rw [l2, hwe, k2]
        exact List.filter_eq_nil_iff.2 fun c hc => by simp [Heap.isElem, (k6 c).1, hel c hc]
      · rw [l3 q hq hqp hqw, k3 q hq hqp hqw]
  exact ⟨h1, h2, h3, h4, r1, r2, s1, s2, k1, hch, hall, k6.trans l4, l5, fun q hq hqD => html_restored ok (l6.trans k8) hall (k6.trans l4) hq hqD⟩

end

/-! ## The hypotheses are satisfiable -/

/-- `<div><p/>x<ul><li/><li/></ul></div>`: the `ul` gives way to its items; then the `div`, whose text is lost. -/
example : (∃ h1 h2, insertAll ext0 .afterEnd [5, 6] places [4] = .ok h1 ∧ removeAll h1 [4] = .ok h2 ∧ h2.kids 1 = [2, 3, 5, 6]) ∧
    ∃ h1 h2, insertAll ext0 .afterEnd [2, 4] places [1] = .ok h1 ∧ removeAll h1 [1] = .ok h2 ∧ h2.kids 0 = [2, 4] ∧ h2.kids 1 = [3] := by
  constructor
  · obtain ⟨h1, h2, r1, r2, k1, -⟩ := C100_dissolve (e := ext0) places_ok (x := 4) (p := 1) (A := [2, 3]) (B := []) id (by decide) (by decide)
    exact ⟨h1, h2, r1, r2, k1⟩
  · obtain ⟨h1, h2, r1, r2, k1, k2, -⟩ := C100_dissolve (e := ext0) places_ok (x := 1) (p := 0) (A := []) (B := []) id (by decide) (by decide)
    exact ⟨h1, h2, r1, r2, k1, k2.trans (by decide)⟩

set_option maxRecDepth 100000 in
example : ∃ h1 h2 a b, insertAll ext0 .afterEnd [5, 6] places [4] = .ok h1 ∧ removeAll h1 [4] = .ok h2 ∧
    innerHtml rd0 ext0 places 0 = .ok (a ++ ("<ul>".toList ++ "<li></li><li></li>".toList ++ "</ul>".toList) ++ b) ∧
    innerHtml rd0 ext0 h2 0 = .ok (a ++ "<li></li><li></li>".toList ++ b) := by
  obtain ⟨h1, h2, a, s, b, r1, r2, k1, k2, k3⟩ := C100_html (rd := rd0) (e := ext0) places_ok (x := 4) (p := 1) (q := 0) (A := [2, 3]) (B := []) id (by decide) (by decide)
    (by decide) (.inr ⟨by decide, by decide⟩) (by decide) id (.step .self (by decide))
  have e1 : innerHtml rd0 ext0 places 4 = .ok "<li></li><li></li>".toList := by decide
  rw [e1, Except.ok.injEq] at k1
  subst k1
  exact ⟨h1, h2, a, b, r1, r2, k2, k3⟩

example : ∃ h1 h2 h3 h4, insertAll ext0 .beforeBegin [5] spare [3] = .ok h1 ∧ appendEach ext0 5 h1 [3, 4] = .ok h2 ∧
    insertAll ext0 .afterEnd (h2.children 5) h2 [5] = .ok h3 ∧ removeAll h3 [5] = .ok h4 ∧ h2.kids 1 = [2, 5] ∧ h4.kids 1 = [2, 3, 4] := by
  obtain ⟨h1, h2, h3, h4, r1, r2, r3, r4, k1, -, k2, -⟩ := C100_unwrap (rd := rd0) (e := ext0) spare_ok (x := 3) (w := 5) (p := 1) (A := [2]) (M := [4]) (B := []) id
    (by decide) (by decide) (by decide) (by decide) (by decide) spare_free (by decide) (by decide) (by decide)
  exact ⟨h1, h2, h3, h4, r1, r2, r3, r4, k1, (k2 1 id).trans (by decide)⟩

end Visdom
