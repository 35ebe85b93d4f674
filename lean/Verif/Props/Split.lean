import Verif.Props.Dissolve
/-!
# C101: an element is divided in two, and two elements are joined
-/
namespace Visdom
open Spec

section
variable {rd : Render} {e : Ext} {h : Heap} {D : Nat → Prop}

/-- A new element is put behind `x`. -/
theorem behind_first (ok : HeapOk h D) {x w p : Nat} {A B : List Nat} (hD : ¬ D p) (hkp : h.kids p = A ++ x :: B) (hx : (h.node x).kind = .tag)
    (hw : (h.node w).kind = .tag) (hb : w < h.size) (hpw : h.parent w = none) (hxw : x ≠ w) (hab : ¬ Above h w x) :
    ∃ h1, insertAll e .afterEnd [w] h [x] = .ok h1 ∧ h1.kids p = A ++ x :: w :: B ∧ (∀ q, ¬ D q → q ≠ p → h1.kids q = h.kids q) ∧
      SameData h h1 ∧ HeapOk h1 D ∧ h1.size = h.size := by
  have hxk : x ∈ h.kids p := by rw [hkp]; simp
  have hpar := ok.kid_parent hD hxk
  have hnr : (h.node w).kind ≠ .root := by rw [hw]; decide
  have ins : Insertable e h D x [w] := ⟨by simp, ⟨attached_kid ok hD hxk, (ok.bound _ _ hpar).1⟩, fun n hn => by
    rw [List.mem_singleton] at hn
    subst hn
    exact ⟨fun q hq => by rw [hpw] at hq; (cases hq), hb, hnr, hx, fun hd => hnr hd.1, hxw, hab⟩⟩
  obtain ⟨h1, A', B', s1, s2, s3, s4, s5, s6⟩ := insertLoop_beside .afterEnd (.inr rfl) x p [w] h ok ins hpar
  have hfree : ∀ q, ¬ D q → (h.kids q).filter (· ∉ [w]) = h.kids q := fun q hq => List.filter_eq_self.2 fun c hc => by
    simp only [decide_eq_true_eq, List.mem_singleton]
    rintro rfl
    rw [ok.kid_parent hq hc] at hpw; cases hpw
  rw [hfree p hD, hkp] at s2
  rw [if_pos rfl] at s3
  have hnd := ok.kids_nodup hD
  rw [hkp] at hnd
  have hxA : x ∉ A := fun h3 => (List.nodup_append.1 hnd).2.2 x h3 x (by simp) rfl
  have hxA' : x ∉ A' := fun h3 => by
    rw [s2] at hnd
    exact (List.nodup_append.1 hnd).2.2 x h3 x (by simp) rfl
  obtain ⟨rfl, rfl⟩ := append_cons_unique (t := x) hxA hxA' s2
  exact ⟨h1, by simp only [insertAll, List.reverse_singleton, s1], by simpa using s3, fun q hq hqp => by rw [s4 q hq hqp, hfree q hq], s5, s6, insertLoop_size s1⟩

/-- **C101**: a new element `w` is put behind `x`, and the children of `x` from some place on are prepended to `w` in one call: `x` keeps the children in front,
`w` has the others in their order, and no other list changes. -/
theorem C101_split (ok : HeapOk h D) {x w p : Nat} {A B L M : List Nat} (hD : ¬ D p) (hkp : h.kids p = A ++ x :: B) (hx : (h.node x).kind = .tag)
    (hw : (h.node w).kind = .tag) (hb : w < h.size) (hpw : h.parent w = none) (hxw : x ≠ w) (hab : ¬ Above h w x)
    (hkx : h.kids x = L ++ M) (hal : ∀ n ∈ M, e.allow (h.tagNames w) n = true) :
    ∃ h1 h2, insertAll e .afterEnd [w] h [x] = .ok h1 ∧ insertAll e .afterBegin M h1 [w] = .ok h2 ∧ h2.kids p = A ++ x :: w :: B ∧
      h2.kids x = L ∧ h2.kids w = M ++ h.kids w ∧ (∀ q, ¬ D q → q ≠ p → q ≠ x → q ≠ w → h2.kids q = h.kids q) ∧
      SameData h h2 ∧ HeapOk h2 D ∧ h2.size = h.size := by
  obtain ⟨h1, r1, k1, k2, k3, k4, k5⟩ := behind_first (e := e) ok hD hkp hx hw hb hpw hxw hab
  have hxk : x ∈ h.kids p := by rw [hkp]; simp
  have hxp : x ≠ p := ok.parent_ne (ok.kid_parent hD hxk)
  have hwp : w ≠ p := by
    rintro rfl
    exact hab (.parent (ok.kid_parent hD hxk))
  have hDx := tag_live ok hx
  have hDw := tag_live ok hw
  have hx1 : h1.kids x = L ++ M := (k2 x hDx hxp).trans hkx
  have hwk1 : w ∈ h1.kids p := by rw [k1]; simp
  have hxk1 : x ∈ h1.kids p := by rw [k1]; simp
  have hw1 := k4.kid_parent hD hwk1
  have hxpar1 := k4.kid_parent hD hxk1
  have hMx : ∀ n ∈ M, n ∈ h1.kids x := fun n hn => by rw [hx1]; simp [hn]
  have hnd := k4.kids_nodup hDx
  rw [hx1] at hnd
  obtain ⟨nL, nM, dLM⟩ := List.nodup_append.1 hnd
  have ins : Insertable e h1 D w M := ⟨nM, ⟨attached_kid k4 hD hwk1, by rw [k5]; exact hb⟩, fun n hn => by
    have hpn := k4.kid_parent hDx (hMx n hn)
    have hnr := k4.kid x n hDx (hMx n hn)
    refine ⟨attached_kid k4 hDx (hMx n hn), (k4.bound n x hpn).1, hnr, (k3 w).1.trans hw, fun hd => hnr hd.1, ?_, fun ha => ?_⟩
    · rintro rfl
      rw [hw1] at hpn; cases hpn; exact hxp rfl
    · rcases above_cases ha hw1 with rfl | h5
      · exact k4.not_above_self n (.step (.parent hxpar1) hpn)
      · exact k4.not_above_self n (.step (.step h5 hxpar1) hpn)⟩
  obtain ⟨h2, s1, s2, s3, s4, s5⟩ := insertLoop_inside (e := e) .afterBegin (.inl rfl) w M.reverse h1 k4 ins.reverse
    (fun n hn => by rw [tagNames_same k3]; exact hal n (List.mem_reverse.1 hn))
  rw [if_neg (by decide), List.reverse_reverse, filter_reverse_mem] at s2
  have hfree : ∀ q, ¬ D q → q ≠ x → (h1.kids q).filter (· ∉ M) = h1.kids q := fun q hq hqx => List.filter_eq_self.2 fun c hc => by
    simp only [decide_eq_true_eq]
    exact fun h3 => hqx (k4.kid_unique hq hDx hc (hMx c h3))
  refine ⟨h1, h2, r1, by simp only [insertAll, s1], ?_, ?_, ?_, fun q hq hqp hqx hqw => ?_, k3.trans s4, s5, (insertLoop_size s1).trans k5⟩
  · rw [s3 p hD hwp.symm, filter_reverse_mem, hfree p hD hxp.symm, k1]
  · rw [s3 x hDx hxw, filter_reverse_mem, hx1, List.filter_append]
    have e1 : L.filter (· ∉ M) = L := List.filter_eq_self.2 fun c hc => by
      simp only [decide_eq_true_eq]
      exact fun h4 => dLM c hc c h4 rfl
    have e2 : M.filter (· ∉ M) = [] := List.filter_eq_nil_iff.2 fun c hc => by
      simp only [decide_eq_true_eq]
      exact fun h4 => h4 hc
    rw [e1, e2, List.append_nil]
  · rw [s2, hfree w hDw hxw.symm, k2 w hDw hwp]
  · rw [s3 q hq hqw, filter_reverse_mem, hfree q hq hqx, k2 q hq hqp]

/-- **C101, two elements joined**: the children of `x` are prepended to an element `y` in one call, and `x` is removed: they stand in their order in front of the children
of `y`, and `x` is gone from its parent. -/
theorem C101_join (ok : HeapOk h D) {x y p : Nat} {A B : List Nat} (hD : ¬ D p) (hkp : h.kids p = A ++ x :: B) (hx : (h.node x).kind = .tag)
    (hy : (h.node y).kind = .tag) (hb : y < h.size) (hay : Attached h D y) (hxy : x ≠ y) (hyp : y ≠ p) (hab : ¬ Above h x y)
    (hal : ∀ n ∈ h.children x, e.allow (h.tagNames y) n = true) :
    ∃ h1 h2, insertAll e .afterBegin (h.children x) h [y] = .ok h1 ∧ removeAll h1 [x] = .ok h2 ∧ h2.kids p = A ++ B ∧
      h2.kids y = h.children x ++ h.kids y ∧ h2.kids x = (h.kids x).filter (fun c => !h.isElem c) ∧
      (∀ q, ¬ D q → q ≠ p → q ≠ x → q ≠ y → h2.kids q = h.kids q) ∧ SameData h h2 ∧ HeapOk h2 D ∧ h2.size = h.size := by
  have hxk : x ∈ h.kids p := by rw [hkp]; simp
  have hpar := ok.kid_parent hD hxk
  have hxp : x ≠ p := ok.parent_ne hpar
  have hDx := tag_live ok hx
  have hDy := tag_live ok hy
  have hcx : ∀ n ∈ h.children x, n ∈ h.kids x := fun n hn => (List.mem_filter.1 hn).1
  have ins : Insertable e h D y (h.children x) := ⟨(ok.kids_nodup hDx).filter _, ⟨hay, hb⟩, fun n hn => by
    have hpn := ok.kid_parent hDx (hcx n hn)
    have hnr := ok.kid x n hDx (hcx n hn)
    refine ⟨attached_kid ok hDx (hcx n hn), (ok.bound n x hpn).1, hnr, hy, fun hd => hnr hd.1, ?_, fun ha => ?_⟩
    · rintro rfl
      exact hab (.parent hpn)
    · exact hab (Above.trans (.parent hpn) ha)⟩
  obtain ⟨h1, s1, s2, s3, s4, s5⟩ := insertLoop_inside (e := e) .afterBegin (.inl rfl) y (h.children x).reverse h ok ins.reverse
    (fun n hn => hal n (List.mem_reverse.1 hn))
  rw [if_neg (by decide), List.reverse_reverse, filter_reverse_mem] at s2
  have hfree : ∀ q, ¬ D q → q ≠ x → (h.kids q).filter (· ∉ h.children x) = h.kids q := fun q hq hqx => List.filter_eq_self.2 fun c hc => by
    simp only [decide_eq_true_eq]
    exact fun h3 => hqx (ok.kid_unique hq hDx hc (hcx c h3))
  have hp1 : h1.kids p = A ++ x :: B := by rw [s3 p hD hyp.symm, filter_reverse_mem, hfree p hD hxp.symm, hkp]
  have hxk1 : x ∈ h1.kids p := by rw [hp1]; simp
  obtain ⟨h2, r1, r2, r3, r4, r5⟩ := removeAll_ok [x] h1 s5 (by simpa using attached_kid s5 hD hxk1) (by simp)
  have hnd := ok.kids_nodup hD
  rw [hkp] at hnd
  have hxA : x ∉ A := fun h3 => (List.nodup_append.1 hnd).2.2 x h3 x (by simp) rfl
  have hxB : x ∉ B := (List.nodup_cons.1 (List.nodup_append.1 hnd).2.1).1
  have hsing : ∀ q, ¬ D q → h2.kids q = (h1.kids q).filter (· ≠ x) := fun q hq => by rw [r2 q hq, filter_notMem_single]
  have hkeep : ∀ q, ¬ D q → q ≠ p → h2.kids q = h1.kids q := fun q hq hqp => by
    rw [hsing q hq, filter_ne_self fun h3 => hqp (s5.kid_unique hq hD h3 hxk1)]
  refine ⟨h1, h2, by simp only [insertAll, s1], r1, ?_, ?_, ?_, fun q hq hqp hqx hqy => ?_, s4.trans r3, r4, r5.trans (insertLoop_size s1)⟩
  · rw [hsing p hD, hp1, List.filter_append, List.filter_cons, if_neg (by simp), filter_ne_self hxA, filter_ne_self hxB]
  · rw [hkeep y hDy hyp, s2, hfree y hDy hxy.symm]
  · rw [hkeep x hDx hxp, s3 x hDx hxy, filter_reverse_mem]
    refine List.filter_congr fun c hc => ?_
    by_cases he : h.isElem c = true <;> simp [Heap.children, hc, he]
  · rw [hkeep q hq hqp, s3 q hq hqy, filter_reverse_mem, hfree q hq hqx]

/-- **C101, the way back**: the children given to the new element are appended to `x` one after the other and the new element is removed: every list of children and all html is
as before the division. -/
theorem C101_back (ok : HeapOk h D) {x w p : Nat} {A B L M : List Nat} (hD : ¬ D p) (hkp : h.kids p = A ++ x :: B) (hx : (h.node x).kind = .tag)
    (hw : (h.node w).kind = .tag) (hb : w < h.size) (hpw : h.parent w = none) (hxw : x ≠ w) (hab : ¬ Above h w x) (hwe : h.kids w = [])
    (hkx : h.kids x = L ++ M) (hal : ∀ n ∈ M, e.allow (h.tagNames w) n = true) (hax : ∀ n ∈ M, e.allow (h.tagNames x) n = true) :
    ∃ h1 h2 h3 h4, insertAll e .afterEnd [w] h [x] = .ok h1 ∧ insertAll e .afterBegin M h1 [w] = .ok h2 ∧ appendEach e x h2 M = .ok h3 ∧ removeAll h3 [w] = .ok h4 ∧
      (∀ q, ¬ D q → h4.kids q = h.kids q) ∧ SameData h h4 ∧ HeapOk h4 D ∧
      ∀ q < h.size, ¬ D q → innerHtml rd e h4 q = innerHtml rd e h q ∧ outerHtml rd e h4 q = outerHtml rd e h q := by
  obtain ⟨h1, h2, r1, r2, k1, k2, k3, k4, k5, k6, k7⟩ := C101_split (e := e) ok hD hkp hx hw hb hpw hxw hab hkx hal
  rw [hwe, List.append_nil] at k3
  have hxk : x ∈ h.kids p := by rw [hkp]; simp
  have hpar := ok.kid_parent hD hxk
  have hxp : x ≠ p := ok.parent_ne hpar
  have hwp : w ≠ p := by
    rintro rfl
    exact hab (.parent hpar)
  have hDx := tag_live ok hx
  have hDw := tag_live ok hw
  have hwk2 : w ∈ h2.kids p := by rw [k1]; simp
  have hxk2 : x ∈ h2.kids p := by rw [k1]; simp
  have hw2 := k6.kid_parent hD hwk2
  have hx2 := k6.kid_parent hD hxk2
  have hMw : ∀ n ∈ M, n ∈ h2.kids w := fun n hn => by rw [k3]; exact hn
  have hndM : M.Nodup := by rw [← k3]; exact k6.kids_nodup hDw
  have ins : Insertable e h2 D x M := ⟨hndM, ⟨attached_kid k6 hD hxk2, by rw [k7]; exact (ok.bound _ _ hpar).1⟩, fun n hn => by
    have hpn := k6.kid_parent hDw (hMw n hn)
    have hnr := k6.kid w n hDw (hMw n hn)
    refine ⟨attached_kid k6 hDw (hMw n hn), (k6.bound n w hpn).1, hnr, (k5 x).1.trans hx, fun hd => hnr hd.1, ?_, fun ha => ?_⟩
    · rintro rfl
      rw [hx2] at hpn; cases hpn; exact hwp rfl
    · rcases above_cases ha hx2 with rfl | h5
      · exact k6.not_above_self n (.step (.parent hw2) hpn)
      · exact k6.not_above_self n (.step (.step h5 hw2) hpn)⟩
  obtain ⟨h3, s1, s2, s3, s4, s5⟩ := insertLoop_inside (e := e) .beforeEnd (.inr rfl) x M h2 k6 ins
    (fun n hn => by rw [tagNames_same k5]; exact hax n hn)
  rw [if_pos rfl] at s2
  have hfree : ∀ q, ¬ D q → q ≠ w → (h2.kids q).filter (· ∉ M) = h2.kids q := fun q hq hqw => List.filter_eq_self.2 fun c hc => by
    simp only [decide_eq_true_eq]
    exact fun h3 => hqw (k6.kid_unique hq hDw hc (hMw c h3))
  have hp3 : h3.kids p = A ++ x :: w :: B := by rw [s3 p hD hxp.symm, hfree p hD hwp.symm, k1]
  have hwk3 : w ∈ h3.kids p := by rw [hp3]; simp
  obtain ⟨h4, t1, t2, t3, t4, t5⟩ := removeAll_ok [w] h3 s5 (by simpa using attached_kid s5 hD hwk3) (by simp)
  have hsing : ∀ q, ¬ D q → h4.kids q = (h3.kids q).filter (· ≠ w) := fun q hq => by rw [t2 q hq, filter_notMem_single]
  have hkeep : ∀ q, ¬ D q → q ≠ p → h4.kids q = h3.kids q := fun q hq hqp => by
    rw [hsing q hq, filter_ne_self fun h3 => hqp (s5.kid_unique hq hD h3 hwk3)]
  have hwk : w ∉ A ++ x :: B := fun h5 => by
    rw [← hkp] at h5
    rw [ok.kid_parent hD h5] at hpw; cases hpw
  have hall : ∀ q, ¬ D q → h4.kids q = h.kids q := by
    intro q hq
    by_cases hqp : q = p
    · subst hqp
      rw [hsing q hq, hp3, hkp, ← filter_ne_self hwk]
      simp [List.filter_append, List.filter_cons]
    · rw [hkeep q hq hqp]
      by_cases hqx : q = x
      · subst hqx; rw [s2, hfree q hq hxw, k2, hkx]
      · rw [s3 q hq hqx]
        by_cases hqw : q = w
        · subst hqw
          rw [k3, hwe]
          exact List.filter_eq_nil_iff.2 fun c hc => by
            simp only [decide_eq_true_eq]
            exact fun h4 => h4 hc
        · rw [hfree q hq hqw, k4 q hq hqp hqx hqw]
  have hsd := k5.trans (s4.trans t3)
  exact ⟨h1, h2, h3, h4, r1, r2, (appendEach_loop x M h2).trans s1, t1, hall, hsd, t4,
    fun q hq hqD => html_restored ok (t5.trans ((insertLoop_size s1).trans k7)) hall hsd hq hqD⟩

/-- The html of an element that is no content tag, read in a heap with the same data. -/
theorem plain_html {h' : Heap} (hs : SameData h h') {x : Nat} {s : List Char} (hx : (h.node x).kind = .tag) (hct : e.contentTag (h.node x).name = false)
    (hk : HtmlsOf rd e h' false (h'.kids x) s) : HtmlOf rd e h' false x (startOf rd h x ++ s ++ endOf rd h x) := by
  have hname : (h'.node x).name = (h.node x).name := (hs x).2.1
  have h5 := HtmlOf.elem (rd := rd) (e := e) (h := h') (ct := false) (x := x) ((hs x).1.trans hx) (s := s) (by rw [hname, hct]; exact hk)
  have hbody : bodyOf rd e h' x = [] := by simp [bodyOf, hname, hct]
  have hst : startOf rd h' x = startOf rd h x ∧ endOf rd h' x = endOf rd h x := by
    unfold startOf endOf
    rw [hname, (hs x).2.2.1]
    exact ⟨rfl, rfl⟩
  rwa [hbody, List.nil_append, hst.1, hst.2] at h5

theorem plain_above (ok : HeapOk h D) {p q : Nat} (hpl : PlainIn e h p) (hq : Within h q p) : (h.node q).kind = .root ∨ (h.node q).kind = .tag := by
  by_contra hc
  have hl := ok.leaf q (fun h1 => hc (.inl h1)) fun h1 => hc (.inr h1)
  rcases within_cases hq with rfl | ⟨c, hcq, _⟩
  · exact hc hpl.kind
  · rw [hl] at hcq; cases hcq

/-- **C101, the html of a division**: what is written in `x` is cut in two, and the tags of the new element are written around the second part. -/
theorem C101_html (ok : HeapOk h D) {x w p q : Nat} {A B L M : List Nat} (hD : ¬ D p) (hkp : h.kids p = A ++ x :: B) (hx : (h.node x).kind = .tag)
    (hw : (h.node w).kind = .tag) (hb : w < h.size) (hpw : h.parent w = none) (hxw : x ≠ w) (hab : ¬ Above h w x) (hwe : h.kids w = [])
    (hkx : h.kids x = L ++ M) (hal : ∀ n ∈ M, e.allow (h.tagNames w) n = true)
    (hpl : PlainIn e h p) (hcx : e.contentTag (h.node x).name = false) (hcw : e.contentTag (h.node w).name = false) (hqD : ¬ D q) (hq : Within h q p) :
    ∃ h1 h2 a s t b, insertAll e .afterEnd [w] h [x] = .ok h1 ∧ insertAll e .afterBegin M h1 [w] = .ok h2 ∧
      innerHtml rd e h x = .ok (s ++ t) ∧ innerHtml rd e h2 x = .ok s ∧ innerHtml rd e h2 w = .ok t ∧
      innerHtml rd e h q = .ok (a ++ (startOf rd h x ++ (s ++ t) ++ endOf rd h x) ++ b) ∧
      innerHtml rd e h2 q = .ok (a ++ (startOf rd h x ++ s ++ endOf rd h x ++ (startOf rd h w ++ t ++ endOf rd h w)) ++ b) := by
  obtain ⟨h1, h2, r1, r2, k1, k2, k3, k4, k5, k6, k7⟩ := C101_split (e := e) ok hD hkp hx hw hb hpw hxw hab hkx hal
  rw [hwe, List.append_nil] at k3
  have hxk : x ∈ h.kids p := by rw [hkp]; simp
  have hpar := ok.kid_parent hD hxk
  obtain ⟨hbx, hbp⟩ := ok.bound _ _ hpar
  have hDx := tag_live ok hx
  have hDw := tag_live ok hw
  have hqb := within_bound ok hqD hbp hq
  have hxp : x ≠ p := ok.parent_ne hpar
  have hwp : w ≠ p := by
    rintro rfl
    exact hab (.parent hpar)
  have hx2 : (h2.node x).kind = .tag := (k5 x).1.trans hx
  have hw2 : (h2.node w).kind = .tag := (k5 w).1.trans hw
  have hnw : ∀ y, Within h q y → y ≠ w := by
    rintro y hy rfl
    cases hy with
    | self => exact (within_above ok hqD hq).elim hwp fun h4 => hab (.step h4 hpar)
    | step h4 h5 => exact free_of_parent_none ok hpw (within_live ok hqD h4) h5
  have hfin : ∀ c ∈ h.kids p, FiniteTree h c := fun c hc =>
    heapOk_finite_of ok (ok.bound _ _ (ok.kid_parent hD hc)).1 fun hd => ok.kid _ _ hD hc (ok.dead _ hd).1
  have hfinx : ∀ c ∈ h.kids x, FiniteTree h c := fun c hc => FiniteTree.kid (hfin x hxk) hc
  have hkeep : ∀ c ∈ h.kids p, c ≠ x → SameTree h h2 c c := fun c hc hcx => sameTree_of fun y hy => by
    have hcD : ¬ D c := fun hd => ok.kid _ _ hD hc (ok.dead _ hd).1
    refine ⟨SameData.text k5 y, k4 y (within_live ok hcD hy) (by rintro rfl; exact not_within_parent ok hD hc hy) ?_ (hnw y (hq.trans (hy.head hc)))⟩
    rintro rfl
    rcases within_above ok hcD hy with h4 | h4
    · exact hcx h4
    · rcases above_cases h4 hpar with h5 | h5
      · exact ok.parent_ne (ok.kid_parent hD hc) h5
      · exact ok.not_above_self c (.step h5 (ok.kid_parent hD hc))
  have hkeepx : ∀ c ∈ h.kids x, SameTree h h2 c c := fun c hc => sameTree_of fun y hy => by
    have hcD : ¬ D c := fun hd => ok.kid _ _ hDx hc (ok.dead _ hd).1
    refine ⟨SameData.text k5 y, k4 y (within_live ok hcD hy) ?_ (by rintro rfl; exact not_within_parent ok hDx hc hy) (hnw y (hq.trans ((hy.head hc).head hxk)))⟩
    rintro rfl
    have hcx := ok.kid_parent hDx hc
    rcases within_above ok hcD hy with h4 | h4
    · subst h4; exact ok.not_above_self c (.step (.parent hpar) hcx)
    · exact ok.not_above_self c (.step (.step h4 hpar) hcx)
  have hnd := ok.kids_nodup hD
  rw [hkp] at hnd
  have hxA : x ∉ A := fun h3 => (List.nodup_append.1 hnd).2.2 x h3 x (by simp) rfl
  have hxB : x ∉ B := (List.nodup_cons.1 (List.nodup_append.1 hnd).2.1).1
  obtain ⟨la, _, hla⟩ := pieces_full (rd := rd) (e := e) (l := A) (fun c hc => hfin c (by rw [hkp]; simp [hc])) false
  obtain ⟨lb, _, hlb⟩ := pieces_full (rd := rd) (e := e) (l := B) (fun c hc => hfin c (by rw [hkp]; simp [hc])) false
  obtain ⟨s, _, hs⟩ := pieces_full (rd := rd) (e := e) (l := L) (fun c hc => hfinx c (by rw [hkx]; simp [hc])) false
  obtain ⟨t, _, ht⟩ := pieces_full (rd := rd) (e := e) (l := M) (fun c hc => hfinx c (by rw [hkx]; simp [hc])) false
  have hst : HtmlsOf rd e h false (h.kids x) (s ++ t) := by rw [hkx]; exact htmlsOf_append hs ht
  have hs2 : HtmlsOf rd e h2 false (h2.kids x) s := by rw [k2]; exact htmlsOf_kept hs fun c hc => hkeepx c (by rw [hkx]; simp [hc])
  have ht2 : HtmlsOf rd e h2 false (h2.kids w) t := by rw [k3]; exact htmlsOf_kept ht fun c hc => hkeepx c (by rw [hkx]; simp [hc])
  have w1 : HtmlsOf rd e h false (h.kids p) (la ++ ((startOf rd h x ++ (s ++ t) ++ endOf rd h x) ++ lb)) := by
    rw [hkp]; exact htmlsOf_append hla (.cons (plain_html (.refl h) hx hcx hst) hlb)
  have w2 : HtmlsOf rd e h2 false (h2.kids p) (la ++ ((startOf rd h x ++ s ++ endOf rd h x) ++ ((startOf rd h w ++ t ++ endOf rd h w) ++ lb))) := by
    rw [k1]
    exact htmlsOf_append (htmlsOf_kept hla fun c hc => hkeep c (by rw [hkp]; simp [hc]) (by rintro rfl; exact hxA hc))
      (.cons (plain_html k5 hx hcx hs2) (.cons (plain_html k5 hw hcw ht2)
        (htmlsOf_kept hlb fun c hc => hkeep c (by rw [hkp]; simp [hc]) (by rintro rfl; exact hxB hc))))
  rw [← hpl.flag] at w1 w2
  obtain ⟨a, b, i1, i2⟩ := html_context (rd := rd) (e := e) ok hqb hqD hq hpl.kind (SameData.text k5 p)
    (fun y hy hny => ⟨SameData.text k5 y, k4 y (within_live ok hqD hy) (by rintro rfl; exact hny .self)
      (by rintro rfl; exact hny (.step .self hxk)) (hnw y hy)⟩) w1 w2
  have hkq := plain_above ok hpl hq
  have hbx2 : x < h2.size := by rw [k7]; exact hbx
  have hbw2 : w < h2.size := by rw [k7]; exact hb
  have hplx : PlainIn e h x := .inr ⟨hx, hcx⟩
  have hplx2 : PlainIn e h2 x := .inr ⟨hx2, by rw [(k5 x).2.1]; exact hcx⟩
  have hplw2 : PlainIn e h2 w := .inr ⟨hw2, by rw [(k5 w).2.1]; exact hcw⟩
  refine ⟨h1, h2, a ++ la, s, t, lb ++ b, r1, r2, (innerHtml_iff (hfin x hxk) (.inr hx) _).2 (hplx.inner.2 hst),
    (innerHtml_iff (heapOk_finite_of k6 hbx2 hDx) (.inr hx2) _).2 (hplx2.inner.2 hs2),
    (innerHtml_iff (heapOk_finite_of k6 hbw2 hDw) (.inr hw2) _).2 (hplw2.inner.2 ht2), ?_, ?_⟩
  · refine (innerHtml_iff (heapOk_finite_of ok hqb hqD) hkq _).2 ?_
    simpa [List.append_assoc] using i1
  · refine (innerHtml_iff (heapOk_finite_of k6 (by rw [k7]; exact hqb) hqD) (by rw [(k5 q).1]; exact hkq) _).2 ?_
    simpa [List.append_assoc] using i2

/-- **C101, another name**: a new empty element `w` is put behind `x`, takes its children, and `x` is removed. `w` stands where `x` stood with its element children in their
order; when all children of `x` are elements, the html of everything above has the tags of `w` in the place of those of `x`, and nothing else changes in it. -/
theorem C101_rename (ok : HeapOk h D) {x w p : Nat} {A B : List Nat} (hD : ¬ D p) (hkp : h.kids p = A ++ x :: B) (hx : (h.node x).kind = .tag)
    (hw : (h.node w).kind = .tag) (hb : w < h.size) (hpw : h.parent w = none) (hxw : x ≠ w) (hab : ¬ Above h w x) (hwe : h.kids w = [])
    (hal : ∀ n ∈ h.children x, e.allow (h.tagNames w) n = true) :
    ∃ h1 h2 h3, insertAll e .afterEnd [w] h [x] = .ok h1 ∧ insertAll e .afterBegin (h1.children x) h1 [w] = .ok h2 ∧ removeAll h2 [x] = .ok h3 ∧
      h3.kids p = A ++ w :: B ∧ h3.kids w = h.children x ∧ (∀ q, ¬ D q → q ≠ p → q ≠ x → q ≠ w → h3.kids q = h.kids q) ∧
      SameData h h3 ∧ HeapOk h3 D ∧ h3.size = h.size ∧
      ((∀ c ∈ h.kids x, h.isElem c = true) → PlainIn e h p → e.contentTag (h.node x).name = false → e.contentTag (h.node w).name = false →
        ∀ q, ¬ D q → Within h q p → ∃ a s b, innerHtml rd e h x = .ok s ∧ innerHtml rd e h3 w = .ok s ∧ innerHtml rd e h q = .ok (a ++ (startOf rd h x ++ s ++ endOf rd h x) ++ b) ∧
          innerHtml rd e h3 q = .ok (a ++ (startOf rd h w ++ s ++ endOf rd h w) ++ b)) := by
  obtain ⟨h1, r1, k1, k2, k3, k4, k5⟩ := behind_first (e := e) ok hD hkp hx hw hb hpw hxw hab
  have hxk : x ∈ h.kids p := by rw [hkp]; simp
  have hpar := ok.kid_parent hD hxk
  obtain ⟨hbx, hbp⟩ := ok.bound _ _ hpar
  have hxp : x ≠ p := ok.parent_ne hpar
  have hwp : w ≠ p := by
    rintro rfl
    exact hab (.parent hpar)
  have hDx := tag_live ok hx
  have hDw := tag_live ok hw
  have hch : h1.children x = h.children x := by
    unfold Heap.children
    rw [k2 x hDx hxp]
    exact List.filter_congr fun c _ => isElem_data k3 c
  have hwk1 : w ∈ h1.kids p := by rw [k1]; simp
  have hxk1 : x ∈ h1.kids p := by rw [k1]; simp
  have hw1 := k4.kid_parent hD hwk1
  have hx1 := k4.kid_parent hD hxk1
  obtain ⟨h2, h3, s1, s2, l1, l2, l3, l4, l5, l6, l7⟩ := C101_join (e := e) k4 (x := x) (y := w) hD k1 ((k3 x).1.trans hx) ((k3 w).1.trans hw) (by rw [k5]; exact hb)
    (attached_kid k4 hD hwk1) hxw hwp (fun ha => by
      rcases above_cases ha hw1 with h5 | h5
      · exact hxp h5
      · exact k4.not_above_self x (.step h5 hx1)) (fun n hn => by rw [tagNames_same k3]; exact hal n (by rwa [hch] at hn))
  rw [hch] at l2
  rw [k2 w hDw hwp, hwe, List.append_nil] at l2
  have hother : ∀ q, ¬ D q → q ≠ p → q ≠ x → q ≠ w → h3.kids q = h.kids q := fun q hq a b c => by rw [l4 q hq a b c, k2 q hq a]
  have hsd := k3.trans l5
  refine ⟨h1, h2, h3, r1, s1, s2, l1, l2, hother, hsd, l6, l7.trans k5, fun hall hpl hcx hcw q hqD hq => ?_⟩
  have hch' : h.children x = h.kids x := List.filter_eq_self.2 hall
  have hqb := within_bound ok hqD hbp hq
  have hnw : ∀ y, Within h q y → y ≠ w := by
    rintro y hy rfl
    cases hy with
    | self => exact (within_above ok hqD hq).elim hwp fun h4 => hab (.step h4 hpar)
    | step h4 h5 => exact free_of_parent_none ok hpw (within_live ok hqD h4) h5
  have hfin : ∀ c ∈ h.kids p, FiniteTree h c := fun c hc =>
    heapOk_finite_of ok (ok.bound _ _ (ok.kid_parent hD hc)).1 fun hd => ok.kid _ _ hD hc (ok.dead _ hd).1
  have hkeep : ∀ c ∈ h.kids p, c ≠ x → SameTree h h3 c c := fun c hc hcx => sameTree_of fun y hy => by
    have hcD : ¬ D c := fun hd => ok.kid _ _ hD hc (ok.dead _ hd).1
    refine ⟨SameData.text hsd y, hother y (within_live ok hcD hy) (by rintro rfl; exact not_within_parent ok hD hc hy) ?_ (hnw y (hq.trans (hy.head hc)))⟩
    rintro rfl
    rcases within_above ok hcD hy with h4 | h4
    · exact hcx h4
    · rcases above_cases h4 hpar with h5 | h5
      · exact ok.parent_ne (ok.kid_parent hD hc) h5
      · exact ok.not_above_self c (.step h5 (ok.kid_parent hD hc))
  have hkeepx : ∀ c ∈ h.kids x, SameTree h h3 c c := fun c hc => sameTree_of fun y hy => by
    have hcD : ¬ D c := fun hd => ok.kid _ _ hDx hc (ok.dead _ hd).1
    refine ⟨SameData.text hsd y, hother y (within_live ok hcD hy) ?_ (by rintro rfl; exact not_within_parent ok hDx hc hy) (hnw y (hq.trans ((hy.head hc).head hxk)))⟩
    rintro rfl
    have hcx := ok.kid_parent hDx hc
    rcases within_above ok hcD hy with h4 | h4
    · subst h4; exact ok.not_above_self c (.step (.parent hpar) hcx)
    · exact ok.not_above_self c (.step (.step h4 hpar) hcx)
  have hnd := ok.kids_nodup hD
  rw [hkp] at hnd
  have hxA : x ∉ A := fun h3 => (List.nodup_append.1 hnd).2.2 x h3 x (by simp) rfl
  have hxB : x ∉ B := (List.nodup_cons.1 (List.nodup_append.1 hnd).2.1).1
  obtain ⟨la, _, hla⟩ := pieces_full (rd := rd) (e := e) (l := A) (fun c hc => hfin c (by rw [hkp]; simp [hc])) false
  obtain ⟨lb, _, hlb⟩ := pieces_full (rd := rd) (e := e) (l := B) (fun c hc => hfin c (by rw [hkp]; simp [hc])) false
  obtain ⟨s, _, hs⟩ := pieces_full (rd := rd) (e := e) (l := h.kids x) (fun c hc => FiniteTree.kid (hfin x hxk) hc) false
  have hs3 : HtmlsOf rd e h3 false (h3.kids w) s := by rw [l2, hch']; exact htmlsOf_kept hs hkeepx
  have w1 : HtmlsOf rd e h false (h.kids p) (la ++ ((startOf rd h x ++ s ++ endOf rd h x) ++ lb)) := by
    rw [hkp]; exact htmlsOf_append hla (.cons (plain_html (.refl h) hx hcx hs) hlb)
  have w2 : HtmlsOf rd e h3 false (h3.kids p) (la ++ ((startOf rd h w ++ s ++ endOf rd h w) ++ lb)) := by
    rw [l1]
    exact htmlsOf_append (htmlsOf_kept hla fun c hc => hkeep c (by rw [hkp]; simp [hc]) (by rintro rfl; exact hxA hc))
      (.cons (plain_html hsd hw hcw hs3) (htmlsOf_kept hlb fun c hc => hkeep c (by rw [hkp]; simp [hc]) (by rintro rfl; exact hxB hc)))
  rw [← hpl.flag] at w1 w2
  obtain ⟨a, b, i1, i2⟩ := html_context (rd := rd) (e := e) ok hqb hqD hq hpl.kind (SameData.text hsd p)
    (fun y hy hny => ⟨SameData.text hsd y, hother y (within_live ok hqD hy) (by rintro rfl; exact hny .self)
      (by rintro rfl; exact hny (.step .self hxk)) (hnw y hy)⟩) w1 w2
  have hkq := plain_above ok hpl hq
  have hplx : PlainIn e h x := .inr ⟨hx, hcx⟩
  have hw3 : (h3.node w).kind = .tag := (hsd w).1.trans hw
  have hplw : PlainIn e h3 w := .inr ⟨hw3, by rw [(hsd w).2.1]; exact hcw⟩
  refine ⟨a ++ la, s, lb ++ b, (innerHtml_iff (hfin x hxk) (.inr hx) _).2 (hplx.inner.2 hs),
    (innerHtml_iff (heapOk_finite_of l6 (by rw [l7, k5]; exact hb) hDw) (.inr hw3) _).2 (hplw.inner.2 hs3), ?_, ?_⟩
  · refine (innerHtml_iff (heapOk_finite_of ok hqb hqD) hkq _).2 ?_
    simpa [List.append_assoc] using i1
  · refine (innerHtml_iff (heapOk_finite_of l6 (by rw [l7, k5]; exact hqb) hqD) (by rw [(hsd q).1]; exact hkq) _).2 ?_
    simpa [List.append_assoc] using i2

end

/-! ## The hypotheses are satisfiable -/

/-- `<div><p/>x<ul><li/><li/></ul></div>` with the loose element 7: the `ul` is divided between its items, and put together again; its items move to another name; and the items
of the `ul` go to the `p`. -/
example : (∃ h1 h2, insertAll ext0 .afterEnd [7] places [4] = .ok h1 ∧ insertAll ext0 .afterBegin [6] h1 [7] = .ok h2 ∧
      h2.kids 1 = [2, 3, 4, 7] ∧ h2.kids 4 = [5] ∧ h2.kids 7 = [6]) ∧
    (∃ h1 h2 h3 h4, insertAll ext0 .afterEnd [7] places [4] = .ok h1 ∧ insertAll ext0 .afterBegin [6] h1 [7] = .ok h2 ∧
      appendEach ext0 4 h2 [6] = .ok h3 ∧ removeAll h3 [7] = .ok h4 ∧ h4.kids 1 = [2, 3, 4] ∧ h4.kids 4 = [5, 6]) ∧
    (∃ h1 h2, insertAll ext0 .afterBegin [5, 6] places [2] = .ok h1 ∧ removeAll h1 [4] = .ok h2 ∧ h2.kids 1 = [2, 3] ∧ h2.kids 2 = [5, 6]) := by
  have ab7 : ¬ Above places 7 4 := by rw [above_iff (p := 1) (by decide), above_iff (p := 0) (by decide)]; simp [above_none (h := places) (x := 0) (by decide)]
  have ab4 : ¬ Above places 4 2 := by rw [above_iff (p := 1) (by decide), above_iff (p := 0) (by decide)]; simp [above_none (h := places) (x := 0) (by decide)]
  refine ⟨?_, ?_, ?_⟩
  · obtain ⟨h1, h2, r1, r2, k1, k2, k3, -⟩ := C101_split (e := ext0) places_ok (x := 4) (w := 7) (p := 1) (A := [2, 3]) (B := []) (L := [5]) (M := [6]) id
      (by decide) (by decide) (by decide) (by decide) (by decide) (by decide) ab7 (by decide) (by decide)
    exact ⟨h1, h2, r1, r2, k1, k2, k3.trans (by decide)⟩
  · obtain ⟨h1, h2, h3, h4, r1, r2, r3, r4, k, -⟩ := C101_back (rd := rd0) (e := ext0) places_ok (x := 4) (w := 7) (p := 1) (A := [2, 3]) (B := []) (L := [5]) (M := [6]) id
      (by decide) (by decide) (by decide) (by decide) (by decide) (by decide) ab7 (by decide) (by decide) (by decide) (by decide)
    exact ⟨h1, h2, h3, h4, r1, r2, r3, r4, (k 1 id).trans (by decide), (k 4 id).trans (by decide)⟩
  · obtain ⟨h1, h2, r1, r2, k1, k2, -⟩ := C101_join (e := ext0) places_ok (x := 4) (y := 2) (p := 1) (A := [2, 3]) (B := []) id
      (by decide) (by decide) (by decide) (by decide) (attached_kid places_ok (p := 1) id (by decide)) (by decide) (by decide) ab4 (by decide)
    exact ⟨h1, h2, r1, r2, k1, k2.trans (by decide)⟩

set_option maxRecDepth 100000 in
/-- The html of the division, and of the `ul` under another name. -/
example : (∃ h1 h2 a s t b, insertAll ext0 .afterEnd [7] places [4] = .ok h1 ∧ insertAll ext0 .afterBegin [6] h1 [7] = .ok h2 ∧
      s ++ t = "<li></li><li></li>".toList ∧ innerHtml rd0 ext0 h2 4 = .ok s ∧ innerHtml rd0 ext0 h2 7 = .ok t ∧
      innerHtml rd0 ext0 h2 0 = .ok (a ++ (startOf rd0 places 4 ++ s ++ endOf rd0 places 4 ++ (startOf rd0 places 7 ++ t ++ endOf rd0 places 7)) ++ b)) ∧
    ∃ h1 h2 h3 a b, insertAll ext0 .afterEnd [7] places [4] = .ok h1 ∧ insertAll ext0 .afterBegin (h1.children 4) h1 [7] = .ok h2 ∧ removeAll h2 [4] = .ok h3 ∧
      h3.kids 1 = [2, 3, 7] ∧ h3.kids 7 = [5, 6] ∧
      innerHtml rd0 ext0 places 0 = .ok (a ++ (startOf rd0 places 4 ++ "<li></li><li></li>".toList ++ endOf rd0 places 4) ++ b) ∧
      innerHtml rd0 ext0 h3 0 = .ok (a ++ (startOf rd0 places 7 ++ "<li></li><li></li>".toList ++ endOf rd0 places 7) ++ b) := by
  have ab7 : ¬ Above places 7 4 := by rw [above_iff (p := 1) (by decide), above_iff (p := 0) (by decide)]; simp [above_none (h := places) (x := 0) (by decide)]
  have e1 : innerHtml rd0 ext0 places 4 = .ok "<li></li><li></li>".toList := by decide
  constructor
  · obtain ⟨h1, h2, a, s, t, b, r1, r2, k1, k2, k3, -, k4⟩ := C101_html (rd := rd0) (e := ext0) places_ok (x := 4) (w := 7) (p := 1) (q := 0) (A := [2, 3]) (B := [])
      (L := [5]) (M := [6]) id (by decide) (by decide) (by decide) (by decide) (by decide) (by decide) ab7 (by decide) (by decide) (by decide)
      (.inr ⟨by decide, by decide⟩) (by decide) (by decide) id (.step .self (by decide))
    rw [e1, Except.ok.injEq] at k1
    exact ⟨h1, h2, a, s, t, b, r1, r2, k1.symm, k2, k3, k4⟩
  · obtain ⟨h1, h2, h3, r1, r2, r3, k1, k2, -, -, -, -, k3⟩ := C101_rename (rd := rd0) (e := ext0) places_ok (x := 4) (w := 7) (p := 1) (A := [2, 3]) (B := []) id
      (by decide) (by decide) (by decide) (by decide) (by decide) (by decide) ab7 (by decide) (by decide)
    obtain ⟨a, s, b, i1, -, i2, i3⟩ := k3 (by decide) (.inr ⟨by decide, by decide⟩) (by decide) (by decide) 0 id (.step .self (by decide))
    rw [e1, Except.ok.injEq] at i1
    subst i1
    exact ⟨h1, h2, h3, a, b, r1, r2, r3, k1, k2.trans (by decide), i2, i3⟩

end Visdom
