import Verif.Props.Split
import Verif.Props.Speech
/-!
# C102: putting elements around others, taking them away, dividing and renaming them leaves the text as it was
-/
namespace Visdom
open Spec

section
variable {v : Voice} {rd : Render} {e : Ext} {h h2 : Heap} {D : Nat → Prop}

/-- Outside the place of the change the html is as before. -/
theorem inner_elsewhere (ok : HeapOk h D) {p q : Nat} {Z : List Nat} (hZ : ∀ z ∈ Z, ∀ r, h.parent z = some r → r = p)
    (hk : ∀ y, ¬ D y → y ≠ p → y ∉ Z → h2.kids y = h.kids y) (hs : SameData h h2) (hsz : h2.size = h.size)
    (hq : q < h.size) (hqD : ¬ D q) (hqZ : q ∉ Z) (hqp : ¬ Within h q p) : innerHtml rd e h2 q = innerHtml rd e h q := by
  refine (C72_same (heapOk_finite_of ok hq hqD) (by omega) (sameTree_of fun y hy => ⟨SameData.text hs y, hk y (within_live ok hqD hy) ?_ ?_⟩)).1
  · rintro rfl; exact hqp hy
  · intro hz
    cases hy with
    | self => exact hqZ hz
    | step h4 h5 =>
      have := hZ _ hz _ (ok.kid_parent (within_live ok hqD h4) h5)
      subst this
      exact hqp h4

/-- From the html without tags, at the nodes above the place, to the text of all elements. -/
theorem says_same (ok : HeapOk h D) (ok2 : HeapOk h2 D) {p : Nat} {Z : List Nat} (hZ : ∀ z ∈ Z, ∀ r, h.parent z = some r → r = p)
    (hk : ∀ y, ¬ D y → y ≠ p → y ∉ Z → h2.kids y = h.kids y) (hs : SameData h h2) (hsz : h2.size = h.size)
    (hup : ∀ q, ¬ D q → Within h q p → innerHtml v.quiet e h2 q = innerHtml v.quiet e h q) {X : List Nat}
    (hX : ∀ q ∈ X, q < h.size ∧ (h.node q).kind = .tag ∧ q ∉ Z) :
    (∀ q ∈ X, textContents v e h2 q = textContents v e h q) ∧ textJoin v e h2 X = textJoin v e h X := by
  have each : ∀ q ∈ X, textContents v e h2 q = textContents v e h q := fun q hq => by
    obtain ⟨q1, q2, q3⟩ := hX q hq
    have hqD := tag_live ok q2
    rw [textContents_inner' ok q1 q2, textContents_inner' ok2 (by omega) ((hs q).1.trans q2)]
    by_cases hw : Within h q p
    · exact hup q hqD hw
    · exact inner_elsewhere ok hZ hk hs hsz q1 hqD q3 hw
  refine ⟨each, ?_⟩
  unfold textJoin
  clear hX
  induction X with
  | nil => rfl
  | cons q X ih =>
    simp only [flatMapR, each q (by simp)]
    rw [ih fun y hy => each y (by simp [hy])]

theorem flatMapR_like {f g : Nat → R (List Char)} {l : List Nat} (hf : ∀ c ∈ l, f c = g c) : flatMapR f l = flatMapR g l := by
  induction l with
  | nil => rfl
  | cons c l ih => simp only [flatMapR, hf c (by simp)]; rw [ih fun y hy => hf y (by simp [hy])]

/-- **C102, an element put around neighbours**: no element but the new one says anything else than before. -/
theorem C102_wrap (ok : HeapOk h D) {x w p : Nat} {A M B : List Nat} (hD : ¬ D p) (hkp : h.kids p = A ++ ((x :: M) ++ B))
    (hw : (h.node w).kind = .tag) (hb : w < h.size) (hpw : h.parent w = none) (hxw : x ≠ w) (hab : ¬ Above h w x) (hwe : h.kids w = [])
    (hal : ∀ n ∈ x :: M, e.allow (h.tagNames w) n = true) (hel : ∀ n ∈ x :: M, (h.node n).kind = .tag)
    (hpl : PlainIn e h p) (hct : e.contentTag (h.node w).name = false) {X : List Nat} (hX : ∀ q ∈ X, q < h.size ∧ (h.node q).kind = .tag ∧ q ≠ w) :
    ∃ h1 h2, insertAll e .beforeBegin [w] h [x] = .ok h1 ∧ appendEach e w h1 (x :: M) = .ok h2 ∧
      (∀ q ∈ X, textContents v e h2 q = textContents v e h q) ∧ textJoin v e h2 X = textJoin v e h X ∧ textContents v e h2 w = textJoin v e h (x :: M) := by
  have hnd := ok.kids_nodup hD
  rw [hkp] at hnd
  obtain ⟨nA, nMB, dA⟩ := List.nodup_append.1 hnd
  obtain ⟨nM, nB, dM⟩ := List.nodup_append.1 nMB
  have hlk : ∀ n ∈ x :: M, n ∈ h.kids p := fun n hn => by rw [hkp]; simp only [List.mem_append]; exact .inr (.inl hn)
  obtain ⟨h1, h2, r1, r2, k1, k2, k3, k6, k7, k8⟩ := C91_wrap_all_partial (e := e) ok hD (B := M ++ B) hkp (hel x (by simp)) hw hb hpw hxw hab nM hlk hal
  have html := fun q hqD hq => C91_html_all_partial (rd := v.quiet) (e := e) (q := q) ok hD hkp (hel x (by simp)) hw hb hpw hxw hab hal hel hpl hct hqD hq
  have hin : innerHtml v.quiet e h w = .ok [] := by
    have hplw : PlainIn e h w := .inr ⟨hw, hct⟩
    exact (innerHtml_iff (heapOk_finite_of ok hb (tag_live ok hw)) (.inr hw) _).2 (hplw.inner.2 (by rw [hwe]; exact .nil))
  have both := says_same (v := v) (e := e) (X := X) ok k7 (Z := [w]) (by simp [hpw]) (fun y a b c => k3 y a b (by simpa using c)) k6 k8 (fun q hqD hq => by
      obtain ⟨g1, g2, a, s, o, b, s1, s2, -, -, -, i1, -, i2, i3⟩ := html q hqD hq
      rw [r1] at s1; cases s1
      rw [r2] at s2; cases s2
      rw [hin] at i1; cases i1
      rw [i2, i3]
      simp [startOf, endOf, Voice.quiet])
    (fun q hq => ⟨(hX q hq).1, (hX q hq).2.1, by simpa using (hX q hq).2.2⟩)
  refine ⟨h1, h2, r1, r2, both.1, both.2, ?_⟩
  obtain ⟨g1, g2, a, s, o, b, s1, s2, -, -, i0, i1, i2, -⟩ := html p hD .self
  rw [r1] at s1; cases s1
  rw [r2] at s2; cases s2
  rw [hin] at i1; cases i1
  have e1 : textJoin v e h (x :: M) = outerHtmlsS v.quiet e h (x :: M) := by
    unfold textJoin outerHtmlsS
    exact flatMapR_like fun c hc => textContents_outer (hel c hc)
  rw [e1, i0, textContents_outer ((k6 w).1.trans hw), i2]
  simp [startOf, endOf, Voice.quiet]

/-- **C102, an element that gives way to its children**: no other element says anything else than before, if all its children are elements. -/
theorem C102_dissolve (ok : HeapOk h D) {x p : Nat} {A B : List Nat} (hD : ¬ D p) (hkp : h.kids p = A ++ x :: B) (hx : (h.node x).kind = .tag)
    (hall : ∀ c ∈ h.kids x, h.isElem c = true) (hpl : PlainIn e h p) (hct : e.contentTag (h.node x).name = false) {X : List Nat}
    (hX : ∀ q ∈ X, q < h.size ∧ (h.node q).kind = .tag ∧ q ≠ x) :
    ∃ h1 h2, insertAll e .afterEnd (h.children x) h [x] = .ok h1 ∧ removeAll h1 [x] = .ok h2 ∧
      (∀ q ∈ X, textContents v e h2 q = textContents v e h q) ∧ textJoin v e h2 X = textJoin v e h X := by
  obtain ⟨h1, h2, r1, r2, k1, k2, k3, k6, k7, k8⟩ := C100_dissolve (e := e) ok hD hkp hx
  have hpar := ok.kid_parent hD (show x ∈ h.kids p by rw [hkp]; simp)
  refine ⟨h1, h2, r1, r2, says_same ok k7 (Z := [x]) (by simp [hpar]) (fun y a b c => k3 y a b (by simpa using c)) k6 k8 (fun q hqD hq => ?_)
    (fun q hq => ⟨(hX q hq).1, (hX q hq).2.1, by simpa using (hX q hq).2.2⟩)⟩
  obtain ⟨g1, g2, a, s, b, s1, s2, -, i1, i2⟩ := C100_html (rd := v.quiet) (e := e) ok hD hkp hx hall hpl hct hqD hq
  rw [r1] at s1; cases s1
  rw [r2] at s2; cases s2
  rw [i1, i2]
  simp [startOf, endOf, Voice.quiet]

/-- **C102, an element divided in two**: the two parts say together what the element said, and no other element says anything else than before. -/
theorem C102_split (ok : HeapOk h D) {x w p : Nat} {A B L M : List Nat} (hD : ¬ D p) (hkp : h.kids p = A ++ x :: B) (hx : (h.node x).kind = .tag)
    (hw : (h.node w).kind = .tag) (hb : w < h.size) (hpw : h.parent w = none) (hxw : x ≠ w) (hab : ¬ Above h w x) (hwe : h.kids w = [])
    (hkx : h.kids x = L ++ M) (hal : ∀ n ∈ M, e.allow (h.tagNames w) n = true)
    (hpl : PlainIn e h p) (hcx : e.contentTag (h.node x).name = false) (hcw : e.contentTag (h.node w).name = false) {X : List Nat}
    (hX : ∀ q ∈ X, q < h.size ∧ (h.node q).kind = .tag ∧ q ≠ x ∧ q ≠ w) :
    ∃ h1 h2, insertAll e .afterEnd [w] h [x] = .ok h1 ∧ insertAll e .afterBegin M h1 [w] = .ok h2 ∧
      (∀ q ∈ X, textContents v e h2 q = textContents v e h q) ∧ textJoin v e h2 X = textJoin v e h X ∧ textJoin v e h2 [x, w] = textContents v e h x := by
  obtain ⟨h1, h2, r1, r2, k1, k2, k3, k4, k5, k6, k7⟩ := C101_split (e := e) ok hD hkp hx hw hb hpw hxw hab hkx hal
  have hpar := ok.kid_parent hD (show x ∈ h.kids p by rw [hkp]; simp)
  obtain ⟨hbx, hbp⟩ := ok.bound _ _ hpar
  have both := says_same (v := v) (e := e) ok k6 (Z := [x, w]) (X := X) (by simp [hpar, hpw])
    (fun y a b c => k4 y a b (fun h3 => c (by simp [h3])) (fun h3 => c (by simp [h3]))) k5 k7 (fun q hqD hq => by
    obtain ⟨g1, g2, a, s, t, b, s1, s2, -, -, -, i1, i2⟩ := C101_html (rd := v.quiet) (e := e) ok hD hkp hx hw hb hpw hxw hab hwe hkx hal hpl hcx hcw hqD hq
    rw [r1] at s1; cases s1
    rw [r2] at s2; cases s2
    rw [i1, i2]
    simp [startOf, endOf, Voice.quiet]) (fun q hq => ⟨(hX q hq).1, (hX q hq).2.1, by simpa using (hX q hq).2.2⟩)
  refine ⟨h1, h2, r1, r2, both.1, both.2, ?_⟩
  obtain ⟨g1, g2, a, s, t, b, s1, s2, i1, i2, i3, -⟩ := C101_html (rd := v.quiet) (e := e) (q := p) ok hD hkp hx hw hb hpw hxw hab hwe hkx hal hpl hcx hcw hD .self
  rw [r1] at s1; cases s1
  rw [r2] at s2; cases s2
  have e1 : textContents v e h2 x = .ok s := by rw [textContents_inner' k6 (by omega) ((k5 x).1.trans hx), i2]
  have e2 : textContents v e h2 w = .ok t := by rw [textContents_inner' k6 (by omega) ((k5 w).1.trans hw), i3]
  rw [textContents_inner' ok hbx hx, i1]
  simp [textJoin, flatMapR, e1, e2]

/-- **C102, another name**: the new element says what the old one said, and no other element says anything else than before. -/
theorem C102_rename (ok : HeapOk h D) {x w p : Nat} {A B : List Nat} (hD : ¬ D p) (hkp : h.kids p = A ++ x :: B) (hx : (h.node x).kind = .tag)
    (hw : (h.node w).kind = .tag) (hb : w < h.size) (hpw : h.parent w = none) (hxw : x ≠ w) (hab : ¬ Above h w x) (hwe : h.kids w = [])
    (hal : ∀ n ∈ h.children x, e.allow (h.tagNames w) n = true) (hall : ∀ c ∈ h.kids x, h.isElem c = true)
    (hpl : PlainIn e h p) (hcx : e.contentTag (h.node x).name = false) (hcw : e.contentTag (h.node w).name = false) {X : List Nat}
    (hX : ∀ q ∈ X, q < h.size ∧ (h.node q).kind = .tag ∧ q ≠ x ∧ q ≠ w) :
    ∃ h1 h2 h3, insertAll e .afterEnd [w] h [x] = .ok h1 ∧ insertAll e .afterBegin (h1.children x) h1 [w] = .ok h2 ∧ removeAll h2 [x] = .ok h3 ∧
      (∀ q ∈ X, textContents v e h3 q = textContents v e h q) ∧ textJoin v e h3 X = textJoin v e h X ∧ textContents v e h3 w = textContents v e h x := by
  obtain ⟨h1, h2, h3, r1, r2, r3, k1, k2, k3, k4, k5, k6, k7⟩ := C101_rename (rd := v.quiet) (e := e) ok hD hkp hx hw hb hpw hxw hab hwe hal
  have hpar := ok.kid_parent hD (show x ∈ h.kids p by rw [hkp]; simp)
  have both := says_same (v := v) (e := e) (X := X) ok k5 (Z := [x, w]) (by simp [hpar, hpw])
    (fun y a b c => k3 y a b (fun h3 => c (by simp [h3])) (fun h3 => c (by simp [h3]))) k4 k6 (fun q hqD hq => by
      obtain ⟨a, s, b, -, -, i1, i2⟩ := k7 hall hpl hcx hcw q hqD hq
      rw [i1, i2]
      simp [startOf, endOf, Voice.quiet])
    (fun q hq => ⟨(hX q hq).1, (hX q hq).2.1, by simpa using (hX q hq).2.2⟩)
  obtain ⟨a, s, b, i1, i2, -⟩ := k7 hall hpl hcx hcw p hD .self
  refine ⟨h1, h2, h3, r1, r2, r3, both.1, both.2, ?_⟩
  rw [textContents_inner' ok (ok.bound _ _ hpar).1 hx, textContents_inner' k5 (by omega) ((k4 w).1.trans hw), i1, i2]

end

/-! ## The hypotheses are satisfiable -/

/-- On the samples: `<div><p/>x<ul><li/><li/></ul></div>`, where the `ul` gives way, is divided, and gets another name; two neighbours in one element. -/
example : (∃ h1 h2, insertAll ext0 .afterEnd [5, 6] places [4] = .ok h1 ∧ removeAll h1 [4] = .ok h2 ∧
      textContents voice0 ext0 h2 1 = textContents voice0 ext0 places 1) ∧
    (∃ h1 h2, insertAll ext0 .afterEnd [7] places [4] = .ok h1 ∧ insertAll ext0 .afterBegin [6] h1 [7] = .ok h2 ∧
      textContents voice0 ext0 h2 1 = textContents voice0 ext0 places 1 ∧ textJoin voice0 ext0 h2 [4, 7] = textContents voice0 ext0 places 4) ∧
    (∃ h1 h2 h3, insertAll ext0 .afterEnd [7] places [4] = .ok h1 ∧ insertAll ext0 .afterBegin (h1.children 4) h1 [7] = .ok h2 ∧ removeAll h2 [4] = .ok h3 ∧
      textContents voice0 ext0 h3 1 = textContents voice0 ext0 places 1 ∧ textContents voice0 ext0 h3 7 = textContents voice0 ext0 places 4) ∧
    (∃ h1 h2, insertAll ext0 .beforeBegin [5] spare [3] = .ok h1 ∧ appendEach ext0 5 h1 [3, 4] = .ok h2 ∧
      textContents voice0 ext0 h2 1 = textContents voice0 ext0 spare 1 ∧ textContents voice0 ext0 h2 5 = textJoin voice0 ext0 spare [3, 4]) := by
  have ab7 : ¬ Above places 7 4 := above_way [1, 0] 4 (by decide) (by decide) (by decide)
  refine ⟨?_, ?_, ?_, ?_⟩
  · obtain ⟨h1, h2, r1, r2, k, -⟩ := C102_dissolve (v := voice0) (e := ext0) places_ok (x := 4) (p := 1) (A := [2, 3]) (B := []) id (by decide) (by decide)
      (by decide) (.inr ⟨by decide, by decide⟩) (by decide) (X := [1]) (by decide)
    exact ⟨h1, h2, r1, r2, k 1 (by simp)⟩
  · obtain ⟨h1, h2, r1, r2, k, -, k2⟩ := C102_split (v := voice0) (e := ext0) places_ok (x := 4) (w := 7) (p := 1) (A := [2, 3]) (B := []) (L := [5]) (M := [6]) id
      (by decide) (by decide) (by decide) (by decide) (by decide) (by decide) ab7 (by decide) (by decide) (by decide)
      (.inr ⟨by decide, by decide⟩) (by decide) (by decide) (X := [1]) (by decide)
    exact ⟨h1, h2, r1, r2, k 1 (by simp), k2⟩
  · obtain ⟨h1, h2, h3, r1, r2, r3, k, -, k2⟩ := C102_rename (v := voice0) (e := ext0) places_ok (x := 4) (w := 7) (p := 1) (A := [2, 3]) (B := []) id
      (by decide) (by decide) (by decide) (by decide) (by decide) (by decide) ab7 (by decide) (by decide) (by decide)
      (.inr ⟨by decide, by decide⟩) (by decide) (by decide) (X := [1]) (by decide)
    exact ⟨h1, h2, h3, r1, r2, r3, k 1 (by simp), k2⟩
  · obtain ⟨h1, h2, r1, r2, k, -, k2⟩ := C102_wrap (v := voice0) (e := ext0) spare_ok (x := 3) (w := 5) (p := 1) (A := [2]) (M := [4]) (B := []) id
      (by decide) (by decide) (by decide) (by decide) (by decide) spare_free (by decide) (by decide) (by decide)
      (.inr ⟨by decide, by decide⟩) (by decide) (X := [1]) (by decide)
    exact ⟨h1, h2, r1, r2, k 1 (by simp), k2⟩

set_option maxRecDepth 100000 in
/-- **C102 needs children that are elements**: when a `p` with a text in it gives way to its children, the text is lost with it, because `children` gives elements only. -/
theorem C102_fails_texts : ∃ h1 h2, insertAll ext0 .afterEnd (demo2.children 2) demo2 [2] = .ok h1 ∧ removeAll h1 [2] = .ok h2 ∧
    textContents voice0 ext0 demo2 1 ≠ textContents voice0 ext0 h2 1 ∧ 3 ∈ h2.kids 2 :=
  ⟨_, _, rfl, rfl, by decide, by decide⟩

end Visdom
