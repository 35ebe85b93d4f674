import Verif.Spec.CopyMade
import Verif.Props.Reload
import Verif.Props.Again
import Mathlib.Tactic.IntervalCases
/-!
# C93: a copy put beside, into, or in the place of an element
-/
namespace Visdom
open Spec

section
variable {rd : Render} {e : Ext} {h h1 : Heap} {D : Nat → Prop}

theorem sameTree_trans {h2 : Heap} {x y z : Nat} (s1 : SameTree h h1 x y) (s2 : SameTree h1 h2 y z) : SameTree h h2 x z := by
  have key : ∀ (k x y z : Nat), SameTree h h1 x y → SameTree h1 h2 y z → SameTo h h2 k x z := by
    intro k
    induction k with
    | zero => intros; trivial
    | succ k ih =>
      intro x y z s1 s2
      obtain ⟨a1, a2, a3, a4, a5, -⟩ := s1 1
      obtain ⟨b1, b2, b3, b4, b5, -⟩ := s2 1
      refine ⟨b1.trans a1, b2.trans a2, b3.trans a3, b4.trans a4, b5.trans a5, fun i a b ha hb => ?_⟩
      have hlt : i < (h1.kids y).length := by rw [a5]; exact (List.getElem?_eq_some_iff.1 ha).1
      have hm := List.getElem?_eq_getElem hlt
      exact ih a _ b ((SameTree.kids s1).2 i a _ ha hm) ((SameTree.kids s2).2 i _ b hm hb)
  exact fun k => key k x y z s1 s2

/-- What is old looks in the heap with the copy as it did before. -/
theorem copyMade_old (ok : HeapOk h D) {x y : Nat} (c : CopyMade h D x h1 y) {z : Nat} (hz : z < h.size) (hD : ¬ D z) : SameTree h h1 z z :=
  sameTree_of fun w hw => by
    have := c.old w ((heapOk_finite_of ok hz hD).1 w hw)
    exact ⟨by simp only [SameText, this, and_self], kids_old this⟩

theorem copyMade_within (ok : HeapOk h D) {x y : Nat} (c : CopyMade h D x h1 y) {z w : Nat} (hz : z < h.size) (hD : ¬ D z) (hw : Within h1 z w) :
    Within h z w := by
  induction hw with
  | self => exact .self
  | @step p d _ hd ih =>
    rw [kids_old (c.old p ((heapOk_finite_of ok hz hD).1 p ih))] at hd
    exact ih.step hd

theorem copyMade_into (ok : HeapOk h D) {x y : Nat} (c : CopyMade h D x h1 y) {z w : Nat} (hz : z < h.size) (hD : ¬ D z) (hw : Within h z w) :
    Within h1 z w := by
  induction hw with
  | self => exact .self
  | @step p d hp hd ih =>
    rw [← kids_old (c.old p ((heapOk_finite_of ok hz hD).1 p hp))] at hd
    exact ih.step hd

theorem copyMade_above (ok : HeapOk h D) {x y : Nat} (c : CopyMade h D x h1 y) {z w : Nat} (hz : z < h.size) (ha : Above h1 w z) : w < h.size := by
  induction ha with
  | @parent z hp =>
    rw [show h1.parent z = h.parent z by unfold Heap.parent; rw [c.old z hz]] at hp
    exact (ok.bound _ _ hp).2
  | @step p z _ hp ih =>
    rw [show h1.parent z = h.parent z by unfold Heap.parent; rw [c.old z hz]] at hp
    exact ih (ok.bound _ _ hp).2

theorem attached_old {x : Nat} (ok : HeapOk h D) {z : Nat} {y : Nat} (c : CopyMade h D x h1 y) (hz : z < h.size) (ha : Attached h D z) : Attached h1 D z := by
  intro p hp
  rw [show h1.parent z = h.parent z by unfold Heap.parent; rw [c.old z hz]] at hp
  obtain ⟨a1, a2⟩ := ha p hp
  rw [kids_old (c.old p (ok.bound _ _ hp).2), show h1.index z = h.index z by unfold Heap.index; rw [c.old z hz]]
  exact ⟨a1, a2⟩

/-- The copy can be inserted everywhere at what is old. -/
theorem copyMade_accepted (ok : HeapOk h D) {x y t : Nat} (c : CopyMade h D x h1 y) (hx : (h.node x).kind = .tag) (ht : (h.node t).kind = .tag)
    (hb : t < h.size) : Accepted e h1 t y := by
  refine ⟨by rw [c.old t hb]; exact ht, fun hd => ?_, by have := c.new.1; omega, fun ha => ?_⟩
  · have := (c.same 1).1
    rw [hd.1, hx] at this; cases this
  · have := copyMade_above ok c hb ha
    have := c.new.1
    omega

/-- **C93, beside**: the copy of an element is inserted before or after it (or after or before any other element). In the `html` of every node above the
place the HTML of the element appears once more, directly beside the HTML of the target; nothing else changes. -/
theorem C93_beside_partial (ok : HeapOk h D) {cp : Copier} {x y t p q : Nat} (hc : copyAll cp h [x] = (h1, [y])) (c : CopyMade h D x h1 y)
    (hx : (h.node x).kind = .tag) (hbx : x < h.size) (ht : (h.node t).kind = .tag) (hat : Attached h D t) (hpar : h.parent t = some p) (hpl : PlainIn e h p)
    {pos : InsertPosition} (hpos : pos = .beforeBegin ∨ pos = .afterEnd) (hqD : ¬ D q) (hq : Within h q p) :
    ∃ h2 a o r b, insertAll e pos (copyAll cp h [x]).2 (copyAll cp h [x]).1 [t] = .ok h2 ∧ outerHtml rd e h t = .ok o ∧ outerHtml rd e h x = .ok r ∧
      innerHtml rd e h q = .ok (a ++ o ++ b) ∧ innerHtml rd e h2 q = .ok (a ++ (if pos = .afterEnd then o ++ r else r ++ o) ++ b) := by
  obtain ⟨hbt, hbp⟩ := ok.bound _ _ hpar
  have hxD := tag_live ok hx
  have hqb := within_bound ok hqD hbp hq
  have hyk : (h1.node y).kind = .tag := by rw [(c.same 1).1, hx]
  have hyr : (h1.node y).kind ≠ .root := by rw [hyk]; simp
  have ha : Accepted e h1 t y := copyMade_accepted ok c hx ht hbt
  have hay : Attached h1 D y := by intro z hz; rw [c.free] at hz; cases hz
  have hyD := tag_live c.ok hyk
  have u : Usable e h1 D (.insert pos t y) := ⟨attached_old ok c hbt hat, hay, hyD, c.new.2, by have := c.size; omega⟩
  have hpar1 : h1.parent t = some p := by rw [show h1.parent t = h.parent t by unfold Heap.parent; rw [c.old t hbt], hpar]
  have hpl1 : PlainIn e h1 p := by unfold PlainIn; rw [c.old p hbp]; exact hpl
  have hm : moved h1 y = [y] := if_neg hyr
  obtain ⟨h2, a, o, r, b, r1, r2, r3, r4, r5⟩ := C72_beside_partial (rd := rd) c.ok u ha hpos hpar1 hpl1 hqD (copyMade_into ok c hqb hqD hq)
    (by rw [hm]; simp only [List.mem_singleton, forall_eq]
        intro hw
        have := (heapOk_finite_of ok hqb hqD).1 y (copyMade_within ok c hqb hqD hw)
        have := c.new.1
        omega)
  have e1 := (C72_same (rd := rd) (e := e) (heapOk_finite_of ok hbt (tag_live ok ht)) c.size (copyMade_old ok c hbt (tag_live ok ht))).2
  have e2 := (C72_same (rd := rd) (e := e) (heapOk_finite_of ok hbx hxD) c.size c.same).2
  have e3 := (C72_same (rd := rd) (e := e) (heapOk_finite_of ok hqb hqD) c.size (copyMade_old ok c hqb hqD)).1
  exact ⟨h2, a, o, r, b, by rw [hc]; simp [insertAll, insertLoop, r1], e1 ▸ r2, e2 ▸ r3, e3 ▸ r4, r5⟩

/-- **C93, inside**: the copy of an element is appended or prepended to an element, also to one that the original is in, or to the original itself. The
`html` of the target grows at its end or at its beginning by the HTML of the original, and nothing else changes in the `html` of what is above. -/
theorem C93_inside_partial (ok : HeapOk h D) {cp : Copier} {x y t q : Nat} (hc : copyAll cp h [x] = (h1, [y])) (c : CopyMade h D x h1 y)
    (hx : (h.node x).kind = .tag) (hbx : x < h.size) (ht : (h.node t).kind = .tag) (hbt : t < h.size) (hat : Attached h D t)
    (hct : e.contentTag (h.node t).name = false) (hal : e.allow (h.tagNames t) y = true)
    {pos : InsertPosition} (hpos : pos = .afterBegin ∨ pos = .beforeEnd) (hqD : ¬ D q) (hq : Within h q t) :
    ∃ h2 a s r b, insertAll e pos (copyAll cp h [x]).2 (copyAll cp h [x]).1 [t] = .ok h2 ∧ innerHtml rd e h t = .ok s ∧ outerHtml rd e h x = .ok r ∧
      innerHtml rd e h q = .ok (a ++ s ++ b) ∧ innerHtml rd e h2 q = .ok (a ++ (if pos = .beforeEnd then s ++ r else r ++ s) ++ b) := by
  have hxD := tag_live ok hx
  have htD := tag_live ok ht
  have hqb := within_bound ok hqD hbt hq
  have hyk : (h1.node y).kind = .tag := by rw [(c.same 1).1, hx]
  have hyr : (h1.node y).kind ≠ .root := by rw [hyk]; simp
  have ha : Accepted e h1 t y := copyMade_accepted ok c hx ht hbt
  have hay : Attached h1 D y := by intro z hz; rw [c.free] at hz; cases hz
  have hyD := tag_live c.ok hyk
  have u : Usable e h1 D (.insert pos t y) := ⟨attached_old ok c hbt hat, hay, hyD, c.new.2, by have := c.size; omega⟩
  have hm : moved h1 y = [y] := if_neg hyr
  have htn : h1.tagNames t = h.tagNames t := by unfold Heap.tagNames Heap.isElem; rw [c.old t hbt]
  obtain ⟨h2, a, s, r, b, r1, r2, r3, r4, r5⟩ := C72_inside_partial (rd := rd) c.ok u ha hpos (by rw [c.old t hbt]; exact hct)
    (by rw [hm, htn]; simpa using hal) hqD (copyMade_into ok c hqb hqD hq)
    (by rw [hm]; simp only [List.mem_singleton, forall_eq]
        intro hw
        have := (heapOk_finite_of ok hqb hqD).1 y (copyMade_within ok c hqb hqD hw)
        have := c.new.1
        omega)
  have e1 := (C72_same (rd := rd) (e := e) (heapOk_finite_of ok hbt htD) c.size (copyMade_old ok c hbt htD)).1
  have e2 := (C72_same (rd := rd) (e := e) (heapOk_finite_of ok hbx hxD) c.size c.same).2
  have e3 := (C72_same (rd := rd) (e := e) (heapOk_finite_of ok hqb hqD) c.size (copyMade_old ok c hqb hqD)).1
  exact ⟨h2, a, s, r, b, by rw [hc]; simp [insertAll, insertLoop, r1], e1 ▸ r2, e2 ▸ r3, e3 ▸ r4, r5⟩

/-- A node is exchanged for another one that looks like it. -/
theorem exchange_core {g : Heap} {D2 : Nat → Prop} (ok : HeapOk h D) (ok2 : HeapOk g D2) {x y p r : Nat} {A B : List Nat} (hx : (h.node x).kind ≠ .root)
    (hxk : x ∈ h.kids p) (hDp : ¬ D p) (hk : (h.node r).kind = .root) (hD : ¬ D r) (hD2 : ¬ D2 r) (hb : r < h.size) (hp : Within h r p)
    (k1 : h.kids p = A ++ x :: B) (k2 : g.kids p = A ++ [y] ++ B) (hd : ∀ z, z < h.size → SameText h g z z)
    (hkz : ∀ z, z < h.size → ¬ D z → z ≠ p → g.kids z = h.kids z) (sxy : SameTree h g x y) (hsz : h.size ≤ g.size) :
    ∃ f f', TreeWF g r ∧ Mirror h r g r f f' ∧ (∀ z, Within h r z → ¬ Within h x z → f z = z) ∧ f x = y ∧
      (∀ z, Within h r z → SamePlace h r g r z (f z) ∧ (g.node (f z)).content = (h.node z).content ∧
        innerHtml rd e g (f z) = innerHtml rd e h z ∧ outerHtml rd e g (f z) = outerHtml rd e h z) ∧
      ∀ (env env' : Env) (rt : Bool) (own own' : Nat → Bool), EnvMirror h r env r env' f → Metas h r → Small h r → Grounded h r env rt →
        Grounded g r env' rt → MirrorAnswers h r g r f env env' rt own own' := by
  have wf := ok.tree hk hD hb
  have hxD : ¬ D x := fun h1 => hx (ok.dead x h1).1
  have hnd := ok.kids_nodup hDp
  have hxp : ¬ Within h x p := not_within_parent ok hDp hxk
  have key : ∀ (k z : Nat), Within h r z → ¬ Within h x z → SameTo h g k z z := by
    intro k
    induction k with
    | zero => intro z _ _; trivial
    | succ k ih =>
      intro z hz hn
      have hzb := wf.bound z hz
      have hzD := within_live ok hD hz
      obtain ⟨d1, d2, d3, d4⟩ := hd z hzb
      have out : ∀ a ∈ h.kids z, a ≠ x → ¬ Within h x a := fun a ha hax hw => by
        rcases within_step hw with h3 | ⟨w, hw', haw⟩
        · exact hax h3
        · exact hn (ok.kid_unique (within_live ok hxD hw') hzD haw ha ▸ hw')
      by_cases hzp : z = p
      · subst hzp
        refine ⟨d1, d2, d3, d4, by rw [k1, k2]; simp, fun i a b ha hb => ?_⟩
        have ham := List.mem_of_getElem? ha
        by_cases hax : a = x
        · subst hax
          have hi : i = A.length := by
            have h3 : (h.kids z)[A.length]? = some a := by rw [k1]; simp
            exact (List.getElem?_inj (List.getElem?_eq_some_iff.1 ha).1 hnd).1 (ha.trans h3.symm)
          rw [k2, hi] at hb
          simp at hb
          subst hb
          exact sxy k
        · have hab : b = a := by
            have hi : i ≠ A.length := by
              rintro rfl
              rw [k1] at ha; simp at ha; exact hax ha.symm
            rw [k1] at ha
            rw [k2] at hb
            rcases Nat.lt_or_gt_of_ne hi with h3 | h3
            · rw [List.getElem?_append_left h3] at ha
              rw [List.append_assoc, List.getElem?_append_left h3, ha] at hb
              exact (Option.some.inj hb).symm
            · obtain ⟨j, rfl⟩ : ∃ j, i = A.length + (j + 1) := ⟨i - A.length - 1, by omega⟩
              rw [List.getElem?_append_right (by omega)] at ha
              rw [List.append_assoc, List.getElem?_append_right (by omega)] at hb
              simp at ha hb
              rw [ha] at hb
              exact (Option.some.inj hb).symm
          subst hab
          exact ih _ (hz.step ham) (out _ ham hax)
      · refine ⟨d1, d2, d3, d4, by rw [hkz z hzb hzD hzp], fun i a b ha hb => ?_⟩
        rw [hkz z hzb hzD hzp, ha, Option.some.injEq] at hb
        subst hb
        have ham := List.mem_of_getElem? ha
        exact ih a (hz.step ham) (out a ham (by rintro rfl; exact hzp (ok.kid_unique hzD hDp ham hxk)))
  have hrx : ¬ Within h x r := fun hw => by
    rcases within_step hw with rfl | ⟨w, hw', hr⟩
    · exact hx hk
    · exact ok.kid w _ (within_live ok hxD hw') hr hk
  have sr : SameTree h g r r := fun k => key k r .self hrx
  have wf' : TreeWF g r := ok2.tree ((hd r hb).1.trans hk) hD2 (by omega)
  have m := mirror_of_same wf wf' sr
  have same : ∀ z, Within h r z → ¬ Within h x z → placeOf h r g r z = z := by
    intro z hz
    induction hz with
    | self => intro _; exact m.root
    | @step q a hq ha ih =>
      intro hn
      have hqn : ¬ Within h x q := fun hw => hn (hw.step ha)
      obtain ⟨i, hi⟩ := List.getElem?_of_mem ha
      have hk := m.kids q hq
      rw [ih hqn] at hk
      have hk := congrArg (·[i]?) hk
      simp only [List.getElem?_map, hi, Option.map_some] at hk
      by_cases hqp : q = p
      · subst hqp
        have hax : a ≠ x := by rintro rfl; exact hn .self
        have hi' : i ≠ A.length := by
          rintro rfl
          rw [k1] at hi; simp at hi; exact hax hi.symm
        rw [k1] at hi
        rw [k2] at hk
        rcases Nat.lt_or_gt_of_ne hi' with h3 | h3
        · rw [List.getElem?_append_left h3] at hi
          rw [List.append_assoc, List.getElem?_append_left h3, hi] at hk
          exact (Option.some.inj hk).symm
        · obtain ⟨j, rfl⟩ : ∃ j, i = A.length + (j + 1) := ⟨i - A.length - 1, by omega⟩
          rw [List.getElem?_append_right (by omega)] at hi
          rw [List.append_assoc, List.getElem?_append_right (by omega)] at hk
          simp at hi hk
          rw [hi] at hk
          exact (Option.some.inj hk).symm
      · rw [hkz q (wf.bound q hq) (within_live ok hD hq) hqp, hi] at hk
        exact (Option.some.inj hk).symm
  refine ⟨_, _, wf', m, same, ?_, fun z hz => ?_, fun env env' rt own own' v ev sm gr gr' =>
    mirror_answers m v wf wf' ev sm gr gr'⟩
  · have hk := m.kids p hp
    rw [same p hp hxp, k1, k2] at hk
    have hk := congrArg (·[A.length]?) hk
    simpa using hk.symm
  · have hpl := placeOf_spec sr hz
    have sz := hpl.same sr
    obtain ⟨e1, e2⟩ := C72_same (rd := rd) (e := e) (heapOk_finite_of ok (wf.bound z hz) (within_live ok hD hz)) hsz sz
    exact ⟨hpl, (sz 1).2.2.2.1, e1, e2⟩

/-- **C93, exchange**: an element is replaced with a copy of itself. The document becomes a mirror image of itself: everything that was not in the element is
the node it was, the copy stands where the original stood, everything is written as the same html, and the common questions get corresponding answers. -/
theorem C93_exchange_partial (ok : HeapOk h D) {cp : Copier} {x y p r : Nat} (hc : copyAll cp h [x] = (h1, [y])) (c : CopyMade h D x h1 y)
    (hx : (h.node x).kind = .tag) (hat : Attached h D x) (hpar : h.parent x = some p) (hk : (h.node r).kind = .root) (hD : ¬ D r) (hb : r < h.size)
    (hp : Within h r p) :
    ∃ h2 f g, replaceAll e (copyAll cp h [x]).2 (copyAll cp h [x]).1 [x] = .ok (h2, [y]) ∧ TreeWF h2 r ∧ Mirror h r h2 r f g ∧
      (∀ z, Within h r z → ¬ Within h x z → f z = z) ∧ f x = y ∧
      (∀ z, Within h r z → SamePlace h r h2 r z (f z) ∧ (h2.node (f z)).content = (h.node z).content ∧
        innerHtml rd e h2 (f z) = innerHtml rd e h z ∧ outerHtml rd e h2 (f z) = outerHtml rd e h z) ∧
      ∀ (env env' : Env) (rt : Bool) (own own' : Nat → Bool), EnvMirror h r env r env' f → Metas h r → Small h r → Grounded h r env rt →
        Grounded h2 r env' rt → MirrorAnswers h r h2 r f env env' rt own own' := by
  obtain ⟨hbx, hbp⟩ := ok.bound _ _ hpar
  have hxD := tag_live ok hx
  obtain ⟨hDp, hix⟩ := hat p hpar
  have hxk : x ∈ h.kids p := List.mem_of_getElem? hix
  have hyk : (h1.node y).kind = .tag := by rw [(c.same 1).1, hx]
  have hyr : (h1.node y).kind ≠ .root := by rw [hyk]; simp
  have hacc : Accepted e h1 x y := copyMade_accepted ok c hx hx hbx
  have hay : Attached h1 D y := by intro z hz; rw [c.free] at hz; cases hz
  have hyD := tag_live c.ok hyk
  have u : Usable e h1 D (.replace x y) := ⟨attached_old ok c hbx hat, hay, hyD, c.new.2, hacc.2.1, hacc.2.2.1, hacc.2.2.2⟩
  have hpar1 : h1.parent x = some p := by rw [show h1.parent x = h.parent x by unfold Heap.parent; rw [c.old x hbx], hpar]
  have hm : moved h1 y = [y] := if_neg hyr
  obtain ⟨h2, A, B, r1, k1, k2, k3, -, k4⟩ := replace_one c.ok u hpar1 (by rw [hm]; simp)
  obtain ⟨g, st⟩ := replace_step c.ok u
  have hg : g = h2 := by
    have := st.run
    simp only [Op.run, r1, Except.map, Except.ok.injEq] at this
    exact this.symm
  subst hg
  have ok2 : HeapOk g D := by
    have hU : (fun z => Used e h1 D z (.replace x y)) = D := by
      funext z; simp only [Used, hyr, and_false, or_false]
    exact hU ▸ st.ok
  simp only [hm, filter_notMem_single] at r1 k1 k2 k3
  have free : ∀ q, ¬ D q → y ∉ h1.kids q := fun q hq => free_of_parent_none c.ok c.free hq
  rw [filter_ne_self (free p hDp), kids_old (c.old p hbp)] at k1
  have hsz : g.size = h1.size := (data_replaceWith r1).size
  have k3' : ∀ q, ¬ D q → q ≠ p → g.kids q = h1.kids q := fun q hq hqp => by rw [k3 q hq hqp (.inr hyr), filter_ne_self (free q hq)]
  have hd : ∀ z, z < h.size → SameText h g z z := fun z hz => by
    obtain ⟨d1, d2, d3, d4, -⟩ := k4 z
    rw [c.old z hz] at d1 d2 d3 d4
    exact ⟨d1, d2, d3, d4⟩
  have hkz : ∀ z, z < h.size → ¬ D z → z ≠ p → g.kids z = h.kids z := fun z hz hzD hzp => by rw [k3' z hzD hzp, kids_old (c.old z hz)]
  have sxy : SameTree h g x y := sameTree_trans c.same (sameTree_of fun w hw => by
    refine ⟨SameData.text k4 w, k3' w (within_live c.ok hyD hw) ?_⟩
    rintro rfl
    rcases within_above c.ok hyD hw with h3 | h3
    · have := c.new.1; omega
    · have := copyMade_above ok c hbp h3
      have := c.new.1
      omega)
  obtain ⟨f, f', c1, c2, c3, c4, c5, c6⟩ := exchange_core (rd := rd) (e := e) ok ok2 (by rw [hx]; simp) hxk hDp hk hD hD hb hp k1 k2 hd hkz sxy (by have := c.size; omega)
  exact ⟨g, f, f', by rw [hc]; simp [replaceAll, replaceLoop, r1], c1, c2, c3, c4, c5, c6⟩

/-! ### Searches -/

/-- Two nodes have the same names and attributes, and so have their parents, up to the roots. -/
structure PathRel (h h' : Heap) (r r' : Nat) (C : Nat → Nat → Prop) : Prop where
  within : ∀ y y', C y y' → Within h r y ∧ Within h' r' y'
  up : ∀ y y', C y y' → (y = r ∧ y' = r') ∨ ∃ p p', C p p' ∧ y ∈ h.kids p ∧ y' ∈ h'.kids p'
  data : ∀ y y', C y y' → (h'.node y').kind = (h.node y).kind ∧ (h'.node y').name = (h.node y).name ∧ (h'.node y').attrs = (h.node y).attrs

theorem PathRel.symm {h' : Heap} {r r' : Nat} {C : Nat → Nat → Prop} (k : PathRel h h' r r' C) : PathRel h' h r' r fun y y' => C y' y where
  within := fun y y' hy => (k.within y' y hy).symm
  up := fun y y' hy => (k.up y' y hy).imp (fun h1 => ⟨h1.2, h1.1⟩) fun ⟨p, p', h1, h2, h3⟩ => ⟨p', p, h1, h3, h2⟩
  data := fun y y' hy => let ⟨h1, h2, h3⟩ := k.data y' y hy; ⟨h1.symm, h2.symm, h3.symm⟩

theorem PathRel.step {h' : Heap} {r r' : Nat} {C : Nat → Nat → Prop} (k : PathRel h h' r r' C) (wf : TreeWF h r) {y e e' : Nat} (hy : Within h r y)
    (hc : e ∈ h.kids y) (he : C e e') : ∃ y', C y y' ∧ e' ∈ h'.kids y' := by
  rcases k.up e e' he with ⟨h1, _⟩ | ⟨p, p', h1, h2, h3⟩
  · exact absurd h1 (child_ne_root wf hy hc)
  · have e1 := parent_of_child wf hy hc
    have e2 := parent_of_child wf (k.within p p' h1).1 h2
    rw [e1] at e2
    cases e2
    exact ⟨p', h1, h3⟩

theorem PathRel.above {h' : Heap} {r r' : Nat} {C : Nat → Nat → Prop} (k : PathRel h h' r r' C) (wf : TreeWF h r) {y e : Nat} (hy : Within h r y)
    (hw : Within h y e) : ∀ {e' : Nat}, C e e' → ∃ y', C y y' ∧ Within h' y' e' := by
  induction hw with
  | self => exact fun he => ⟨_, he, .self⟩
  | @step p c hp hc ih =>
    intro e' he
    obtain ⟨p', h1, h2⟩ := k.step wf (hy.trans hp) hc he
    obtain ⟨y', h3, h4⟩ := ih h1
    exact ⟨y', h3, h4.step h2⟩

theorem PathRel.rel {h' : Heap} {r r' : Nat} {C : Nat → Nat → Prop} (k : PathRel h h' r r' C) (wf : TreeWF h r) {c : Comb}
    (hc : c = .childrenAll ∨ c = .children) {y e e' : Nat} (hy : Within h r y) (he : C e e') (hr : Rel h r c y e) : ∃ y', C y y' ∧ Rel h' r' c y' e' := by
  rcases hc with rfl | rfl
  · obtain ⟨c, hc, hw⟩ := hr
    obtain ⟨c', h1, h2⟩ := k.above wf (hy.step hc) hw he
    obtain ⟨y', h3, h4⟩ := k.step wf hy hc h1
    exact ⟨y', h3, c', h4, h2⟩
  · exact k.step wf hy hr he

/-- The same selection for nodes that correspond. -/
theorem PathRel.sel {h' : Heap} {r r' : Nat} {C : Nat → Nat → Prop} (k : PathRel h h' r r' C) (wf : TreeWF h r) (wf' : TreeWF h' r')
    {st st' : List (Comb × (Nat → Bool))}
    (hs : List.Forall₂ (fun s t => s.1 = t.1 ∧ (s.1 = .childrenAll ∨ s.1 = .children) ∧ ∀ x x', C x x' → s.2 x = t.2 x') st st') :
    ∀ {A A' : Nat → Prop}, (∀ y, A y → Within h r y) → (∀ y, A' y → Within h' r' y) → (∀ y y', C y y' → (A y ↔ A' y')) →
      ∀ x x', C x x' → (Sel h r A st x ↔ Sel h' r' A' st' x') := by
  induction hs with
  | nil => intro A A' _ _ hAA x x' hx; exact hAA x x' hx
  | @cons s t st st' hst _ ih =>
    intro A A' hA hA' hAA x x' hx
    obtain ⟨c1, c2, c3⟩ := hst
    refine ih (A := Img h r A s) (A' := Img h' r' A' t) ?_ ?_ (fun e e' he => ?_) x x' hx
    · rintro y ⟨_, _, z, hz, hr⟩; exact rel_inside (hA z hz) hr
    · rintro y ⟨_, _, z, hz, hr⟩; exact rel_inside (hA' z hz) hr
    · have hel : h'.isElem e' = h.isElem e := by unfold Heap.isElem; rw [(k.data e e' he).1]
      constructor
      · rintro ⟨h1, h2, y, hy, hr⟩
        obtain ⟨y', k1, k2⟩ := k.rel wf c2 (hA y hy) he hr
        exact ⟨by rw [hel]; exact h1, by rw [← c3 e e' he]; exact h2, y', (hAA y y' k1).1 hy, c1 ▸ k2⟩
      · rintro ⟨h1, h2, y', hy, hr⟩
        rw [← c1] at hr
        obtain ⟨y, k1, k2⟩ := k.symm.rel wf' c2 (hA' y' hy) he hr
        exact ⟨by rw [← hel]; exact h1, by rw [c3 e e' he]; exact h2, y, (hAA y y' k1).2 hy, k2⟩

theorem own_sat_two {h' : Heap} {r r' : Nat} {env env' : Env} {x x' : Nat} (hd : (h'.node x').kind = (h.node x).kind ∧ (h'.node x').name = (h.node x).name ∧
    (h'.node x').attrs = (h.node x).attrs) {s : Sim} (hs : s.own = true) : Sim.Sat h' r' env' s x' ↔ Sim.Sat h r env s x := by
  obtain ⟨h1, h2, h3⟩ := hd
  cases s <;> simp only [Sim.own, Bool.false_eq_true] at hs <;> simp only [Sim.Sat, Named, HasAttr, Heap.isElem, h1, h2, h3]

theorem own_cmpd_two {h' : Heap} {r r' : Nat} {env env' : Env} {x x' : Nat} (hd : (h'.node x').kind = (h.node x).kind ∧
    (h'.node x').name = (h.node x).name ∧ (h'.node x').attrs = (h.node x).attrs) :
    ∀ {ss : List Sim}, (∀ s ∈ ss, s.own = true) → (cmpdSat h' r' env' ss x' ↔ cmpdSat h r env ss x)
  | [], _ => by simp only [cmpdSat]
  | s :: ss, hs => by
    simp only [cmpdSat]
    rw [own_sat_two hd (hs s (by simp)), own_cmpd_two hd fun t ht => hs t (by simp [ht])]

theorem own_steps_two {h' : Heap} {r r' : Nat} {C : Nat → Nat → Prop} {env env' : Env} (hd : ∀ y y', C y y' → (h'.node y').kind = (h.node y).kind ∧
    (h'.node y').name = (h.node y).name ∧ (h'.node y').attrs = (h.node y).attrs) : ∀ {cx : Complex}, Downward cx →
      (∀ s ∈ cx, ∀ t ∈ s.2, t.own = true) →
      List.Forall₂ (fun s t => s.1 = t.1 ∧ (s.1 = .childrenAll ∨ s.1 = .children) ∧ ∀ x x', C x x' → s.2 x = t.2 x') (steps h r env cx) (steps h' r' env' cx)
  | [], _, _ => by simp only [steps]; exact .nil
  | (c, ss) :: l, hdn, ho => by
    simp only [steps, step]
    refine .cons ⟨rfl, hdn (c, ss) (by simp), fun x x' hx => ?_⟩ (own_steps_two hd (cx := l) (fun s hs => hdn s (by simp [hs])) fun s hs => ho s (by simp [hs]))
    exact decide_eq_decide.2 (own_cmpd_two (hd x x' hx) (ho (c, ss) (by simp))).symm

/-- **C93, searches**: the copy of an element is put beside it or beside one of its siblings. A search from the root then finds what it found before, and the
copies of what it found in the element, and nothing else; for selectors of types, classes and attributes under descendant and child combinators. -/
theorem C93_found_partial (ok : HeapOk h D) {cp : Copier} {x y t p r : Nat} (hc : copyAll cp h [x] = (h1, [y])) (c : CopyMade h D x h1 y)
    (hx : (h.node x).kind = .tag) (ht : (h.node t).kind = .tag) (hk : (h.node r).kind = .root) (hD : ¬ D r) (hb : r < h.size) (hp : Within h r p)
    (hxp : x ∈ h.kids p) (htp : t ∈ h.kids p) (ev : Metas h r) {pos : InsertPosition} (hpos : pos = .beforeBegin ∨ pos = .afterEnd) {cx : Complex}
    (ho : Own cx) (hd : Downward cx) :
    ∃ h2, insertAll e pos (copyAll cp h [x]).2 (copyAll cp h [x]).1 [t] = .ok h2 ∧ TreeWF h2 r ∧ y ∈ h2.kids p ∧
      ∀ (env env' : Env) (res res' : List Nat), find h env [r] [cx] = .ok res → find h2 env' [r] [cx] = .ok res' →
      (∀ w, Within h r w → (w ∈ res' ↔ w ∈ res)) ∧ (∀ w w', SamePlace h x h2 y w w' → (w' ∈ res' ↔ w ∈ res)) ∧
      ∀ w' ∈ res', Within h r w' ∨ ∃ w, SamePlace h x h2 y w w' := by
  have wf := ok.tree hk hD hb
  have hDp := within_live ok hD hp
  have hxr := hp.step hxp
  have htr := hp.step htp
  have hbx := wf.bound x hxr
  have hbt := wf.bound t htr
  have hbp := wf.bound p hp
  have hpar := ok.kid_parent hDp htp
  have hyk : (h1.node y).kind = .tag := by rw [(c.same 1).1, hx]
  have hyr : (h1.node y).kind ≠ .root := by rw [hyk]; simp
  have ha : Accepted e h1 t y := copyMade_accepted ok c hx ht hbt
  have hay : Attached h1 D y := by intro z hz; rw [c.free] at hz; cases hz
  have hyD := tag_live c.ok hyk
  have u : Usable e h1 D (.insert pos t y) := ⟨attached_old ok c hbt (attached_in ok wf hD htr), hay, hyD, c.new.2, by have := c.size; omega⟩
  have hpar1 : h1.parent t = some p := by rw [show h1.parent t = h.parent t by unfold Heap.parent; rw [c.old t hbt], hpar]
  have hm : moved h1 y = [y] := if_neg hyr
  obtain ⟨h2, A, B, r1, k1, k2, k3, _, k4⟩ := insert_beside c.ok u ha (by rcases hpos with rfl | rfl <;> simp) hpar1
  obtain ⟨g, st⟩ := insert_step c.ok u
  have hg : g = h2 := by
    have := st.run
    simp only [Op.run, r1, Except.ok.injEq] at this
    exact this.symm
  subst hg
  have ok2 : HeapOk g D := by
    have hU : (fun z => Used e h1 D z (.insert pos t y)) = D := by
      funext z; simp only [Used, hyr, and_false, false_and, or_false]
    exact hU ▸ st.ok
  simp only [hm, filter_notMem_single] at k1 k2 k3
  have free : ∀ q, ¬ D q → y ∉ h1.kids q := fun q hq => free_of_parent_none c.ok c.free hq
  rw [filter_ne_self (free p hDp), kids_old (c.old p hbp)] at k1
  have hsz : g.size = h1.size := (data_insertAdjacent r1).size
  have k3' : ∀ q, ¬ D q → q ≠ p → g.kids q = h1.kids q := fun q hq hqp => by rw [k3 q hq hqp (.inr hyr), filter_ne_self (free q hq)]
  have hkp : ∀ z, z ∈ g.kids p ↔ z = y ∨ z ∈ h.kids p := fun z => by
    rw [k2, k1]
    split <;> simp <;> tauto
  have wf' : TreeWF g r := ok2.tree (by rw [(k4 r).1, c.old r hb]; exact hk) hD (by have := c.size; omega)
  have old : ∀ z, Within h r z → Within g r z := fun z hz => by
    induction hz with
    | self => exact .self
    | @step q d hq hd ih =>
      refine ih.step ?_
      by_cases hqp : q = p
      · subst hqp; exact (hkp d).2 (.inr hd)
      · rw [k3' q (within_live ok hD hq) hqp, kids_old (c.old q (wf.bound q hq))]; exact hd
  have hyg : Within g r y := (old p hp).step ((hkp y).2 (.inl rfl))
  have syy : SameTree h g x y := sameTree_trans c.same (sameTree_of fun w hw => by
    refine ⟨SameData.text k4 w, k3' w (within_live c.ok hyD hw) ?_⟩
    rintro rfl
    rcases within_above c.ok hyD hw with h3 | h3
    · have := c.new.1; omega
    · have := copyMade_above ok c hbp h3
      have := c.new.1
      omega)
  have k : PathRel h g r r fun w w' => (w = w' ∧ Within h r w) ∨ SamePlace h x g y w w' := by
    refine ⟨?_, ?_, ?_⟩
    · rintro w w' (⟨rfl, hw⟩ | hw)
      · exact ⟨hw, old w hw⟩
      · exact ⟨hxr.trans hw.within, hyg.trans hw.symm.within⟩
    · rintro w w' (⟨rfl, hw⟩ | hw)
      · rcases within_step hw with rfl | ⟨q, hq, hwq⟩
        · exact .inl ⟨rfl, rfl⟩
        · refine .inr ⟨q, q, .inl ⟨rfl, hq⟩, hwq, ?_⟩
          by_cases hqp : q = p
          · subst hqp; exact (hkp w).2 (.inr hwq)
          · rw [k3' q (within_live ok hD hq) hqp, kids_old (c.old q (wf.bound q hq))]; exact hwq
      · cases hw with
        | top => exact .inr ⟨p, p, .inl ⟨rfl, hp⟩, hxp, (hkp y).2 (.inl rfl)⟩
        | kid h3 h4 h5 => exact .inr ⟨_, _, .inr h3, List.mem_of_getElem? h4, List.mem_of_getElem? h5⟩
    · rintro w w' (⟨rfl, hw⟩ | hw)
      · obtain ⟨d1, d2, d3, -, -⟩ := k4 w
        rw [c.old w (wf.bound w hw)] at d1 d2 d3
        exact ⟨d1, d2, d3⟩
      · obtain ⟨s1, s2, s3, -⟩ := hw.same syy 1
        exact ⟨s1, s2, s3⟩
  have all : ∀ w', Within g r w' → Within h r w' ∨ ∃ w, SamePlace h x g y w w' := fun w' hw => by
    induction hw with
    | self => exact .inl .self
    | @step q d hq hd ih =>
      rcases ih with ih | ⟨w, ih⟩
      · by_cases hqp : q = p
        · subst hqp
          rcases (hkp d).1 hd with rfl | hd
          · exact .inr ⟨x, .top⟩
          · exact .inl (ih.step hd)
        · rw [k3' q (within_live ok hD ih) hqp, kids_old (c.old q (wf.bound q ih))] at hd
          exact .inl (ih.step hd)
      · obtain ⟨i, hi⟩ := List.getElem?_of_mem hd
        obtain ⟨e1, -⟩ := SameTree.kids (ih.same syy)
        have hlt : i < (h.kids w).length := by rw [← e1]; exact (List.getElem?_eq_some_iff.1 hi).1
        exact .inr ⟨_, .kid ih (List.getElem?_eq_getElem hlt) hi⟩
  have ev' : Metas g r := fun z hz he => by
    have : ∃ w, (w = z ∧ Within h r w) ∨ SamePlace h x g y w z := by
      rcases all z hz with h3 | ⟨w, h3⟩
      · exact ⟨z, .inl ⟨rfl, h3⟩⟩
      · exact ⟨w, .inr h3⟩
    obtain ⟨w, hw⟩ := this
    obtain ⟨d1, d2, d3⟩ := k.data w z hw
    rw [d3]
    exact ev w (k.within w z hw).1 (by unfold Heap.isElem at he ⊢; rw [← d1]; exact he)
  refine ⟨g, by rw [hc]; simp [insertAll, insertLoop, r1], wf', (hkp y).2 (.inl rfl), fun env env' res res' hf hf' => ?_⟩
  have key : ∀ w w', ((w = w' ∧ Within h r w) ∨ SamePlace h x g y w w') → (w' ∈ res' ↔ w ∈ res) := fun w w' hw => by
    rw [C17_find_basic wf ev ho.basic (nodes_root wf) (docSorted_single r) hf, C17_find_basic wf' ev' ho.basic (nodes_root wf') (docSorted_single r) hf']
    refine (k.sel wf wf' (own_steps_two k.data hd fun s hs => (ho.2 s hs).2.2) (by simp [Within.self]) (by simp [Within.self]) (fun z z' hz => ?_) w w' hw).symm
    simp only [List.mem_singleton]
    rcases hz with ⟨rfl, -⟩ | hz
    · exact Iff.rfl
    · constructor
      · rintro rfl
        rcases within_step hz.within with rfl | ⟨q, hq, hr⟩
        · rw [hx] at hk; cases hk
        · exact absurd hk (ok.kid q _ (within_live ok (tag_live ok hx) hq) hr)
      · rintro rfl
        rcases within_step hz.symm.within with rfl | ⟨q, hq, hr⟩
        · have := c.new.1; omega
        · exact absurd wf'.rootKind (ok2.kid q _ (within_live ok2 hyD hq) hr)
  refine ⟨fun w hw => key w w (.inl ⟨rfl, hw⟩), fun w w' hw => key w w' (.inr hw), fun w' hw => all w' ?_⟩
  exact (C17_find_elements (ph := .sorted) wf' ev' (basic_findOk ho.basic (by simp)) (nodes_root wf') (docSorted_single r) hf' w' hw).1

end

/-! ### A case -/

/-- `demo2` with a copy (14) of the inner `div` (5) and of what is in it. -/
def twinNodes : List Node :=
  demoFrag ++ [{ kind := .tag, name := "div".toList, childs := some [15, 16] }, el "p" 14 0, el "span" 14 1]

/-- The heap of `twinNodes`. -/
def twin : Heap := heapOf twinNodes

/-- A copier that is right for the node 5 of `demo2`. -/
def copyT : Copier := fun _ _ => (twin, 14)

theorem twin_made : CopyMade demo2 noneUsed 5 twin 14 where
  size := by decide
  old := fun z hz => by
    have hz : z < 14 := hz
    interval_cases z <;> rfl
  new := by decide
  free := by decide
  ok := okCheck_sound (by decide)
  same := by
    have leaf : ∀ (k : Nat) (a b : Nat), (a = 6 ∧ b = 15) ∨ (a = 7 ∧ b = 16) → SameTo demo2 twin k a b := by
      rintro (_ | k) a b (⟨rfl, rfl⟩ | ⟨rfl, rfl⟩)
      · trivial
      · trivial
      · exact ⟨by decide, by decide, by decide, by decide, by decide, fun i a b ha => by
          rw [show demo2.kids 6 = [] by decide] at ha; simp at ha⟩
      · exact ⟨by decide, by decide, by decide, by decide, by decide, fun i a b ha => by
          rw [show demo2.kids 7 = [] by decide] at ha; simp at ha⟩
    rintro (_ | k)
    · trivial
    · refine ⟨by decide, by decide, by decide, by decide, by decide, fun i a b ha hb => leaf k a b ?_⟩
      rw [show demo2.kids 5 = [6, 7] by decide] at ha
      rw [show twin.kids 14 = [15, 16] by decide] at hb
      rcases i with _ | _ | i
      · simp at ha hb; exact .inl ⟨ha.symm, hb.symm⟩
      · simp at ha hb; exact .inr ⟨ha.symm, hb.symm⟩
      · simp at ha

/-- The inner `div` is doubled. -/
example : ∃ h2 a b, insertAll ext0 .afterEnd [14] twin [5] = .ok h2 ∧
    innerHtml rd0 ext0 demo2 0 = .ok (a ++ "<div><p></p><span></span></div>".toList ++ b) ∧
    innerHtml rd0 ext0 h2 0 = .ok (a ++ ("<div><p></p><span></span></div>".toList ++ "<div><p></p><span></span></div>".toList) ++ b) := by
  have w1 : Within demo2 0 1 := Within.self.step (show 1 ∈ demo2.kids 0 by decide)
  obtain ⟨h2, a, o, r, b, r1, r2, r3, r4, r5⟩ := C93_beside_partial (rd := rd0) (e := ext0) (cp := copyT) (x := 5) (y := 14) (t := 5) (p := 1) (q := 0)
    (pos := .afterEnd) demo2_ok rfl twin_made (by decide) (by decide) (by decide) (noneUsed_eq ▸ attachedB_sound (by decide)) (by decide)
    (.inr ⟨by decide, by decide⟩) (.inr rfl) id w1
  have h5 : outerHtml rd0 ext0 demo2 5 = .ok "<div><p></p><span></span></div>".toList := by decide
  rw [h5] at r2 r3
  cases r2; cases r3
  exact ⟨h2, a, b, r1, r4, r5⟩

set_option maxRecDepth 100000 in
/-- The copy is put into the original. -/
example : ∃ h2, insertAll ext0 .beforeEnd [14] twin [5] = .ok h2 ∧
    innerHtml rd0 ext0 h2 5 = .ok "<p></p><span></span><div><p></p><span></span></div>".toList := ⟨_, rfl, by decide⟩

set_option maxRecDepth 100000 in
/-- The copy takes the place of the original. -/
example : ∃ h2, replaceAll ext0 [14] twin [5] = .ok (h2, [14]) ∧ innerHtml rd0 ext0 h2 0 = innerHtml rd0 ext0 demo2 0 := ⟨_, rfl, by decide⟩

theorem demo2_metas0 : Metas demo2 0 := fun x hx _ => by
  have wf : TreeWF demo2 0 := demo2_ok.tree (by decide) id (by decide)
  have : ∀ x < 14, metaCheck (demo2.node x).attrs = true := by decide
  exact metaCheck_sound (this x (wf.bound x hx))

set_option maxRecDepth 100000 in
example : ∃ h2, insertAll ext0 .beforeBegin [14] twin [5] = .ok h2 ∧
    find demo2 env0 [0] [[(.childrenAll, [ty "div"]), (.children, [ty "p"])]] = .ok [2, 6] ∧
    find h2 env0 [0] [[(.childrenAll, [ty "div"]), (.children, [ty "p"])]] = .ok [2, 15, 6] := ⟨_, rfl, by decide, by decide⟩

set_option maxRecDepth 100000 in
/-- C93 does not hold for ids: `#x` answers with the one node that rphtml's table of ids has for `x`, here the `p` of the original; the copy of that `p` is not
found, though `div > p` finds both. -/
theorem C93_fails_id : ∃ h2, insertAll ext0 .beforeBegin [14] twin [5] = .ok h2 ∧
    find demo2 env6 [0] [[(.childrenAll, [.id "x".toList])]] = .ok [6] ∧ SamePlace demo2 5 h2 14 6 15 ∧
    find h2 env6 [0] [[(.childrenAll, [.id "x".toList])]] = .ok [6] ∧
    find h2 env6 [0] [[(.childrenAll, [ty "div"]), (.children, [ty "p"])]] = .ok [2, 15, 6] :=
  ⟨_, rfl, by decide, .kid (i := 0) .top (by decide) (by decide), by decide, by decide⟩

end Visdom
