import Verif.Props.Markup
import Verif.Props.InsertMany
/-!
# C98: the children of an element can be put in any order
-/
namespace Visdom
open Spec

section
variable {rd : Render} {e : Ext} {h h' : Heap} {D : Nat → Prop}

/-- The loop `for n in list { t.append(n) }` of a program that sorts: `elements.rs:3663-3669 insert` for one node after the other. -/
def appendEach (e : Ext) (t : Nat) (h : Heap) : List Nat → R Heap
  | [] => .ok h
  | n :: ns =>
    match insertAll e .beforeEnd [n] h [t] with
    | .error x => .error x
    | .ok h => appendEach e t h ns

theorem appendEach_loop (t : Nat) (L : List Nat) : ∀ h, appendEach e t h L = insertLoop e .beforeEnd t h L := by
  induction L with
  | nil => intro h; rfl
  | cons n L ih =>
    intro h
    simp only [appendEach, insertAll, insertLoop, List.reverse_singleton]
    cases h.insertAdjacent e .beforeEnd t n with
    | error x => rfl
    | ok h1 => exact ih h1

/-- An arrangement of the element children of `t`. -/
structure Arranges (e : Ext) (h : Heap) (D : Nat → Prop) (t : Nat) (l : List Nat) : Prop where
  tag : (h.node t).kind = .tag
  target : Attached h D t ∧ t < h.size
  perm : l.Perm (h.children t)
  allow : ∀ n ∈ l, e.allow (h.tagNames t) n = true

theorem Arranges.live (a : Arranges e h D t l) (ok : HeapOk h D) : ¬ D t := fun hD => by
  have := (ok.dead t hD).1
  rw [a.tag] at this; cases this

theorem Arranges.mem (a : Arranges e h D t l) {n : Nat} : n ∈ l ↔ n ∈ h.kids t ∧ h.isElem n = true := by
  rw [a.perm.mem_iff, Heap.children, List.mem_filter]

theorem Arranges.insertable (a : Arranges e h D t l) (ok : HeapOk h D) : Insertable e h D t l := by
  have htD := a.live ok
  refine ⟨a.perm.nodup_iff.2 ((ok.kids_nodup htD).filter _), a.target, fun n hn => ?_⟩
  obtain ⟨hk, -⟩ := a.mem.1 hn
  have hpar := ok.kid_parent htD hk
  have hnr := ok.kid t n htD hk
  refine ⟨?_, (ok.bound n t hpar).1, hnr, a.tag, fun hd => hnr hd.1, ?_, fun hab => ok.not_above_self n (.step hab hpar)⟩
  · intro p hp
    rw [hpar, Option.some.injEq] at hp
    subst hp
    obtain ⟨i, hi⟩ := List.mem_iff_getElem?.1 hk
    rw [(ok.link t i n htD hi).2]
    exact ⟨htD, hi⟩
  · rintro rfl
    exact ok.not_above_self t (.parent hpar)

theorem isElem_data (hs : SameData h h') (x : Nat) : h'.isElem x = h.isElem x := by
  unfold Heap.isElem; rw [(hs x).1]

theorem Arranges.rest (a : Arranges e h D t l) : (h.kids t).filter (· ∉ l) = (h.kids t).filter (fun c => !h.isElem c) := by
  refine List.filter_congr fun c hc => ?_
  by_cases he : h.isElem c = true
  · simp [a.mem, hc, he]
  · simp [a.mem, he]

/-- What is the same in both directions: the lists of children of all other nodes. -/
theorem Arranges.others (a : Arranges e h D t l) (ok : HeapOk h D) {q : Nat} (hq : ¬ D q) (hqt : q ≠ t) : (h.kids q).filter (· ∉ l) = h.kids q := by
  refine List.filter_eq_self.2 fun c hc => ?_
  simp only [decide_eq_true_eq]
  intro hcl
  have h1 := ok.kid_parent hq hc
  rw [ok.kid_parent (a.live ok) (a.mem.1 hcl).1, Option.some.injEq] at h1
  exact hqt h1.symm

/-- **C98, one by one**: the element children of an element are appended to it one by one, in any order `l`. Then they stand in that order, after the texts and
comments of the element, which keep theirs; no other list of children changes, nor any name, attribute or text. -/
theorem C98_each (ok : HeapOk h D) {t : Nat} {l : List Nat} (a : Arranges e h D t l) :
    ∃ h', appendEach e t h l = .ok h' ∧ h'.children t = l ∧ h'.kids t = (h.kids t).filter (fun c => !h.isElem c) ++ l ∧
      (∀ q, ¬ D q → q ≠ t → h'.kids q = h.kids q) ∧ SameData h h' ∧ HeapOk h' D := by
  obtain ⟨h', s1, s2, s3, s4, s5⟩ := insertLoop_inside .beforeEnd (.inr rfl) t l h ok (a.insertable ok) a.allow
  rw [if_pos rfl, a.rest] at s2
  refine ⟨h', by rw [appendEach_loop, s1], ?_, s2, fun q hq hqt => by rw [s3 q hq hqt, a.others ok hq hqt], s4, s5⟩
  unfold Heap.children
  rw [s2, List.filter_append, List.filter_filter]
  have h1 : (h.kids t).filter (fun c => h'.isElem c && !h.isElem c) = [] :=
    List.filter_eq_nil_iff.2 fun c _ => by rw [isElem_data s4]; cases h.isElem c <;> simp
  rw [h1, List.nil_append]
  exact List.filter_eq_self.2 fun c hc => by rw [isElem_data s4]; exact (a.mem.1 hc).2

/-- **C98, at once**: the set with the children in the order `l` is prepended to the element in one call: they stand in that order, before the texts. Appended in
one call they stand in the reverse order (the disagreement of C36). -/
theorem C98_once (ok : HeapOk h D) {t : Nat} {l : List Nat} (a : Arranges e h D t l) :
    (∃ h', insertAll e .afterBegin l h [t] = .ok h' ∧ h'.children t = l ∧ h'.kids t = l ++ (h.kids t).filter (fun c => !h.isElem c) ∧
      (∀ q, ¬ D q → q ≠ t → h'.kids q = h.kids q) ∧ SameData h h') ∧
    ∃ h', insertAll e .beforeEnd l h [t] = .ok h' ∧ h'.children t = l.reverse ∧
      (∀ q, ¬ D q → q ≠ t → h'.kids q = h.kids q) ∧ SameData h h' := by
  have key : ∀ (h' : Heap) (m : List Nat), SameData h h' → (∀ c, c ∈ m ↔ c ∈ l) →
      m.filter h'.isElem = m ∧ ((h.kids t).filter (fun c => !h.isElem c)).filter h'.isElem = [] := by
    intro h' m s4 hm
    refine ⟨List.filter_eq_self.2 fun c hc => by rw [isElem_data s4]; exact (a.mem.1 ((hm c).1 hc)).2, ?_⟩
    rw [List.filter_filter]
    exact List.filter_eq_nil_iff.2 fun c _ => by rw [isElem_data s4]; cases h.isElem c <;> simp
  constructor
  · obtain ⟨h', s1, s2, s3, s4, -⟩ := C36_prepend_partial ok (a.insertable ok) a.allow
    rw [a.rest] at s2
    refine ⟨h', s1, ?_, s2, fun q hq hqt => by rw [s3 q hq hqt, a.others ok hq hqt], s4⟩
    obtain ⟨k1, k2⟩ := key h' l s4 fun _ => Iff.rfl
    unfold Heap.children
    rw [s2, List.filter_append, k1, k2, List.append_nil]
  · obtain ⟨h', s1, s2, s3, s4, -⟩ := C36_append_reversed ok (a.insertable ok) a.allow
    rw [a.rest] at s2
    refine ⟨h', s1, ?_, fun q hq hqt => by rw [s3 q hq hqt, a.others ok hq hqt], s4⟩
    obtain ⟨k1, k2⟩ := key h' l.reverse s4 fun _ => List.mem_reverse
    unfold Heap.children
    rw [s2, List.filter_append, k1, k2, List.nil_append]

theorem htmlsOf_total {ct : Bool} {l : List Nat} {f : Nat → List Char} (hf : ∀ c ∈ l, HtmlOf rd e h ct c (f c)) :
    HtmlsOf rd e h ct l (l.flatMap f) := by
  induction l with
  | nil => exact .nil
  | cons c l ih =>
    rw [List.flatMap_cons]
    exact .cons (hf c (by simp)) (ih fun x hx => hf x (by simp [hx]))

/-- **C98, the html**: when the children are all elements and have the outer html `f`, the `html` of the element becomes the outer html of the children one after
the other, in the order `l`, and every child is written as before. -/
theorem C98_html (ok : HeapOk h D) {t : Nat} {l : List Nat} (a : Arranges e h D t l) (hct : e.contentTag (h.node t).name = false)
    (hall : ∀ c ∈ h.kids t, h.isElem c = true) {f : Nat → List Char} (hf : ∀ c ∈ l, outerHtml rd e h c = .ok (f c)) :
    ∃ h', appendEach e t h l = .ok h' ∧ innerHtml rd e h' t = .ok (l.flatMap f) ∧ ∀ c ∈ l, outerHtml rd e h' c = .ok (f c) := by
  obtain ⟨h', s1, -, s2, s3, s4, s5⟩ := C98_each ok a
  have htD := a.live ok
  have hrest : (h.kids t).filter (fun c => !h.isElem c) = [] := List.filter_eq_nil_iff.2 fun c hc => by simp [hall c hc]
  rw [hrest, List.nil_append] at s2
  have hkd : ∀ c ∈ l, ¬ D c ∧ h.parent c = some t := fun c hc =>
    ⟨fun hd => ok.kid t c htD (a.mem.1 hc).1 (ok.dead c hd).1, ok.kid_parent htD (a.mem.1 hc).1⟩
  have hst : ∀ c ∈ l, SameTree h h' c c := by
    intro c hc
    obtain ⟨hcD, hpar⟩ := hkd c hc
    refine sameTree_of fun y hy => ⟨SameData.text s4 y, s3 y (within_live ok hcD hy) ?_⟩
    rintro rfl
    rcases within_above ok hcD hy with rfl | hab
    · exact ok.not_above_self c (.parent hpar)
    · exact ok.not_above_self c (.step hab hpar)
  have hfin : ∀ c ∈ l, FiniteTree h c := fun c hc => heapOk_finite_of ok (ok.bound c t (hkd c hc).2).1 (hkd c hc).1
  have hhtml : ∀ c ∈ l, HtmlOf rd e h' false c (f c) := fun c hc => htmlOf_same ((outerHtml_iff (hfin c hc) _).1 (hf c hc)) c (hst c hc)
  have htag : (h'.node t).kind = .tag := by rw [(s4 t).1]; exact a.tag
  have hct' : e.contentTag (h'.node t).name = false := by rw [(s4 t).2.1]; exact hct
  have hinner : InnerOf rd e h' t (l.flatMap f) := (PlainIn.inner (.inr ⟨htag, hct'⟩)).2 (by rw [s2]; exact htmlsOf_total hhtml)
  have hsz : t < h'.size := by
    cases l with
    | nil =>
      simp only [appendEach, Except.ok.injEq] at s1
      rw [← s1]; exact a.target.2
    | cons c l => exact (s5.bound c t (s5.kid_parent htD (by rw [s2]; simp))).2
  refine ⟨h', s1, (innerHtml_iff (heapOk_finite_of s5 hsz htD) (.inr htag) _).2 hinner, fun c hc => ?_⟩
  have hcsz := (s5.bound c t (s5.kid_parent htD (by rw [s2]; exact hc))).1
  exact (outerHtml_iff (heapOk_finite_of s5 hcsz (hkd c hc).1) _).2 (hhtml c hc)

/-- **C98, again**: arranging twice is arranging the second way. -/
theorem C98_again (ok : HeapOk h D) {t p : Nat} {l m : List Nat} (a : Arranges e h D t l) (hm : m.Perm l) (hp : h.parent t = some p) :
    ∃ h1 h2 k, appendEach e t h l = .ok h1 ∧ appendEach e t h1 m = .ok h2 ∧ appendEach e t h m = .ok k ∧ SameData k h2 ∧
      ∀ q, ¬ D q → h2.kids q = k.kids q := by
  obtain ⟨h1, s1, s2, s3, s4, s5, s6⟩ := C98_each ok a
  obtain ⟨k, k1, -, k3, k4, k5, -⟩ := C98_each ok (⟨a.tag, a.target, hm.trans a.perm, fun n hn => a.allow n (hm.mem_iff.1 hn)⟩ : Arranges e h D t m)
  obtain ⟨hpD, hpi⟩ := a.target.1 p hp
  have hpt : p ≠ t := by
    rintro rfl
    exact ok.not_above_self p (.parent hp)
  have hl := s6.link p (h.index t) t hpD (by rw [s4 p hpD hpt]; exact hpi)
  have htag : (h1.node t).kind = .tag := by rw [(s5 t).1]; exact a.tag
  have b : Arranges e h1 D t m := by
    refine ⟨htag, ⟨fun q hq => ?_, (s6.bound t p hl.1).1⟩, by rw [s2]; exact hm, fun n hn => by
      rw [tagNames_same s5]; exact a.allow n (hm.mem_iff.1 hn)⟩
    rw [hl.1, Option.some.injEq] at hq
    subst hq
    rw [hl.2, s4 p hpD hpt]
    exact ⟨hpD, hpi⟩
  obtain ⟨h2, r1, -, r3, r4, r5, -⟩ := C98_each s6 b
  refine ⟨h1, h2, k, s1, r1, k1, fun x => ?_, fun q hq => ?_⟩
  · obtain ⟨x1, x2, x3, x4, x5⟩ := (s5.trans r5) x
    obtain ⟨y1, y2, y3, y4, y5⟩ := k5 x
    exact ⟨x1.trans y1.symm, x2.trans y2.symm, x3.trans y3.symm, x4.trans y4.symm, x5.trans y5.symm⟩
  · by_cases hqt : q = t
    · subst hqt
      have hel : h1.isElem = h.isElem := funext fun c => isElem_data s5 c
      rw [r3, k3, s3, hel, List.filter_append, List.filter_filter]
      have h3 : l.filter (fun c => !h.isElem c) = [] := List.filter_eq_nil_iff.2 fun c hc => by simp [(a.mem.1 hc).2]
      rw [h3]
      simp
    · rw [r4 q hq hqt, s4 q hq hqt, k4 q hq hqt]

end

/-! ## The hypotheses are satisfiable -/

theorem demo2_arranges : Arranges ext0 demo2 noneUsed 1 [5, 2] :=
  ⟨by decide, ⟨by rintro p hp; cases hp; exact ⟨id, by decide⟩, by decide⟩, by decide, by decide⟩

theorem demo2_arranges5 : Arranges ext0 demo2 noneUsed 5 [7, 6] :=
  ⟨by decide, ⟨by rintro p hp; cases hp; exact ⟨id, by decide⟩, by decide⟩, by decide, by decide⟩

/-- `<div><p>a</p>b<div>…</div></div>`: the text comes first, then the `div` and the `p`. -/
example : ∃ h', appendEach ext0 1 demo2 [5, 2] = .ok h' ∧ h'.children 1 = [5, 2] ∧ h'.kids 1 = [4, 5, 2] ∧ h'.kids 5 = [6, 7] := by
  obtain ⟨h', h1, h2, h3, h4, -⟩ := C98_each demo2_ok demo2_arranges
  exact ⟨h', h1, h2, h3.trans (by decide), (h4 5 id (by decide)).trans (by decide)⟩

example : (∃ h', insertAll ext0 .afterBegin [5, 2] demo2 [1] = .ok h' ∧ h'.kids 1 = [5, 2, 4]) ∧
    ∃ h', insertAll ext0 .beforeEnd [5, 2] demo2 [1] = .ok h' ∧ h'.children 1 = [2, 5] := by
  obtain ⟨⟨h', h1, -, h3, -⟩, h2, g1, g2, -⟩ := C98_once demo2_ok demo2_arranges
  exact ⟨⟨h', h1, h3.trans (by decide)⟩, h2, g1, g2⟩

example : ∃ h', appendEach ext0 5 demo2 [7, 6] = .ok h' ∧ innerHtml rd0 ext0 h' 5 = .ok "<span></span><p></p>".toList := by
  obtain ⟨h', h1, h2, -⟩ := C98_html (rd := rd0) demo2_ok demo2_arranges5 (by decide) (by decide)
    (f := fun c => if c = 7 then "<span></span>".toList else "<p></p>".toList) (by decide)
  exact ⟨h', h1, h2⟩

example : ∃ h1 h2, appendEach ext0 5 demo2 [7, 6] = .ok h1 ∧ appendEach ext0 5 h1 [6, 7] = .ok h2 ∧ h2.kids 5 = [6, 7] := by
  obtain ⟨h1, h2, k, a, b, c, -, d⟩ := C98_again demo2_ok demo2_arranges5 (m := [6, 7]) (by decide) (rfl : demo2.parent 5 = some 1)
  refine ⟨h1, h2, a, b, (d 5 id).trans ?_⟩
  obtain ⟨k', e1, -, e2, -⟩ := C98_each demo2_ok (⟨by decide, ⟨by rintro p hp; cases hp; exact ⟨id, by decide⟩, by decide⟩, by decide, by decide⟩ : Arranges ext0 demo2 noneUsed 5 [6, 7])
  rw [c, Except.ok.injEq] at e1
  subst e1
  exact e2.trans (by decide)

end Visdom
