import Verif.Spec.Html
import Verif.Props.Isolation
import Mathlib.Data.List.Perm.Subperm
/-!
# Proofs about the HTML of nodes
-/
namespace Visdom
open Spec

section
variable {rd : Render} {e : Ext} {h h' : Heap} {D : Nat → Prop}

/-! ## The walk ends -/

theorem nodup_bound {l : List Nat} {n : Nat} (hn : l.Nodup) (hb : ∀ x ∈ l, x < n) : l.length ≤ n := by
  have := (hn.subperm (l₂ := List.range n) fun x hx => List.mem_range.2 (hb x hx)).length_le
  simpa using this

theorem acc_not_below {x : Nat} (ha : Acc (fun c p => c ∈ h.kids p) x) : ¬ Below h x x := by
  induction ha with
  | intro x _ ih =>
    rintro ⟨c, hc, hw⟩
    refine ih c hc ?_
    rcases within_cases hw with rfl | hb
    · exact .of_child hc
    · exact Below.snoc hb.within hc

theorem acc_within {x y : Nat} (ha : Acc (fun c p => c ∈ h.kids p) x) (hw : Within h x y) : Acc (fun c p => c ∈ h.kids p) y := by
  induction hw with
  | self => exact ha
  | step _ hc ih => exact ih.inv hc

theorem pieceF_total : ∀ (n : Nat) (anc : List Nat) (x : Nat) (ct : Bool), FiniteTree h x → anc.Nodup → (∀ a ∈ anc, a < h.size ∧ Below h a x) →
    h.size + 1 ≤ n + anc.length → ∃ s, pieceF rd e h n ct x = .ok s
  | 0, anc, x, ct, _, hn, ha, hl => by
    have := nodup_bound hn fun a h1 => (ha a h1).1
    omega
  | n + 1, anc, x, ct, hf, hn, ha, hl => by
    have hx : x ∉ anc := fun hm => acc_not_below hf.2 (ha x hm).2
    have key : ∀ ct, ∃ s, flatMapR (pieceF rd e h n ct) (h.kids x) = .ok s := fun ct => by
      refine flatMapR_total fun c hc => ?_
      refine pieceF_total n (x :: anc) c ct ⟨fun y hy => hf.1 y (hy.head hc), hf.2.inv hc⟩ (List.nodup_cons.2 ⟨hx, hn⟩) ?_ (by
        simp only [List.length_cons]; omega)
      intro a hm
      rcases List.mem_cons.1 hm with rfl | hm
      · exact ⟨hf.1 _ .self, .of_child hc⟩
      · exact ⟨(ha a hm).1, Below.snoc (ha a hm).2.within hc⟩
    unfold pieceF
    cases hk : (h.node x).kind with
    | root => exact key false
    | tag =>
      obtain ⟨s, hs⟩ := key (e.contentTag (h.node x).name)
      simp only [hs]
      exact ⟨_, rfl⟩
    | _ => exact ⟨_, rfl⟩

/-! ## Model and specification -/

theorem pieces_sound {n : Nat} {ct : Bool} (ih : ∀ x s, pieceF rd e h n ct x = .ok s → HtmlOf rd e h ct x s) :
    ∀ (l : List Nat) (s : List Char), flatMapR (pieceF rd e h n ct) l = .ok s → HtmlsOf rd e h ct l s
  | [], s, hs => by simp only [flatMapR, Except.ok.injEq] at hs; subst hs; exact .nil
  | x :: l, s, hs => by
    simp only [flatMapR] at hs
    cases h1 : pieceF rd e h n ct x with
    | error p => simp [h1] at hs
    | ok a =>
      cases h2 : flatMapR (pieceF rd e h n ct) l with
      | error p => simp [h1, h2] at hs
      | ok b =>
        simp only [h1, h2, Except.ok.injEq] at hs
        subst hs
        exact .cons (ih _ _ h1) (pieces_sound ih l b h2)

theorem pieceF_sound : ∀ (n : Nat) (ct : Bool) (x : Nat) (s : List Char), pieceF rd e h n ct x = .ok s → HtmlOf rd e h ct x s
  | 0, _, _, _, hs => by simp [pieceF] at hs
  | n + 1, ct, x, s, hs => by
    unfold pieceF at hs
    cases hk : (h.node x).kind with
    | root =>
      simp only [hk] at hs
      exact .root hk (pieces_sound (pieceF_sound n false) _ _ hs)
    | tag =>
      simp only [hk] at hs
      cases h1 : flatMapR (pieceF rd e h n (e.contentTag (h.node x).name)) (h.kids x) with
      | error p => simp [h1] at hs
      | ok a =>
        simp only [h1, Except.ok.injEq] at hs
        subst hs
        exact .elem hk (pieces_sound (pieceF_sound n _) _ _ h1)
    | _ =>
      simp only [hk, Except.ok.injEq] at hs
      subst hs
      have := HtmlOf.leaf (rd := rd) (e := e) (h := h) (ct := ct) (x := x) (by simp [hk]) (by simp [hk])
      simpa [leafOf, hk] using this

mutual
theorem htmlOf_fun {ct : Bool} {x : Nat} {s t : List Char} : HtmlOf rd e h ct x s → HtmlOf rd e h ct x t → s = t
  | .leaf h1 h2, .leaf _ _ => rfl
  | .leaf h1 _, .root h3 _ => absurd h3 h1
  | .leaf _ h2, .elem h3 _ => absurd h3 h2
  | .root h1 _, .leaf h2 _ => absurd h1 h2
  | .root _ h1, .root _ h2 => htmlsOf_fun h1 h2
  | .root h1 _, .elem h2 _ => by rw [h1] at h2; cases h2
  | .elem h1 _, .leaf _ h2 => absurd h1 h2
  | .elem h1 _, .root h2 _ => by rw [h1] at h2; cases h2
  | .elem _ h1, .elem _ h2 => by rw [htmlsOf_fun h1 h2]
theorem htmlsOf_fun {ct : Bool} {l : List Nat} {s t : List Char} : HtmlsOf rd e h ct l s → HtmlsOf rd e h ct l t → s = t
  | .nil, .nil => rfl
  | .cons h1 h2, .cons h3 h4 => by rw [htmlOf_fun h1 h3, htmlsOf_fun h2 h4]
end

theorem innerOf_fun {x : Nat} {s t : List Char} : InnerOf rd e h x s → InnerOf rd e h x t → s = t
  | .root _ h1, .root _ h2 => htmlsOf_fun h1 h2
  | .root h1 _, .elem h2 _ => by rw [h1] at h2; cases h2
  | .elem h1 _, .root h2 _ => by rw [h1] at h2; cases h2
  | .elem _ h1, .elem _ h2 => by rw [htmlsOf_fun h1 h2]

theorem pieceF_full {x : Nat} (hf : FiniteTree h x) (ct : Bool) : ∃ s, pieceF rd e h h.fuel ct x = .ok s ∧ HtmlOf rd e h ct x s := by
  obtain ⟨s, hs⟩ := pieceF_total (rd := rd) (e := e) h.fuel [] x ct hf (by simp) (by simp) (by simp [Heap.fuel])
  exact ⟨s, hs, pieceF_sound _ _ _ _ hs⟩

theorem pieces_full {l : List Nat} (hf : ∀ x ∈ l, FiniteTree h x) (ct : Bool) :
    ∃ s, flatMapR (pieceF rd e h h.fuel ct) l = .ok s ∧ HtmlsOf rd e h ct l s := by
  obtain ⟨s, hs⟩ := flatMapR_total (f := pieceF rd e h h.fuel ct) (l := l) fun x hx => by
    obtain ⟨s, hs, _⟩ := pieceF_full (rd := rd) (e := e) (hf x hx) ct
    exact ⟨s, hs⟩
  exact ⟨s, hs, pieces_sound (pieceF_sound _ _) _ _ hs⟩

theorem FiniteTree.kid {x c : Nat} (hf : FiniteTree h x) (hc : c ∈ h.kids x) : FiniteTree h c :=
  ⟨fun y hy => hf.1 y (hy.head hc), hf.2.inv hc⟩

theorem outerHtml_iff {x : Nat} (hf : FiniteTree h x) (s : List Char) : outerHtml rd e h x = .ok s ↔ HtmlOf rd e h false x s := by
  obtain ⟨t, h1, h2⟩ := pieceF_full (rd := rd) (e := e) hf false
  unfold outerHtml
  rw [h1]
  simp only [Except.ok.injEq]
  exact ⟨fun h3 => h3 ▸ h2, fun h3 => htmlOf_fun h2 h3⟩

theorem innerHtml_iff {x : Nat} (hf : FiniteTree h x) (hk : (h.node x).kind = .root ∨ (h.node x).kind = .tag) (s : List Char) :
    innerHtml rd e h x = .ok s ↔ InnerOf rd e h x s := by
  have hfk : ∀ c ∈ h.kids x, FiniteTree h c := fun c hc => FiniteTree.kid hf hc
  rcases hk with hk | hk
  · obtain ⟨t, h1, h2⟩ := pieces_full (rd := rd) (e := e) hfk false
    unfold innerHtml
    simp only [hk, h1, Except.ok.injEq]
    exact ⟨fun h3 => h3 ▸ .root hk h2, fun h3 => innerOf_fun (.root hk h2) h3⟩
  · obtain ⟨t, h1, h2⟩ := pieces_full (rd := rd) (e := e) hfk (e.contentTag (h.node x).name)
    unfold innerHtml
    simp only [hk, h1, Except.ok.injEq]
    exact ⟨fun h3 => h3 ▸ .elem hk h2, fun h3 => innerOf_fun (.elem hk h2) h3⟩

theorem outer_total {x : Nat} (hf : FiniteTree h x) : ∃ s, HtmlOf rd e h false x s := by
  obtain ⟨t, _, h2⟩ := pieceF_full (rd := rd) (e := e) hf false
  exact ⟨t, h2⟩

theorem inner_total {x : Nat} (hf : FiniteTree h x) (hk : (h.node x).kind = .root ∨ (h.node x).kind = .tag) : ∃ s, InnerOf rd e h x s := by
  have hfk : ∀ c ∈ h.kids x, FiniteTree h c := fun c hc => FiniteTree.kid hf hc
  rcases hk with hk | hk
  · obtain ⟨t, _, h2⟩ := pieces_full (rd := rd) (e := e) hfk false
    exact ⟨_, .root hk h2⟩
  · obtain ⟨t, _, h2⟩ := pieces_full (rd := rd) (e := e) hfk (e.contentTag (h.node x).name)
    exact ⟨_, .elem hk h2⟩

/-! ## Finite trees -/

theorem heapOk_finite_of (ok : HeapOk h D) {x : Nat} (hx : x < h.size) (hD : ¬ D x) : FiniteTree h x := by
  have hnd : ∀ y, Within h x y → ¬ D y := by
    intro y hy
    induction hy with
    | self => exact hD
    | step _ hc ih => exact fun hd => ok.kid _ _ ih hc (ok.dead _ hd).1
  have hin : ∀ y, Within h x y → y < h.size := by
    intro y hy
    cases hy with
    | self => exact hx
    | step hw hc => exact (ok.bound _ _ (ok.kid_parent (hnd _ hw) hc)).1
  refine ⟨hin, ?_⟩
  let R : Fin h.size → Fin h.size → Prop := fun c p => Above h p c
  haveI : IsTrans (Fin h.size) R := ⟨fun a b c hab hbc => Above.trans hbc hab⟩
  haveI : Std.Irrefl R := ⟨fun a => ok.not_above_self a⟩
  have wf : WellFounded R := Finite.wellFounded_of_trans_of_irrefl R
  have key : ∀ y : Fin h.size, Within h x y → Acc (fun c p => c ∈ h.kids p) (y : Nat) := by
    intro y
    induction y using wf.induction with
    | _ y ih =>
      intro hw
      refine .intro _ fun c hc => ?_
      have hpc := ok.kid_parent (hnd _ hw) hc
      exact ih ⟨c, (ok.bound _ _ hpc).1⟩ (.parent hpc) (.step hw hc)
  exact key ⟨x, hx⟩ .self

theorem finite_same {x : Nat} (hf : FiniteTree h x) (hs : h.size ≤ h'.size) (hk : ∀ y, Within h x y → h'.kids y = h.kids y) : FiniteTree h' x := by
  have hw : ∀ y, Within h' x y → Within h x y := by
    intro y hy
    induction hy with
    | self => exact .self
    | step _ hc ih => exact .step ih (hk _ ih ▸ hc)
  refine ⟨fun y hy => Nat.lt_of_lt_of_le (hf.1 y (hw y hy)) hs, ?_⟩
  have key : ∀ y, Acc (fun c p => c ∈ h.kids p) y → Within h x y → Acc (fun c p => c ∈ h'.kids p) y := by
    intro y ha
    induction ha with
    | intro y _ ih =>
      intro hy
      refine .intro _ fun c hc => ?_
      rw [hk y hy] at hc
      exact ih c hc (.step hy hc)
  exact key x hf.2 .self

/-! ## Subtrees that look the same -/

/-- Nothing that is written for the node itself is changed. -/
def SameText (h h' : Heap) (x y : Nat) : Prop :=
  (h'.node y).kind = (h.node x).kind ∧ (h'.node y).name = (h.node x).name ∧ (h'.node y).attrs = (h.node x).attrs ∧
    (h'.node y).content = (h.node x).content

theorem SameText.leaf {x y : Nat} (st : SameText h h' x y) (ct : Bool) : leafOf rd h' ct y = leafOf rd h ct x := by
  obtain ⟨h1, h2, h3, h4⟩ := st
  simp only [leafOf, h1, h2, h3, h4]
theorem SameText.start {x y : Nat} (st : SameText h h' x y) : startOf rd h' y = startOf rd h x := by
  obtain ⟨h1, h2, h3, h4⟩ := st
  simp only [startOf, h2, h3]
theorem SameText.stop {x y : Nat} (st : SameText h h' x y) : endOf rd h' y = endOf rd h x := by
  obtain ⟨h1, h2, h3, h4⟩ := st
  simp only [endOf, h2, h3]
theorem SameText.body {x y : Nat} (st : SameText h h' x y) : bodyOf rd e h' y = bodyOf rd e h x := by
  obtain ⟨h1, h2, h3, h4⟩ := st
  simp only [bodyOf, h2, h4]

mutual
theorem htmlOf_same {ct : Bool} {x : Nat} {s : List Char} : HtmlOf rd e h ct x s → ∀ y, SameTree h h' x y → HtmlOf rd e h' ct y s
  | .leaf h1 h2, y, st => by
    obtain ⟨s1, s2, s3, s4, _, _⟩ := st 1
    have t : SameText h h' x y := ⟨s1, s2, s3, s4⟩
    rw [← t.leaf]
    exact .leaf (by rw [s1]; exact h1) (by rw [s1]; exact h2)
  | .root h1 h2, y, st => by
    obtain ⟨s1, _, _, _, s5, _⟩ := st 1
    refine .root (by rw [s1]; exact h1) (htmlsOf_same h2 (h'.kids y) s5 fun i a b ha hb k => ?_)
    obtain ⟨_, _, _, _, _, s6⟩ := st (k + 1)
    exact s6 i a b ha hb
  | .elem h1 h2, y, st => by
    obtain ⟨s1, s2, s3, s4, s5, _⟩ := st 1
    have t : SameText h h' x y := ⟨s1, s2, s3, s4⟩
    rw [← t.start, ← t.stop, ← t.body (rd := rd) (e := e)]
    refine .elem (by rw [s1]; exact h1) ?_
    rw [s2]
    refine htmlsOf_same h2 (h'.kids y) s5 fun i a b ha hb k => ?_
    obtain ⟨_, _, _, _, _, s6⟩ := st (k + 1)
    exact s6 i a b ha hb
theorem htmlsOf_same {ct : Bool} {l : List Nat} {s : List Char} : HtmlsOf rd e h ct l s → ∀ m : List Nat, m.length = l.length →
    (∀ (i a b : Nat), l[i]? = some a → m[i]? = some b → SameTree h h' a b) → HtmlsOf rd e h' ct m s
  | .nil, m, hl, _ => by
    cases m with
    | nil => exact .nil
    | cons => simp at hl
  | .cons h1 h2, m, hl, hs => by
    cases m with
    | nil => simp at hl
    | cons b m =>
      refine .cons (htmlOf_same h1 b (hs 0 _ b rfl rfl)) (htmlsOf_same h2 m (by simpa using hl) fun i a b ha hb => ?_)
      exact hs (i + 1) a b (by simpa using ha) (by simpa using hb)
end

theorem innerOf_same {x y : Nat} {s : List Char} (hi : InnerOf rd e h x s) (st : SameTree h h' x y) : InnerOf rd e h' y s := by
  obtain ⟨s1, s2, s3, s4, s5, _⟩ := st 1
  have t : SameText h h' x y := ⟨s1, s2, s3, s4⟩
  have hkids : ∀ i a b : Nat, (h.kids x)[i]? = some a → (h'.kids y)[i]? = some b → SameTree h h' a b := by
    intro i a b ha hb k
    obtain ⟨_, _, _, _, _, s6⟩ := st (k + 1)
    exact s6 i a b ha hb
  cases hi with
  | root h1 h2 => exact .root (by rw [s1]; exact h1) (htmlsOf_same h2 _ s5 hkids)
  | elem h1 h2 =>
    rw [← t.body (rd := rd) (e := e)]
    refine .elem (by rw [s1]; exact h1) ?_
    rw [s2]
    exact htmlsOf_same h2 _ s5 hkids

/-- A part of the heap that is left alone. -/
theorem sameTree_of {x : Nat} (hs : ∀ y, Within h x y → SameText h h' y y ∧ h'.kids y = h.kids y) : SameTree h h' x x := by
  intro k
  have key : ∀ (k y : Nat), Within h x y → SameTo h h' k y y := by
    intro k
    induction k with
    | zero => intro y _; trivial
    | succ k ih =>
      intro y hy
      obtain ⟨⟨h1, h2, h3, h4⟩, h5⟩ := hs y hy
      refine ⟨h1, h2, h3, h4, by rw [h5], fun i a b ha hb => ?_⟩
      rw [h5, ha, Option.some.injEq] at hb
      subst hb
      exact ih a (.step hy (List.mem_of_getElem? ha))
  exact key k x .self

/-! ## Lists -/

theorem htmlsOf_append {ct : Bool} {l m : List Nat} {s t : List Char} (h1 : HtmlsOf rd e h ct l s) (h2 : HtmlsOf rd e h ct m t) :
    HtmlsOf rd e h ct (l ++ m) (s ++ t) := by
  induction l generalizing s with
  | nil => cases h1; exact h2
  | cons x l ih =>
    cases h1 with
    | cons h3 h4 => rw [List.append_assoc]; exact .cons h3 (ih h4)

theorem htmlsOf_split {ct : Bool} {l m : List Nat} {s : List Char} (h1 : HtmlsOf rd e h ct (l ++ m) s) :
    ∃ a b, s = a ++ b ∧ HtmlsOf rd e h ct l a ∧ HtmlsOf rd e h ct m b := by
  induction l generalizing s with
  | nil => exact ⟨[], s, rfl, .nil, h1⟩
  | cons x l ih =>
    cases h1 with
    | cons h3 h4 =>
      obtain ⟨a, b, rfl, h5, h6⟩ := ih h4
      exact ⟨_, b, (List.append_assoc ..).symm, .cons h3 h5, h6⟩

theorem htmlsOf_one {ct : Bool} {x : Nat} {s : List Char} : HtmlsOf rd e h ct [x] s ↔ HtmlOf rd e h ct x s := by
  constructor
  · rintro (_ | ⟨h1, ⟨⟩⟩)
    simpa using h1
  · intro h1
    simpa using HtmlsOf.cons h1 .nil

/-- The flag does not matter for elements. -/
theorem htmlOf_flag {ct : Bool} {x : Nat} {s : List Char} (hk : (h.node x).kind = .tag) (h1 : HtmlOf rd e h ct x s) (ct' : Bool) :
    HtmlOf rd e h ct' x s := by
  cases h1 with
  | leaf _ h2 => exact absurd hk h2
  | root h2 _ => rw [hk] at h2; cases h2
  | elem h2 h3 => exact .elem h2 h3

theorem htmlsOf_kept {ct : Bool} {l : List Nat} {s : List Char} (h1 : HtmlsOf rd e h ct l s) (hs : ∀ x ∈ l, SameTree h h' x x) :
    HtmlsOf rd e h' ct l s := by
  refine htmlsOf_same h1 l rfl fun i a b ha hb => ?_
  rw [ha, Option.some.injEq] at hb
  subst hb
  exact hs a (List.mem_of_getElem? ha)

/-! ## The place of a node in the HTML of the nodes above it -/

theorem within_live (ok : HeapOk h D) {x y : Nat} (hD : ¬ D x) (hw : Within h x y) : ¬ D y := by
  induction hw with
  | self => exact hD
  | step _ hc ih => exact fun hd => ok.kid _ _ ih hc (ok.dead _ hd).1

theorem within_above (ok : HeapOk h D) {x y : Nat} (hD : ¬ D x) (hw : Within h x y) : x = y ∨ Above h x y := by
  induction hw with
  | self => exact .inl rfl
  | @step p c hw hc ih =>
    have hp := ok.kid_parent (within_live ok hD hw) hc
    rcases ih with rfl | ih
    · exact .inr (.parent hp)
    · exact .inr (.step ih hp)

/-- Two nodes above the same node are above each other. -/
theorem above_linear {a b x : Nat} (h1 : Above h a x) (h2 : Above h b x) : a = b ∨ Above h a b ∨ Above h b a := by
  induction h1 with
  | parent hp =>
    rcases above_cases h2 hp with rfl | h3
    · exact .inl rfl
    · exact .inr (.inr h3)
  | @step p x h3 hp ih =>
    rcases above_cases h2 hp with rfl | h4
    · exact .inr (.inl h3)
    · exact ih h4

theorem siblings_apart (ok : HeapOk h D) {p a b y : Nat} (hD : ¬ D p) (ha : a ∈ h.kids p) (hb : b ∈ h.kids p) (hab : a ≠ b)
    (h1 : Within h a y) (h2 : Within h b y) : False := by
  have hpa := ok.kid_parent hD ha
  have hpb := ok.kid_parent hD hb
  have up : ∀ {c d : Nat}, h.parent c = some p → h.parent d = some p → ¬ Above h c d := by
    intro c d hc hd hcd
    rcases above_cases hcd hd with rfl | h3
    · exact ok.not_above_self _ (.parent hc)
    · exact ok.not_above_self _ (.step h3 hc)
  have la : ¬ D a := fun hd => ok.kid _ _ hD ha (ok.dead _ hd).1
  have lb : ¬ D b := fun hd => ok.kid _ _ hD hb (ok.dead _ hd).1
  rcases within_above ok la h1 with rfl | h3 <;> rcases within_above ok lb h2 with rfl | h4
  · exact hab rfl
  · exact up hpb hpa h4
  · exact up hpa hpb h3
  · rcases above_linear h3 h4 with h5 | h5 | h5
    · exact hab h5
    · exact up hpa hpb h5
    · exact up hpb hpa h5

theorem not_within_parent (ok : HeapOk h D) {p c : Nat} (hD : ¬ D p) (hc : c ∈ h.kids p) : ¬ Within h c p := by
  intro hw
  have hpc := ok.kid_parent hD hc
  have lc : ¬ D c := fun hd => ok.kid _ _ hD hc (ok.dead _ hd).1
  rcases within_above ok lc hw with rfl | h1
  · exact ok.not_above_self _ (.parent hpc)
  · exact ok.not_above_self _ (.step h1 hpc)

/-- Whether the children of a node stand in a content tag. -/
def flagOf (e : Ext) (h : Heap) (x : Nat) : Bool := decide ((h.node x).kind = .tag) && e.contentTag (h.node x).name

theorem innerOf_kids {x : Nat} {s : List Char} (hk : (h.node x).kind = .root ∨ (h.node x).kind = .tag)
    (hs : HtmlsOf rd e h (flagOf e h x) (h.kids x) s) : InnerOf rd e h x ((if (h.node x).kind = .tag then bodyOf rd e h x else []) ++ s) := by
  rcases hk with hk | hk
  · rw [flagOf, hk] at hs
    rw [hk]
    exact .root hk hs
  · rw [flagOf, hk] at hs
    rw [hk]
    exact .elem hk hs

theorem SameText.flag {x y : Nat} (st : SameText h h' x y) : flagOf e h' y = flagOf e h x := by
  obtain ⟨h1, h2, h3, h4⟩ := st
  simp only [flagOf, h1, h2]

/-- When nothing changes but in `p`, the HTML of the nodes above changes at one place. -/
theorem html_context (ok : HeapOk h D) {q : Nat} (hq : q < h.size) (hD : ¬ D q) :
    ∀ {p : Nat}, Within h q p → (h.node p).kind = .root ∨ (h.node p).kind = .tag → SameText h h' p p →
      (∀ y, Within h q y → ¬ Within h p y → SameText h h' y y ∧ h'.kids y = h.kids y) → ∀ {s s' : List Char},
      HtmlsOf rd e h (flagOf e h p) (h.kids p) s → HtmlsOf rd e h' (flagOf e h p) (h'.kids p) s' →
      ∃ a b, InnerOf rd e h q (a ++ s ++ b) ∧ InnerOf rd e h' q (a ++ s' ++ b) := by
  intro p hw
  induction hw with
  | self =>
    intro hk st _ s s' hs hs'
    have hk' : (h'.node q).kind = .root ∨ (h'.node q).kind = .tag := by rw [st.1]; exact hk
    refine ⟨if (h.node q).kind = .tag then bodyOf rd e h q else [], [], ?_, ?_⟩
    · have := innerOf_kids hk hs
      simpa using this
    · rw [← st.flag] at hs'
      have := innerOf_kids hk' hs'
      rw [st.1, st.body] at this
      simpa using this
  | @step m p hm hp ih =>
    intro hk st hrest s s' hs hs'
    have lm := within_live ok hD hm
    have hpt : (h.node p).kind = .tag := hk.resolve_left (ok.kid m p lm hp)
    have hkm : (h.node m).kind = .root ∨ (h.node m).kind = .tag := by
      by_contra hc
      have hl := ok.leaf m (fun h1 => hc (.inl h1)) fun h1 => hc (.inr h1)
      rw [hl] at hp
      cases hp
    obtain ⟨hsm, hkid⟩ := hrest m hm (not_within_parent ok lm hp)
    have hfin : ∀ c ∈ h.kids m, FiniteTree h c := fun c hc =>
      heapOk_finite_of ok (ok.bound _ _ (ok.kid_parent lm hc)).1 fun hd => ok.kid _ _ lm hc (ok.dead _ hd).1
    have hnd := ok.kids_nodup lm
    obtain ⟨A, B, hAB⟩ := List.append_of_mem hp
    have hne : ∀ c, c ∈ A ∨ c ∈ B → c ∈ h.kids m ∧ c ≠ p := by
      intro c hc
      rw [hAB] at hnd
      refine ⟨by rw [hAB]; simp only [List.mem_append, List.mem_cons]; tauto, ?_⟩
      rintro rfl
      rw [List.nodup_append] at hnd
      obtain ⟨_, n2, n3⟩ := hnd
      rcases hc with hc | hc
      · exact n3 _ hc _ (by simp) rfl
      · exact (List.nodup_cons.1 n2).1 hc
    have hkeep : ∀ c, c ∈ A ∨ c ∈ B → SameTree h h' c c := by
      intro c hc
      obtain ⟨c1, c2⟩ := hne c hc
      exact sameTree_of fun y hy => hrest y (hm.trans (hy.head c1)) fun hpy => siblings_apart ok lm c1 hp c2 hy hpy
    obtain ⟨la, _, hla⟩ := pieces_full (rd := rd) (e := e) (l := A) (fun c hc => hfin c (hne c (.inl hc)).1) (flagOf e h m)
    obtain ⟨lb, _, hlb⟩ := pieces_full (rd := rd) (e := e) (l := B) (fun c hc => hfin c (hne c (.inr hc)).1) (flagOf e h m)
    have hf : flagOf e h p = e.contentTag (h.node p).name := by simp [flagOf, hpt]
    rw [hf] at hs hs'
    have hpt' : (h'.node p).kind = .tag := by rw [st.1]; exact hpt
    have o1 : HtmlOf rd e h (flagOf e h m) p _ := .elem hpt hs
    have o2 : HtmlOf rd e h' (flagOf e h m) p (startOf rd h p ++ (bodyOf rd e h p ++ s') ++ endOf rd h p) := by
      rw [← st.start, ← st.stop, ← st.body (rd := rd) (e := e)]
      refine .elem hpt' ?_
      rw [st.2.1]
      exact hs'
    have w1 := htmlsOf_append hla (HtmlsOf.cons o1 hlb)
    have w2 := htmlsOf_append (htmlsOf_kept hla fun c hc => hkeep c (.inl hc))
      (HtmlsOf.cons o2 (htmlsOf_kept hlb fun c hc => hkeep c (.inr hc)))
    rw [← hAB] at w1 w2
    rw [← hkid] at w2
    obtain ⟨a, b, i1, i2⟩ := ih hkm hsm (fun y hy hny => hrest y hy fun hpy => hny (hpy.head hp)) w1 w2
    refine ⟨a ++ la ++ startOf rd h p ++ bodyOf rd e h p, endOf rd h p ++ lb ++ b, ?_, ?_⟩
    · simpa [List.append_assoc] using i1
    · simpa [List.append_assoc] using i2

/-! ## The walk through a subtree that looks the same -/

theorem flatMapR_pair {f g : Nat → R (List Char)} : ∀ (l m : List Nat) (s : List Char), m.length = l.length →
    (∀ (i a b : Nat), l[i]? = some a → m[i]? = some b → ∀ s, f a = .ok s → g b = .ok s) → flatMapR f l = .ok s → flatMapR g m = .ok s
  | [], m, s, hl, _, hs => by
    cases m with
    | nil => exact hs
    | cons => simp at hl
  | a :: l, m, s, hl, hfg, hs => by
    cases m with
    | nil => simp at hl
    | cons b m =>
      simp only [flatMapR] at hs ⊢
      cases h1 : f a with
      | error p => simp [h1] at hs
      | ok x =>
        cases h2 : flatMapR f l with
        | error p => simp [h1, h2] at hs
        | ok y =>
          simp only [h1, h2, Except.ok.injEq] at hs
          rw [hfg 0 a b rfl rfl x h1, flatMapR_pair l m y (by simpa using hl) (fun i a b ha hb => hfg (i + 1) a b (by simpa using ha) (by simpa using hb)) h2]
          simp [hs]

theorem pieceF_same : ∀ (n k : Nat) (ct : Bool) (x y : Nat) (s : List Char), SameTree h h' x y → pieceF rd e h n ct x = .ok s →
    pieceF rd e h' (n + k) ct y = .ok s
  | 0, _, _, _, _, _, _, hs => by simp [pieceF] at hs
  | n + 1, k, ct, x, y, s, st, hs => by
    have e1 : n + 1 + k = (n + k) + 1 := by omega
    rw [e1]
    obtain ⟨s1, s2, s3, s4, s5, _⟩ := st 1
    have hkid : ∀ ct s, flatMapR (pieceF rd e h n ct) (h.kids x) = .ok s → flatMapR (pieceF rd e h' (n + k) ct) (h'.kids y) = .ok s := by
      intro ct s
      refine flatMapR_pair _ _ s s5 fun i a b ha hb s hs => ?_
      refine pieceF_same n k ct a b s (fun j => ?_) hs
      obtain ⟨_, _, _, _, _, s6⟩ := st (j + 1)
      exact s6 i a b ha hb
    unfold pieceF at hs ⊢
    rw [s1, s2, s3, s4]
    cases hk : (h.node x).kind with
    | root => simp only [hk] at hs ⊢; exact hkid _ _ hs
    | tag =>
      simp only [hk] at hs ⊢
      cases h1 : flatMapR (pieceF rd e h n (e.contentTag (h.node x).name)) (h.kids x) with
      | error p => simp [h1] at hs
      | ok a => rw [hkid _ _ h1]; simpa [h1] using hs
    | _ => simpa [hk] using hs

theorem html_same {x y : Nat} (hf : FiniteTree h x) (hsz : h.size ≤ h'.size) (st : SameTree h h' x y) :
    innerHtml rd e h' y = innerHtml rd e h x ∧ outerHtml rd e h' y = outerHtml rd e h x := by
  have hfu : ∃ k, h'.fuel = h.fuel + k := ⟨h'.size - h.size, by simp only [Heap.fuel]; omega⟩
  obtain ⟨k, hk⟩ := hfu
  obtain ⟨s1, s2, s3, s4, s5, _⟩ := st 1
  have hkid : ∀ ct, flatMapR (pieceF rd e h' h'.fuel ct) (h'.kids y) = flatMapR (pieceF rd e h h.fuel ct) (h.kids x) := by
    intro ct
    obtain ⟨s, hs, _⟩ := pieces_full (rd := rd) (e := e) (l := h.kids x) (fun c hc => FiniteTree.kid hf hc) ct
    rw [hs]
    refine flatMapR_pair _ _ s s5 (fun i a b ha hb s hs => ?_) hs
    rw [hk]
    refine pieceF_same _ k ct a b s (fun j => ?_) hs
    obtain ⟨_, _, _, _, _, s6⟩ := st (j + 1)
    exact s6 i a b ha hb
  constructor
  · unfold innerHtml
    rw [s1, s2, s4, hkid, hkid]
  · unfold outerHtml
    obtain ⟨s, hs, _⟩ := pieceF_full (rd := rd) (e := e) hf false
    rw [hs, hk]
    exact pieceF_same _ k _ _ _ _ st hs

end

end Visdom
