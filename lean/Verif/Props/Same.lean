import Verif.Spec.Same
import Verif.Props.CommonNav
import Verif.Props.Laws
import Verif.Proofs.Agree
/-!
# C76: selectors that mean the same give the same results
-/
namespace Visdom
open Spec Classical
variable {h : Heap} {r : Nat} {env : Env} {rt : Bool}

theorem cmpdSat_append {a b : List Sim} {x : Nat} : cmpdSat h r env (a ++ b) x ↔ cmpdSat h r env a x ∧ cmpdSat h r env b x := by
  simp only [cmpdSat_iff, List.mem_append]
  constructor
  · exact fun hs => ⟨fun s hm => hs s (Or.inl hm), fun s hm => hs s (Or.inr hm)⟩
  · rintro ⟨h1, h2⟩ s (hm | hm)
    · exact h1 s hm
    · exact h2 s hm

theorem cmpdSat_one {s : Sim} {x : Nat} : cmpdSat h r env [s] x ↔ s.Sat h r env x := by
  rw [cmpdSat_iff]; simp

theorem cmpdSat_two {s t : Sim} {x : Nat} : cmpdSat h r env [s, t] x ↔ s.Sat h r env x ∧ t.Sat h r env x := by
  rw [cmpdSat_iff]; simp

/-- An element matches the compound, anywhere in the document. -/
theorem anySat_cmpd (wf : TreeWF h r) {a : List Sim} {x : Nat} (hx : Within h r x) (he : h.isElem x = true) :
    anySat h r env [[(.childrenAll, a)]] x ↔ cmpdSat h r env a x := by
  rw [anySat, anySat, steps, steps, step]
  have hb : Below h r x := by
    rcases within_cases hx with rfl | hb
    · exact absurd rfl (elem_ne_root wf he)
    · exact hb
  constructor
  · rintro (⟨_, h2, _⟩ | hf)
    · exact of_decide_eq_true h2
    · exact hf.elim
  · intro hs
    exact Or.inl ⟨he, decide_eq_true hs, r, rfl, hb⟩

theorem exists_atPos (wf : TreeWF h r) (last ofType : Bool) {x : Nat} (hx : Within h r x) (he : h.isElem x = true) :
    ∃ j, 1 ≤ j ∧ AtPos h r last ofType x j := by
  obtain ⟨p, hp, hxp⟩ := parent_inv wf hx (elem_ne_root wf he)
  have hpw := (parent_some wf hx hp).1
  have hc : x ∈ h.children p := mem_children.2 ⟨List.mem_of_getElem? hxp.2, he⟩
  exact ⟨_, Nat.le_add_left 1 _, (atPos_iff wf hpw hc).2 rfl⟩

theorem atPos_unique (wf : TreeWF h r) {last ofType : Bool} {x j k : Nat} (hj : AtPos h r last ofType x j) (hk : AtPos h r last ofType x k)
    (hx : Within h r x) (he : h.isElem x = true) : j = k := by
  obtain ⟨p, hp, hxp⟩ := parent_inv wf hx (elem_ne_root wf he)
  have hpw := (parent_some wf hx hp).1
  have hc : x ∈ h.children p := mem_children.2 ⟨List.mem_of_getElem? hxp.2, he⟩
  rw [(atPos_iff wf hpw hc).1 hj, (atPos_iff wf hpw hc).1 hk]

/-- Selectors that mean the same have the same elements. -/
theorem alike_sat (wf : TreeWF h r) {a b : List Sim} (hab : Alike a b) :
    ∀ {x : Nat}, Within h r x → h.isElem x = true → (cmpdSat h r env a x ↔ cmpdSat h r env b x) := by
  induction hab with
  | refl => intro x _ _; rfl
  | symm _ ih => intro x hx he; exact (ih hx he).symm
  | trans _ _ ih ih' => intro x hx he; exact (ih hx he).trans (ih' hx he)
  | append _ _ ih ih' => intro x hx he; rw [cmpdSat_append, cmpdSat_append, ih hx he, ih' hx he]
  | perm hp =>
    intro x _ _
    simp only [cmpdSat_iff]
    exact ⟨fun hs s hm => hs s (hp.mem_iff.2 hm), fun hs s hm => hs s (hp.mem_iff.1 hm)⟩
  | twice s => intro x _ _; rw [cmpdSat_two, cmpdSat_one, and_self_iff]
  | star => intro x _ _; rw [cmpdSat_one, Sim.Sat, cmpdSat]
  | name hn =>
    intro x _ _
    rw [cmpdSat_one, cmpdSat_one, Sim.Sat, Sim.Sat]
    exact and_congr_right fun _ => ⟨fun h1 => h1.trans hn, fun h1 => h1.trans hn.symm⟩
  | edge last ofType =>
    intro x _ _
    rw [cmpdSat_one, cmpdSat_one, Sim.Sat, Sim.Sat]
    constructor
    · exact fun h1 => ⟨1, h1, rfl⟩
    · rintro ⟨j, h1, h2⟩
      have : j = 1 := by omega
      rwa [this] at h1
  | index last ofType b =>
    intro x _ _
    rw [cmpdSat_one, cmpdSat_one, Sim.Sat, Sim.Sat]
    refine exists_congr fun j => and_congr_right fun _ => ?_
    unfold NthSelects
    constructor
    · rintro ⟨k, hk⟩; omega
    · intro hj; exact ⟨0, by omega⟩
  | only ofType => intro x _ _; rw [cmpdSat_one, cmpdSat_two, Sim.Sat, Sim.Sat, Sim.Sat]
  | every last ofType hb =>
    intro x hx he
    rw [cmpdSat_one, cmpdSat, Sim.Sat, iff_true]
    obtain ⟨j, h1, h2⟩ := exists_atPos wf last ofType hx he
    refine ⟨j, h2, ?_⟩
    rename_i b
    exact ⟨((j : Int) - b).toNat, by omega⟩
  | even last ofType =>
    intro x hx he
    rw [cmpdSat_one, cmpdSat_one, Sim.Sat, Sim.Sat, sel1_sat wf hx he, Sim.Sat]
    obtain ⟨j, h1, h2⟩ := exists_atPos wf last ofType hx he
    constructor
    · rintro ⟨i, hi, k, hk⟩ ⟨i', hi', k', hk'⟩
      have := atPos_unique wf hi hi' hx he
      omega
    · intro hn
      refine ⟨j, h2, ?_⟩
      by_contra hc
      refine hn ⟨j, h2, ?_⟩
      unfold NthSelects at *
      rcases Nat.even_or_odd' j with ⟨k, hk | hk⟩
      · exact absurd ⟨k, by omega⟩ hc
      · exact ⟨k, by omega⟩
  | cls hc =>
    intro x _ _
    rw [cmpdSat_one, cmpdSat_one, Sim.Sat, Sim.Sat]
    unfold ClassList AttrTest.Holds
    rw [show "class".toList = ['c', 'l', 'a', 's', 's'] from rfl]
    simp only
    generalize viewOf (h.node x).attrs ['c', 'l', 'a', 's', 's'] = v
    rcases v with _ | _ | v
    · simp
    · simp only [ne_eq, hc, not_false_eq_true, true_and]
      constructor
      · rintro ⟨l, rfl, hm⟩; cases hm
      · rintro ⟨w, hw, l, ht, hm⟩
        cases hw
        have : l = [] := tokens_nil ht
        subst this; cases hm
    · simp only [ne_eq, hc, not_false_eq_true, true_and]
      constructor
      · rintro ⟨l, ht, hm⟩; exact ⟨_, rfl, l, ht, hm⟩
      · rintro ⟨w, hw, l, ht, hm⟩
        cases hw
        exact ⟨l, ht, hm⟩
  | differs k v =>
    intro x hx he
    rw [cmpdSat_one, cmpdSat_one, Sim.Sat, Sim.Sat, sel1_sat wf hx he, Sim.Sat]
    unfold AttrTest.Holds
    simp
  | has k v =>
    intro x _ _
    rw [cmpdSat_two, cmpdSat_one, Sim.Sat, Sim.Sat, and_iff_left_iff_imp]
    rintro ⟨w, hw, _⟩
    unfold HasAttr
    rw [hw]; simp
  | starts k v =>
    intro x _ _
    rw [cmpdSat_two, cmpdSat_one, Sim.Sat, Sim.Sat, and_iff_left_iff_imp]
    rintro ⟨hn, w, hw, u, hu⟩
    exact ⟨hn, w, hw, [], u, hu⟩
  | ends k v =>
    intro x _ _
    rw [cmpdSat_two, cmpdSat_one, Sim.Sat, Sim.Sat, and_iff_left_iff_imp]
    rintro ⟨hn, w, hw, u, hu⟩
    exact ⟨hn, w, hw, u, [], by rw [hu]; simp⟩
  | part u t v =>
    intro x _ _
    rw [cmpdSat_two, cmpdSat_one, Sim.Sat, Sim.Sat, and_iff_left_iff_imp]
    rintro ⟨a, b, hab⟩
    exact ⟨a ++ u, v ++ b, by rw [hab]; simp⟩
  | notNot a =>
    intro x hx he
    rw [cmpdSat_one, Sim.Sat, sel1_sat wf hx he, Sim.Sat, not_not, anySat_cmpd wf hx he]
  | notList c cs =>
    intro x _ _
    rw [cmpdSat_two, cmpdSat_one, Sim.Sat, Sim.Sat, Sim.Sat, anySat, anySat, anySat, or_false, not_or]
  | inNot _ ih =>
    intro x hx he
    rw [cmpdSat_one, cmpdSat_one, Sim.Sat, Sim.Sat, anySat_cmpd wf hx he, anySat_cmpd wf hx he, ih hx he]
  | inHas _ ih =>
    intro x hx _
    rw [cmpdSat_one, cmpdSat_one, Sim.Sat, Sim.Sat]
    refine exists_congr fun e => and_congr_right fun hb => and_congr_right fun he => ?_
    have hw := hx.trans hb.within
    rw [anySat_cmpd wf hw he, anySat_cmpd wf hw he, ih hw he]

/-- Complex selectors that mean the same select the same elements, from every set of nodes. -/
theorem alikeCx_sel (wf : TreeWF h r) : ∀ {cx cx' : Complex}, AlikeCx cx cx' → ∀ {A B : Nat → Prop}, (∀ y, A y → Within h r y) →
    (∀ y, A y ↔ B y) → ∀ e, Sel h r A (steps h r env cx) e ↔ Sel h r B (steps h r env cx') e
  | [], [], _, A, B, _, hAB => fun e => by rw [steps]; exact hAB e
  | [], _ :: _, hc, _, _, _, _ => hc.elim
  | _ :: _, [], hc, _, _, _, _ => hc.elim
  | (c, a) :: l, (c', b) :: l', hc, A, B, hA, hAB => by
    obtain ⟨rfl, hab, hl⟩ := hc
    intro e
    rw [steps, steps, step, step]
    refine alikeCx_sel wf hl (A := Img h r A _) (B := Img h r B _) ?_ ?_ e
    · rintro y ⟨_, _, z, hz, hr⟩
      exact rel_inside (hA z hz) hr
    · intro y
      unfold Img
      refine and_congr_right fun he => ?_
      constructor
      · rintro ⟨h1, z, hz, hr⟩
        exact ⟨decide_eq_true ((alike_sat wf hab (rel_inside (hA z hz) hr) he).1 (of_decide_eq_true h1)), z, (hAB z).1 hz, hr⟩
      · rintro ⟨h1, z, hz, hr⟩
        have hz' := (hAB z).2 hz
        exact ⟨decide_eq_true ((alike_sat wf hab (rel_inside (hA z hz') hr) he).2 (of_decide_eq_true h1)), z, hz', hr⟩

theorem alike_anySat (wf : TreeWF h r) {sel sel' : List Complex} (ha : List.Forall₂ AlikeCx sel sel') (x : Nat) :
    anySat h r env sel x ↔ anySat h r env sel' x := by
  induction ha with
  | nil => rfl
  | cons h1 _ ih =>
    rw [anySat, anySat, ih, alikeCx_sel wf h1 (by rintro y rfl; exact .self) (fun _ => Iff.rfl)]

section
variable (wf : TreeWF h r) (ev : Metas h r) (sm : Small h r) (gr : Grounded h r env rt) (own : Nat → Bool)
include wf ev sm gr

/-- C76: texts of common selectors that mean the same, joined by descendant combinators: `find` gives the same list, and does not panic or
report, from every set in document order. -/
theorem C76_find_partial {cx cx' : Complex} (ha : AlikeCx cx cx') (hc : Common rt cx) (hst : Steady cx) (hc' : Common rt cx') (hst' : Steady cx')
    (hd : ∀ s ∈ cx, s.1 = Comb.childrenAll) (hd' : ∀ s ∈ cx', s.1 = Comb.childrenAll) {text text' : List Char}
    (ht : SelText [cx] text) (ht' : SelText [cx'] text') {S : List Nat} (hS : Nodes h r S) (hs : DocSorted h r S) :
    ∃ res, findText h env own S text = .ok (res, 0) ∧ findText h env own S text' = .ok (res, 0) := by
  obtain ⟨res, h1, h2, _, h4⟩ := C29_find_text_common wf ev sm gr own hc hst hd ht hS hs
  obtain ⟨res', h1', h2', _, h4'⟩ := C29_find_text_common wf ev sm gr own hc' hst' hd' ht' hS hs
  have : res = res' := by
    refine docSorted_ext h2 h2' (fun x hx => sel_inside (fun y hy => (hS y hy).1) x ((h4 x).1 hx)) (fun x => ?_) wf
    rw [h4, h4']
    exact alikeCx_sel wf ha (fun y hy => (hS y hy).1) (fun _ => Iff.rfl) x
  subst this
  exact ⟨res, h1, h1'⟩

/-- C76 for any combinators, from the root of the document: the same elements. -/
theorem C76_find_root_partial {cx cx' : Complex} (ha : AlikeCx cx cx') (hc : Common rt cx) (hst : Steady cx) (hc' : Common rt cx')
    (hst' : Steady cx') (hcalm : calm .anti cx = true) (hcalm' : calm .anti cx' = true) {text text' : List Char}
    (ht : SelText [cx] text) (ht' : SelText [cx'] text') :
    ∃ res res', findText h env own [r] text = .ok (res, 0) ∧ findText h env own [r] text' = .ok (res', 0) ∧ ∀ e, e ∈ res ↔ e ∈ res' := by
  obtain ⟨res, h1, h2⟩ := C29_find_root_common wf ev sm gr own hc hst hcalm ht
  obtain ⟨res', h1', h2'⟩ := C29_find_root_common wf ev sm gr own hc' hst' hcalm' ht'
  refine ⟨res, res', h1, h1', fun e => ?_⟩
  rw [h2, h2']
  exact alikeCx_sel wf ha (by rintro y rfl; exact .self) (fun _ => Iff.rfl) e

/-- C76 for `filter`, `not`, `is` and `is_all`, on every set in which siblings come in order. -/
theorem C76_filter_partial {cx cx' : Complex} (ha : AlikeCx cx cx') (hc : CommonTest rt false cx) (hc' : CommonTest rt false cx')
    {text text' : List Char} (ht : SelText [cx] text) (ht' : SelText [cx'] text') {X : List Nat} (hX : Elems h r X) (hq : SibAsc h X) :
    (∃ F, filterText h env own X text = .ok (F, 0) ∧ filterText h env own X text' = .ok (F, 0)) ∧
    (∃ N, notText h env own X text = .ok (N, 0) ∧ notText h env own X text' = .ok (N, 0)) ∧
    (∃ b, isText h env own X text = .ok (b, 0) ∧ isText h env own X text' = .ok (b, 0)) ∧
    ∃ b, isAllText h env own X text = .ok (b, 0) ∧ isAllText h env own X text' = .ok (b, 0) := by
  have hok : innersOk h r env true .sib [cx] := common_alts sm gr [cx] hc .sib (by simp) (by simp)
  have hok' : innersOk h r env true .sib [cx'] := common_alts sm gr [cx'] hc' .sib (by simp) (by simp)
  have hu : UnionOn h r env .sib X [cx] := Or.inl (by simp)
  have hu' : UnionOn h r env .sib X [cx'] := Or.inl (by simp)
  have hsat : ∀ x, anySat h r env [cx] x ↔ anySat h r env [cx'] x := alike_anySat wf (.cons ha .nil)
  obtain ⟨e1, e2, e3, e4, _⟩ := C29_filter_text_partial h env own ht X
  obtain ⟨f1, f2, f3, f4, _⟩ := C29_filter_text_partial h env own ht' X
  have g1 := C22_filter_exact_partial wf ev hok hu hX hq
  have g1' := C22_filter_exact_partial wf ev hok' hu' hX hq
  have g2 := C23_not_exact_partial wf ev hok hu hX hq
  have g2' := C23_not_exact_partial wf ev hok' hu' hX hq
  simp only [← hsat] at g1' g2'
  refine ⟨⟨_, by rw [e1, g1]; rfl, by rw [f1, g1']; rfl⟩, ⟨_, by rw [e2, g2]; rfl, by rw [f2, g2']; rfl⟩, ?_, ?_⟩
  · obtain ⟨b, h1, h2⟩ := C23_is_exact_partial wf ev hok hX hq
    obtain ⟨b', h1', h2'⟩ := C23_is_exact_partial wf ev hok' hX hq
    have : b = b' := by rw [Bool.eq_iff_iff, h2, h2']; simp only [hsat]
    subst this
    exact ⟨b, by rw [e3, h1]; rfl, by rw [f3, h1']; rfl⟩
  · obtain ⟨b, h1, h2⟩ := C23_is_all_exact_partial wf ev hok hu hX hq
    obtain ⟨b', h1', h2'⟩ := C23_is_all_exact_partial wf ev hok' hu' hX hq
    have : b = b' := by rw [Bool.eq_iff_iff, h2, h2']; simp only [hsat]
    subst this
    exact ⟨b, by rw [e4, h1]; rfl, by rw [f4, h1']; rfl⟩

/-- C76 for lists of alternatives: `has` on every set. -/
theorem C76_has_partial {sel sel' : List Complex} (ha : List.Forall₂ AlikeCx sel sel') (hc : altsCommon rt true sel = true)
    (hc' : altsCommon rt true sel' = true) {text text' : List Char} (ht : SelText sel text) (ht' : SelText sel' text') {X : List Nat}
    (hX : ∀ x ∈ X, Within h r x) :
    ∃ F, hasText h env own X text = .ok (F, 0) ∧ hasText h env own X text' = .ok (F, 0) := by
  have hsat := alike_anySat (env := env) wf ha
  have g := C24_has_exact_partial wf ev (common_alts sm gr sel hc .doc (by simp) fun _ => rfl) hX
  have g' := C24_has_exact_partial wf ev (common_alts sm gr sel' hc' .doc (by simp) fun _ => rfl) hX
  simp only [← hsat] at g'
  exact ⟨_, by rw [(C29_filter_text_partial h env own ht X).2.2.2.2, g]; rfl,
    by rw [(C29_filter_text_partial h env own ht' X).2.2.2.2, g']; rfl⟩

/-- C76 for `closest`, on sets in document order. -/
theorem C76_closest_partial {sel sel' : List Complex} (ha : List.Forall₂ AlikeCx sel sel') (hc : altsCommon rt true sel = true)
    (hc' : altsCommon rt true sel' = true) (hl : ∀ cx ∈ sel, looked cx = false) (hl' : ∀ cx ∈ sel', looked cx = false)
    {text text' : List Char} (ht : SelText sel text) (ht' : SelText sel' text') {X : List Nat} (hX : Elems h r X) (hs : DocSorted h r X) :
    ∃ res, closestText h env own X text = .ok (res, 0) ∧ closestText h env own X text' = .ok (res, 0) := by
  have hsat := alike_anySat (env := env) wf ha
  obtain ⟨res, h1, h2, _, h3, _⟩ := C27_closest_common wf ev sm gr hc hl hX
  obtain ⟨res', h1', h2', _, h3', _⟩ := C27_closest_common wf ev sm gr hc' hl' hX
  have : res = res' := by
    refine docSorted_ext (h3 hs) (h3' hs) (fun x hx => ?_) (fun x => ?_) wf
    · obtain ⟨y, hy, hn⟩ := (h2 x).1 hx
      exact hn.1
    · rw [h2, h2', show anySat h r env sel = anySat h r env sel' from funext fun y => propext (hsat y)]
  subst this
  exact ⟨res, by rw [(C29_closest_text_partial h env own ht X).1, h1]; rfl, by rw [(C29_closest_text_partial h env own ht' X).1, h1']; rfl⟩

end

/-- A compound without `:not` and `:has`, written alone. -/
theorem selText_cmpd {ss : List Sim} {t : List Char} (ht : CmpdText (fun _ _ => False) ss t) : SelText [[(.childrenAll, ss)]] t :=
  ⟨0, [], t, [], by have := CoreText.mk (P := fun _ _ => False) .desc ht .nil .nil; simpa [CoreD] using this, blank_nil, blank_nil, by simp⟩

/-- A simple selector in `:not(…)`. -/
theorem selText_not {s : Sim} {t : List Char} (ht : SimText (fun _ _ => False) s t) :
    SelText [[(.childrenAll, [.not [[(.childrenAll, [s])]]])]] ([':', 'n', 'o', 't', '('] ++ (t ++ [')'])) := by
  have h0 : CoreD 0 [[(.childrenAll, [s])]] t := by
    have := CoreText.mk (P := fun _ _ => False) .desc (.one ht) .nil .nil
    simpa [CoreD] using this
  have h1 : SimText (fun sel t => CoreD 0 sel t ∧ NestLast sel) (.not [[(.childrenAll, [s])]]) ([':', 'n', 'o', 't', '('] ++ ([] ++ t ++ [] ++ [')'])) :=
    .not blank_nil ⟨h0, by simp [NestLast, simsOf]⟩ blank_nil
  refine ⟨1, [], _, [], ?_, blank_nil, blank_nil, by simp; rfl⟩
  have := CoreText.mk .desc (.one h1) .nil .nil
  simpa [CoreD] using this

theorem idxText_one : IdxText 1 ['1'] :=
  .mk (neg := false) (k := 1) (s := []) (t := ['1']) .none ⟨by simp [Digit], by simp, by simp, by simp [decimal], by decide⟩

section
variable (wf : TreeWF h r) (ev : Metas h r) (sm : Small h r) (gr : Grounded h r env rt) (own : Nat → Bool)
include wf ev sm gr

/-- C76: `:first-child` and `:nth-child(1)`, `:last-of-type` and `:nth-last-of-type(1)`, and so on. -/
theorem C76_edge_partial (last ofType : Bool) {X : List Nat} (hX : Elems h r X) (hq : SibAsc h X) :
    ∃ F, filterText h env own X (edgeText last ofType) = .ok (F, 0) ∧
      filterText h env own X (nthHead last ofType ++ ['1', ')']) = .ok (F, 0) :=
  (C76_filter_partial wf ev sm gr own (cx := [(.childrenAll, [.edge last ofType])]) (cx' := [(.childrenAll, [.nthIdx last ofType 1])])
    ⟨rfl, .edge last ofType, trivial⟩ (by simp [CommonTest, altsCommon, stepsCommon, stepCommon, simsCommon, Sim.common, Comb.down])
    (by simp [CommonTest, altsCommon, stepsCommon, stepCommon, simsCommon, Sim.common, Comb.down]) (selText_cmpd (.one .edge))
    (selText_cmpd (.one (.nthIdx (w := []) (w' := []) blank_nil idxText_one blank_nil))) hX hq).1

/-- C76: `:only-child` and `:first-child:last-child`, `:only-of-type` and `:first-of-type:last-of-type`. -/
theorem C76_only_partial (ofType : Bool) {X : List Nat} (hX : Elems h r X) (hq : SibAsc h X) :
    ∃ F, filterText h env own X (onlyText ofType) = .ok (F, 0) ∧
      filterText h env own X (edgeText false ofType ++ edgeText true ofType) = .ok (F, 0) :=
  (C76_filter_partial wf ev sm gr own (cx := [(.childrenAll, [.only ofType])])
    (cx' := [(.childrenAll, [.edge false ofType, .edge true ofType])])
    ⟨rfl, .only ofType, trivial⟩ (by simp [CommonTest, altsCommon, stepsCommon, stepCommon, simsCommon, Sim.common, Comb.down])
    (by simp [CommonTest, altsCommon, stepsCommon, stepCommon, simsCommon, Sim.common, Comb.down]) (selText_cmpd (.one .only))
    (selText_cmpd (.cons .edge (by simp [Sim.isName]) (.one .edge))) hX hq).1

/-- C76: `:nth-child(even)` and `:not(:nth-child(odd))`, and the other three. -/
theorem C76_even_partial (last ofType : Bool) {X : List Nat} (hX : Elems h r X) (hq : SibAsc h X) :
    ∃ F, filterText h env own X (nthHead last ofType ++ ['e', 'v', 'e', 'n', ')']) = .ok (F, 0) ∧
      filterText h env own X ([':', 'n', 'o', 't', '('] ++ ((nthHead last ofType ++ ['o', 'd', 'd', ')']) ++ [')'])) = .ok (F, 0) :=
  (C76_filter_partial wf ev sm gr own (cx := [(.childrenAll, [.nth last ofType 2 0])])
    (cx' := [(.childrenAll, [.not (sel1 (.nth last ofType 2 1))])])
    ⟨rfl, .even last ofType, trivial⟩ (by unfold CommonTest; cases rt <;> cases last <;> cases ofType <;> decide)
    (by unfold CommonTest; cases rt <;> cases last <;> cases ofType <;> decide)
    (selText_cmpd (.one (.nth (w := []) (w' := []) blank_nil .even blank_nil)))
    (selText_not (.nth (w := []) (w' := []) blank_nil .odd blank_nil)) hX hq).1

/-- C76: `.c` and `[class~="c"]`, for every class name, however it is written. `find` from every set in document order, and `filter`. -/
theorem C76_class_partial {c t v : List Char} (ht : IdText c t) (hv : ValueText ']' c v) :
    (∀ {S : List Nat}, Nodes h r S → DocSorted h r S → ∃ F, findText h env own S ('.' :: t) = .ok (F, 0) ∧
      findText h env own S ("[class~=".toList ++ v ++ [']']) = .ok (F, 0)) ∧
    ∀ {X : List Nat}, Elems h r X → SibAsc h X → ∃ F, filterText h env own X ('.' :: t) = .ok (F, 0) ∧
      filterText h env own X ("[class~=".toList ++ v ++ [']']) = .ok (F, 0) := by
  have hne : c ≠ [] := by cases ht; simp
  have ha : AlikeCx [(.childrenAll, [.cls c])] [(.childrenAll, [.attrTest "class".toList .hasWord c])] := ⟨rfl, .cls hne, trivial⟩
  have hk : KeyText "class".toList := ⟨by simp, by simp [KeyChar, NameChar, NameStart]⟩
  have h1 : SelText [[(.childrenAll, [.cls c])]] ('.' :: t) := selText_cmpd (.one (.cls ht))
  have h2 : SelText [[(.childrenAll, [.attrTest "class".toList .hasWord c])]] ("[class~=".toList ++ v ++ [']']) := by
    have := selText_cmpd (.one (.attrTest (o := .hasWord) (w := []) (w' := []) (w'' := []) (w''' := []) blank_nil hk blank_nil blank_nil hv blank_nil))
    simpa [testText] using this
  constructor
  · intro S hS hs
    refine C76_find_partial wf ev sm gr own ha ?_ ?_ ?_ ?_ ?_ ?_ h1 h2 hS hs
    · exact ⟨by simp, by simp [Comb.down, Sim.common, Sim.isId, hne]⟩
    · intro s hs; simp at hs; subst hs; exact Or.inr (by simp [Sim.shaky])
    · exact ⟨by simp, by simp [Comb.down, Sim.common, Sim.isId, hne]⟩
    · intro s hs; simp at hs; subst hs; exact Or.inr (by simp [Sim.shaky])
    · simp
    · simp
  · intro X hX hq
    exact (C76_filter_partial wf ev sm gr own ha (by simp [CommonTest, altsCommon, stepsCommon, stepCommon, simsCommon, Sim.common, Comb.down, hne])
      (by simp [CommonTest, altsCommon, stepsCommon, stepCommon, simsCommon, Sim.common, Comb.down, hne]) h1 h2 hX hq).1

end

/-- `p:last-child` and `*:nth-last-child(0n+1)p`: they mean the same and give the same, which is neither nothing nor everything. -/
example : Alike [ty "p", .edge true false] [ty "P", .nth true false 0 1] ∧
    findText demo env0 (fun _ => true) [0] "div p:first-child".toList = .ok ([2, 6], 0) ∧
    findText demo env0 (fun _ => true) [0] "DIV P:nth-child(0n+1)".toList = .ok ([2, 6], 0) ∧
    filterText demo env0 (fun _ => true) [2, 6, 7] ":nth-child(even)".toList = .ok ([7], 0) ∧
    filterText demo env0 (fun _ => true) [2, 6, 7] ":not(:nth-child(odd))".toList = .ok ([7], 0) ∧
    filterText demo env0 (fun _ => true) [2, 7, 8, 9] ":only-child".toList = .ok ([9], 0) ∧
    filterText demo env0 (fun _ => true) [2, 7, 8, 9] ":first-child:last-child".toList = .ok ([9], 0) :=
  ⟨.append (a := [ty "p"]) (b := [ty "P"]) (.name (by decide)) ((Alike.edge _ _).trans (Alike.index _ _ _).symm), by decide, by decide, by decide,
    by decide, by decide, by decide⟩

/-- Where C76 fails for `find`: after `>`, on an element without children, one of the two panics and the other finds nothing. -/
theorem C76_fails_child :
    findText demo env0 (fun _ => true) [0] "p > :last-child".toList = .error .overflow ∧
    findText demo env0 (fun _ => true) [0] "p > :nth-last-child(0n+1)".toList = .ok ([], 0) ∧
    findText demo env0 (fun _ => true) [0] "p > :nth-child(odd)".toList = .error .outOfBounds ∧
    findText demo env0 (fun _ => true) [0] "p > :not(:nth-child(even))".toList = .ok ([], 0) ∧
    findText demo env0 (fun _ => true) [0] "p > :last-child:first-child".toList = .error .overflow ∧
    findText demo env0 (fun _ => true) [0] "p > :first-child:last-child".toList = .ok ([], 0) := by
  decide

/-- Where C76 fails for `filter`, on a set in which siblings are not in order: `:nth-child(n)` changes the order, `*` does not. -/
theorem C76_fails_order :
    filterText demo env0 (fun _ => true) [7, 6] ":nth-child(n)".toList = .ok ([6, 7], 0) ∧
    filterText demo env0 (fun _ => true) [7, 6] "*".toList = .ok ([7, 6], 0) := by
  decide

end Visdom
