import Verif.Spec.Address
import Verif.Props.CommonNav
import Verif.Props.EmptyText
import Mathlib.Data.Nat.Digits.Lemmas
/-!
# C94: every element can be reached by a selector of positions
-/
namespace Visdom
open Spec

variable {h : Heap} {r : Nat} {env : Env}

theorem wayDown_within {q x : Nat} {l : List Nat} (hw : WayDown h q l x) : Within h q x := by
  induction hw with
  | here => exact .self
  | down _ hx ih => exact .step ih (List.mem_filter.1 (List.mem_of_getElem? hx)).1

theorem wayDown_snoc {q x k : Nat} {l : List Nat} : WayDown h q (l ++ [k]) x ↔
    ∃ p i, WayDown h q l p ∧ ((h.kids p).filter fun y => h.isElem y)[i]? = some x ∧ k = i + 1 := by
  constructor
  · intro hw
    generalize hm : l ++ [k] = m at hw
    cases hw with
    | here => simp at hm
    | @down l' p i x h1 h2 =>
      obtain ⟨rfl, h3⟩ := List.append_inj' hm rfl
      exact ⟨p, i, h1, h2, by simpa using h3⟩
  · rintro ⟨p, i, h1, h2, rfl⟩; exact .down h1 h2

/-- A way leads to one element only. -/
theorem wayDown_unique {q : Nat} : ∀ {l : List Nat} {x y : Nat}, WayDown h q l x → WayDown h q l y → x = y := by
  intro l
  induction l using List.reverseRecOn with
  | nil =>
    have : ∀ {x : Nat}, WayDown h q [] x → x = q := by
      intro x hx
      generalize hm : ([] : List Nat) = m at hx
      cases hx with
      | here => rfl
      | down _ _ => simp at hm
    intro x y hx hy; rw [this hx, this hy]
  | append_singleton l k ih =>
    intro x y hx hy
    obtain ⟨p, i, h1, h2, rfl⟩ := wayDown_snoc.1 hx
    obtain ⟨p', i', h1', h2', h3⟩ := wayDown_snoc.1 hy
    obtain rfl := ih h1 h1'
    obtain rfl : i = i' := by omega
    rw [h2] at h2'
    exact Option.some.inj h2'

/-- There is a way to every element. -/
theorem wayDown_exists (wf : TreeWF h r) {q x : Nat} (hq : Within h r q) (hx : Within h q x) (he : x = q ∨ h.isElem x = true) :
    ∃ l, WayDown h q l x := by
  induction hx with
  | self => exact ⟨[], .here⟩
  | @step p c hp hc ih =>
    by_cases hce : h.isElem c = true
    · have hpe : p = q ∨ h.isElem p = true := by
        by_cases hpq : p = q
        · exact .inl hpq
        · right
          by_contra hne
          have hw := hq.trans hp
          by_cases hr : (h.node p).kind = .root
          · have hpr := wf.onlyRoot _ hw hr
            cases hp with
            | self => exact hpq rfl
            | step h1 h2 =>
              have := List.mem_iff_getElem?.1 h2
              obtain ⟨i, hi⟩ := this
              have h3 := (wf.link _ _ _ (hq.trans h1) hi).1
              rw [hpr, wf.rootParent] at h3
              cases h3
          · have := wf.leaf _ hw hr (fun hk => hne (by simp [Heap.isElem, hk]))
            rw [this] at hc
            cases hc
      obtain ⟨l, hl⟩ := ih hpe
      have hm : c ∈ (h.kids p).filter fun y => h.isElem y := List.mem_filter.2 ⟨hc, hce⟩
      obtain ⟨i, hi⟩ := List.mem_iff_getElem?.1 hm
      exact ⟨_, .down hl hi⟩
    · rcases he with rfl | he
      · exact ⟨[], .here⟩
      · exact absurd he hce

open Classical in
theorem way_sel (wf : TreeWF h r) {q : Nat} (hq : Within h r q) : ∀ (l : List Nat) (x : Nat),
    Sel h r (· = q) (steps h r env (wayCx l)) x ↔ WayDown h q l x := by
  intro l
  induction l using List.reverseRecOn with
  | nil =>
    intro x
    constructor
    · intro hs; have : x = q := hs; subst this; exact .here
    · intro hw; exact wayDown_unique hw .here
  | append_singleton l k ih =>
    intro x
    have he : steps h r env (wayCx (l ++ [k])) =
        steps h r env (wayCx l) ++ [(.children, fun x => decide (cmpdSat h r env [.nthIdx false false (k : Int)] x))] := by
      simp [steps_eq, wayCx]
    rw [he, sel_snoc, wayDown_snoc]
    constructor
    · rintro ⟨h1, h2, y, h3, h4⟩
      have h2 := of_decide_eq_true h2
      rw [cmpdSat_iff] at h2
      have h2 := h2 _ (List.mem_singleton.2 rfl)
      rw [Sim.Sat] at h2
      obtain ⟨j, ⟨p, i, hp, hxp, hg, rfl⟩, hj⟩ := h2
      have h5 := (ih y).1 h3
      have hyw := hq.trans (wayDown_within h5)
      have h4 : x ∈ h.kids y := h4
      obtain ⟨a, ha⟩ := List.mem_iff_getElem?.1 h4
      obtain ⟨b, hb⟩ := List.mem_iff_getElem?.1 hxp
      have e1 := (wf.link _ _ _ hyw ha).1
      rw [(wf.link _ _ _ hp hb).1] at e1
      obtain rfl := Option.some.inj e1
      exact ⟨p, i, h5, by simpa [group] using hg, by omega⟩
    · rintro ⟨p, i, h1, h2, rfl⟩
      have hm := List.mem_filter.1 (List.mem_of_getElem? h2)
      refine ⟨hm.2, decide_eq_true ?_, p, (ih p).2 h1, hm.1⟩
      rw [cmpdSat_iff]
      intro t ht
      obtain rfl := List.mem_singleton.1 ht
      exact ⟨i + 1, ⟨p, i, hq.trans (wayDown_within h1), hm.1, by simpa [group] using h2, rfl⟩, rfl⟩

theorem way_not_looked (l : List Nat) : looked (wayCx l) = false := by
  cases l with
  | nil => simp [looked, wayCx]
  | cons i l =>
    have : heaviest (wayCx (i :: l)) = 0 := by
      have hmax : ∀ (l : List Nat) (m : Nat), l ≠ [] → (∀ a ∈ l, a = m) → l.foldr max 0 = m := by
        intro l m
        induction l with
        | nil => intro h1; exact absurd rfl h1
        | cons a l ih =>
          intro _ h2
          have ha := h2 a (by simp)
          by_cases hl : l = []
          · subst hl; simp [ha]
          · simp [ih hl (fun b hb => h2 b (by simp [hb])), ha]
      simp only [heaviest]
      rw [hmax _ (Sim.prio (.nthIdx false false 0)) (by simp [wayCx])]
      · simp [wayCx, Sim.prio]
      · intro a ha
        simp only [wayCx, List.map_map, List.mem_map, Function.comp] at ha
        obtain ⟨k, _, rfl⟩ := ha
        simp [Sim.prio]
    simp [looked, this]

theorem way_calm (l : List Nat) : calmSteps .anti (wayCx l) = true := by
  induction l with
  | nil => rfl
  | cons i l ih =>
    have : calmSteps .anti (wayCx (i :: l)) = calmSteps .anti (wayCx l) := by
      simp [wayCx, calmSteps, Phase.next]
    rw [this, ih]

/-- C94: the selector of the way from `q` finds the element at the end of the way, and nothing else; or nothing, if there is no such way. -/
theorem C94_way (wf : TreeWF h r) (ev : Metas h r) (sm : Small h r) {q : Nat} (hq : Within h r q) (hqe : q = r ∨ h.isElem q = true) {l : List Nat} (hl : l ≠ []) :
    (∀ x, find h env [q] [wayCx l] = .ok [x] ↔ WayDown h q l x) ∧
    (find h env [q] [wayCx l] = .ok [] ↔ ¬ ∃ x, WayDown h q l x) := by
  have hc : Common false (wayCx l) := by
    refine ⟨by simpa [wayCx] using hl, fun s hs => ?_⟩
    obtain ⟨i, _, rfl⟩ := List.mem_map.1 hs
    exact ⟨rfl, by simp, by simp [Sim.common], by simp [Sim.isId]⟩
  have hst : Steady (wayCx l) := by
    intro s hs
    obtain ⟨i, _, rfl⟩ := List.mem_map.1 hs
    exact .inr (by simp [Sim.shaky])
  have hcalm : calm .anti (wayCx l) = true := by
    rw [calm, way_not_looked]; exact way_calm l
  have hS : Nodes h r [q] := by
    intro x hx; obtain rfl := List.mem_singleton.1 hx; exact ⟨hq, hqe.symm⟩
  have hok := common_findOk (tot := true) (rt := false) (env := env) sm (by intro hf; cases hf) hc (fun _ => hst) (ph := .anti) (Or.inl rfl) hcalm
  obtain ⟨h1, h2⟩ := find_all wf ev hok hS (anti_single q)
  obtain ⟨res, hr⟩ := h2 rfl
  obtain ⟨h0, h3, h4⟩ := h1 res hr
  have hph : ∀ l : List Nat, Phase.after .anti ((wayCx l).map (·.1)) = .anti := by
    intro l
    induction l with
    | nil => rfl
    | cons i l ih => exact ih
  have h3 := h3 (by simp)
  rw [resultPhase, way_not_looked, if_neg (by simp), hph] at h3
  have hn : res.Nodup := ((inv_order wf h0 h3).1 (.inl rfl)).2
  have h5 : ∀ x, x ∈ res ↔ WayDown h q l x := fun x => by
    rw [h4 x, ← way_sel (env := env) wf hq l x]
    simp only [List.mem_singleton]
  rw [hr]
  constructor
  · intro x
    constructor
    · intro he
      obtain rfl := Except.ok.inj he
      exact (h5 x).1 (by simp)
    · intro hw
      have hx := (h5 x).2 hw
      have hall : ∀ y ∈ res, y = x := fun y hy => wayDown_unique ((h5 y).1 hy) hw
      match res, hn, hx, hall with
      | [a], _, hx, _ => rw [List.mem_singleton.1 hx]
      | a :: b :: _, hn, _, hall =>
        have e1 := hall a (by simp)
        have e2 := hall b (by simp)
        simp [e1, e2] at hn
  · constructor
    · rintro he ⟨x, hx⟩
      obtain rfl := Except.ok.inj he
      exact absurd ((h5 x).2 hx) List.not_mem_nil
    · intro hno
      rw [List.eq_nil_iff_forall_not_mem.2 fun x hx => hno ⟨x, (h5 x).1 hx⟩]

theorem digitsOf_num {k : Nat} (hk : k < 2 ^ 63) (h0 : 0 < k) : NumText k (digitsOf k) := by
  have hlt : ∀ d ∈ Nat.digits 10 k, d < 10 := fun d hd => Nat.digits_lt_base (by decide) hd
  have hne : Nat.digits 10 k ≠ [] := Nat.digits_ne_nil_iff_ne_zero.2 (by omega)
  have hch : ∀ d < 10, (Char.ofNat (48 + d)).toNat = 48 + d := by decide
  refine ⟨?_, by simpa [digitsOf] using hne, ?_, ?_, hk⟩
  · intro c hc
    simp only [digitsOf, List.mem_map, List.mem_reverse] at hc
    obtain ⟨d, hd, rfl⟩ := hc
    have := hlt d hd
    unfold Digit
    rw [hch d this]; omega
  · intro hh
    exfalso
    simp only [digitsOf, List.head?_map, List.head?_reverse, List.getLast?_eq_some_getLast hne, Option.map_some, Option.some.injEq] at hh
    have h1 := hlt _ (List.getLast_mem hne)
    have h2 := Nat.getLast_digit_ne_zero 10 (m := k) (by omega)
    have h3 := congrArg Char.toNat hh
    rw [hch _ h1] at h3
    have : ('0' : Char).toNat = 48 := rfl
    omega
  · have key : ∀ l : List Nat, (∀ d ∈ l, d < 10) → decimal (l.reverse.map fun d => Char.ofNat (48 + d)) = Nat.ofDigits 10 l := by
      intro l
      induction l with
      | nil => intro _; rfl
      | cons d l ih =>
        intro hl
        have h1 := ih fun d hd => hl d (by simp [hd])
        have h2 := hch d (hl d (by simp))
        simp only [decimal, List.reverse_cons, List.map_append, List.foldl_append, List.map_cons, List.map_nil, List.foldl_cons, List.foldl_nil] at h1 ⊢
        rw [h1, h2, Nat.ofDigits_cons]
        push_cast
        omega
    rw [digitsOf, key _ hlt, Nat.ofDigits_digits]

theorem way_cmpd {k : Nat} (hk : k < 2 ^ 63) (h0 : 0 < k) {P : List Complex → List Char → Prop} :
    CmpdText P [.nthIdx false false (k : Int)] (":nth-child(".toList ++ (digitsOf k ++ [')'])) := by
  have h1 : IdxText (k : Int) (digitsOf k) := IdxText.mk (neg := false) (s := []) .none (digitsOf_num hk h0)
  have h2 := SimText.nthIdx (P := P) (last := false) (ofType := false) (w := []) (w' := []) blank_nil h1 blank_nil
  simp only [List.nil_append, List.append_nil] at h2
  exact .one h2

theorem way_steps {P : List Complex → List Char → Prop} : ∀ {l : List Nat}, (∀ k ∈ l, 0 < k ∧ k < 2 ^ 63) → StepsText P (wayCx l) (wayText l) := by
  intro l
  induction l with
  | nil => intro _; exact .nil
  | cons k l ih =>
    intro hl
    have hk := hl k (by simp)
    have hc : CombText .children ['>'] := CombText.sign (w := []) (w' := []) rfl blank_nil blank_nil
    have := StepsText.cons hc (way_cmpd (P := P) hk.2 hk.1) (ih fun k hk => hl k (by simp [hk]))
    simpa [wayText, wayCx] using this

/-- The text of the way is a text of its selector. -/
theorem way_text {l : List Nat} (hl : l ≠ []) (hk : ∀ k ∈ l, 0 < k ∧ k < 2 ^ 63) : SelText [wayCx l] (wayText l) := by
  cases l with
  | nil => exact absurd rfl hl
  | cons k l =>
    have h1 := hk k (by simp)
    have h2 : HeadText .children ['>'] := HeadText.sign (w := []) rfl blank_nil
    have h3 := CoreText.mk (P := fun _ _ => False) h2 (way_cmpd h1.2 h1.1) (way_steps (l := l) fun k h => hk k (by simp [h])) AltsText.nil
    refine ⟨0, [], wayText (k :: l), [], ?_, blank_nil, blank_nil, by simp⟩
    simpa [wayText, wayCx, CoreD] using h3

theorem wayDown_nums (sm : Small h r) {q x : Nat} (hq : Within h r q) {l : List Nat} (hw : WayDown h q l x) : ∀ k ∈ l, 0 < k ∧ k < 2 ^ 63 := by
  induction hw with
  | here => simp
  | @down l p i x h1 h2 ih =>
    intro k hk
    simp only [List.mem_append, List.mem_singleton] at hk
    rcases hk with hk | rfl
    · exact ih k hk
    · have h3 := sm p (hq.trans (wayDown_within h1))
      have h4 := (List.getElem?_eq_some_iff.1 h2).1
      have h5 : (h.children p).length = ((h.kids p).filter fun y => h.isElem y).length := rfl
      rw [h5] at h3
      omega

/-- C94: from every element, or from the document, every element below can be found alone: there is a text of positions with which `find`
answers with just this element. -/
theorem C94_reach (wf : TreeWF h r) (ev : Metas h r) (sm : Small h r) {q x : Nat} (hq : Within h r q) (hqe : q = r ∨ h.isElem q = true) (hx : Below h q x)
    (hxe : h.isElem x = true) (own : Nat → Bool) : ∃ l, WayDown h q l x ∧ findText h env own [q] (wayText l) = .ok ([x], 0) := by
  have hxq : Within h q x := by
    obtain ⟨c, hc, hcx⟩ := hx; exact (Within.step .self hc).trans hcx
  obtain ⟨l, hl⟩ := wayDown_exists wf hq hxq (.inr hxe)
  have hne : l ≠ [] := by
    rintro rfl
    obtain rfl := wayDown_unique hl .here
    exact not_below_self wf hq hx
  refine ⟨l, hl, ?_⟩
  rw [C29_find_text_partial h env own (way_text hne (wayDown_nums sm hq hl)), ((C94_way (env := env) wf ev sm hq hqe hne).1 x).2 hl]
  rfl

/-- The way to the `p` in the inner `div` of the sample, and a way that leads nowhere. -/
example : WayDown demo 0 [1, 2, 1] 6 ∧ Metas demo 0 ∧ Below demo 0 6 ∧ demo.isElem 6 = true ∧ wayText [1, 2, 1] = ">:nth-child(1)>:nth-child(2)>:nth-child(1)".toList ∧
    findText demo env0 (fun _ => false) [0] (wayText [1, 2, 1]) = .ok ([6], 0) ∧ findText demo env0 (fun _ => false) [0] (wayText [1, 2, 10]) = .ok ([], 0) :=
  ⟨.down (l := [1, 2]) (i := 0) (.down (l := [1]) (i := 1) (.down (l := []) (i := 0) .here rfl) rfl) rfl, demo_metas0,
    ⟨1, by decide, .step (p := 5) (.step .self (by decide)) (by decide)⟩, rfl, by decide, by decide, by decide⟩

end Visdom
