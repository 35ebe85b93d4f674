import Verif.Props.Same
import Verif.Props.AnyOrder
/-!
# C64: calls one after the other and the selectors that stand for them
-/
namespace Visdom
open Spec Classical
variable {h : Heap} {r : Nat} {env : Env} {rt : Bool}

theorem selectChain_append (L : List Nat) (a b : List Cmpd) :
    selectChain h L (a ++ b) = (selectChain h L a).bind fun l => selectChain h l b := by
  induction a generalizing L with
  | nil => rfl
  | cons c a ih =>
    simp only [List.cons_append, selectChain]
    split
    · next he =>
      cases b with
      | nil => rfl
      | cons d b => simp only [Except.bind, selectChain, he, if_true]
    · cases select h L c none with
      | error p => rfl
      | ok l => exact ih l

/-- A selector that is not rearranged is evaluated compound by compound. -/
theorem find_chain {cx : Complex} (hcx : ∀ s ∈ cx, s.1 ≠ Comb.chain ∧ s.2 ≠ []) (hne : cx ≠ []) (hl : looked cx = false) (S : List Nat) :
    find h env S [cx] = selectChain h S (optCmpds h env cx) := by
  cases cx with
  | nil => exact absurd rfl hne
  | cons s l =>
    by_cases hS : S = []
    · subst hS
      rw [find_nil]
      simp [optCmpds, selectChain]
    · rw [find_single hS, optimize_plain _ hl hcx]
      have he : S.isEmpty = false := by simpa using hS
      simp only [optCmpds, List.map_cons, findProc, findFirst, selectChain, he]
      cases select h S (optimizeCmpd (simSegs h env s.1 s.2)) none <;> rfl

/-- C64: `find("A B")` is `find("A").find("B")`, also `find("A > B")` and `find("A").find("> B")` and so on: the same result or the same
panic, for all sets, all trees and all selectors that the parser does not rearrange. -/
theorem C64_find_twice_any (own : Nat → Bool) {a b : Complex} (ha : looked a = false) (hb : looked b = false) (hab : looked (a ++ b) = false)
    (hd : ∀ s ∈ a ++ b, Comb.down s.1 = true ∧ s.2 ≠ []) {ta tb tab : List Char} (hta : SelText [a] ta) (htb : SelText [b] tb)
    (htab : SelText [a ++ b] tab) (S : List Nat) :
    findText h env own S tab = (findText h env own S ta).bind fun l => findText h env own l.1 tb := by
  have hcx : ∀ s ∈ a ++ b, s.1 ≠ Comb.chain ∧ s.2 ≠ [] := fun s hs => ⟨fun e => (by have := (hd s hs).1; rw [e] at this; cases this), (hd s hs).2⟩
  have hne : ∀ {c : Complex} {t : List Char}, SelText [c] t → c ≠ [] := by
    rintro c t ⟨d, w, t', w', hc, _⟩ rfl
    cases d <;> cases hc
  rw [C29_find_text_partial h env own hta, C29_find_text_partial h env own htab,
    find_chain hcx (by simp [hne hta]) hab, find_chain (fun s hs => hcx s (by simp [hs])) (hne hta) ha]
  have : optCmpds h env (a ++ b) = optCmpds h env a ++ optCmpds h env b := by simp [optCmpds]
  rw [this, selectChain_append]
  cases selectChain h S (optCmpds h env a) with
  | error p => rfl
  | ok l =>
    simp only [Except.bind, Except.map]
    rw [C29_find_text_partial h env own htb, find_chain (fun s hs => hcx s (by simp [hs])) (hne htb) hb]
    rfl

/-! ## Descendants, on sets in document order -/

/-- A common selector with descendant combinators only. -/
def Descends (rt : Bool) (cx : Complex) : Prop := Common rt cx ∧ Steady cx ∧ ∀ s ∈ cx, s.1 = Comb.childrenAll

theorem Descends.append {a b : Complex} (ha : Descends rt a) (hb : Descends rt b) : Descends rt (a ++ b) := by
  obtain ⟨⟨a1, a2⟩, a3, a4⟩ := ha
  obtain ⟨⟨b1, b2⟩, b3, b4⟩ := hb
  have hda : descOnly a = true := by simpa [descOnly] using a4
  have hdb : descOnly b = true := by simpa [descOnly] using b4
  have hdab : descOnly (a ++ b) = true := by
    simp only [descOnly, List.all_append, Bool.and_eq_true]
    exact ⟨hda, hdb⟩
  refine ⟨⟨by simp [a1], fun s hs => ?_⟩, fun s hs => ?_, fun s hs => ?_⟩
  · rw [hdab]
    rcases List.mem_append.1 hs with hm | hm
    · have := a2 s hm; rwa [hda] at this
    · have := b2 s hm; rwa [hdb] at this
  · exact (List.mem_append.1 hs).elim (a3 s) (b3 s)
  · exact (List.mem_append.1 hs).elim (a4 s) (b4 s)

/-- The last compound may be given further conditions. -/
theorem Descends.refine {a : Complex} {ss ts : List Sim} (ha : Descends rt (a ++ [(.childrenAll, ss)])) (ht : ∀ t ∈ ts, t.common rt true = true)
    (hst : Steady [(.childrenAll, ss ++ ts)]) : Descends rt (a ++ [(.childrenAll, ss ++ ts)]) := by
  obtain ⟨⟨_, a2⟩, a3, a4⟩ := ha
  have hd : descOnly (a ++ [(.childrenAll, ss)]) = true := by
    simp only [descOnly, List.all_eq_true, beq_iff_eq]
    exact a4
  have ha' : ∀ s ∈ a, s.1 = Comb.childrenAll := fun s hs => a4 s (by simp [hs])
  have hd' : descOnly (a ++ [(.childrenAll, ss ++ ts)]) = true := by
    simp only [descOnly, List.all_append, List.all_eq_true, Bool.and_eq_true, beq_iff_eq]
    exact ⟨ha', by simp⟩
  rw [hd] at a2
  refine ⟨⟨by simp, fun s hs => ?_⟩, fun s hs => ?_, fun s hs => ?_⟩
  · rw [hd']
    rcases List.mem_append.1 hs with hm | hm
    · exact a2 s (by simp [hm])
    · rw [List.mem_singleton] at hm
      subst hm
      obtain ⟨_, k2, k3, _⟩ := a2 (.childrenAll, ss) (by simp)
      refine ⟨rfl, by simp only [ne_eq, List.append_eq_nil_iff, not_and]; exact fun e => absurd e k2, fun t hm => ?_, by simp⟩
      rcases List.mem_append.1 hm with hm | hm
      · exact k3 t hm
      · simpa using ht t hm
  · rcases List.mem_append.1 hs with hm | hm
    · exact a3 s (by simp [hm])
    · exact hst s hm
  · rcases List.mem_append.1 hs with hm | hm
    · exact ha' s hm
    · rw [List.mem_singleton] at hm; rw [hm]

/-- Selected by a selector with further conditions in the last compound. -/
theorem sel_refine {A : Nat → Prop} {a : Complex} {c : Comb} {ss ts : List Sim} {x : Nat} :
    Sel h r A (steps h r env (a ++ [(c, ss ++ ts)])) x ↔ Sel h r A (steps h r env (a ++ [(c, ss)])) x ∧ cmpdSat h r env ts x := by
  rw [steps_app, steps_app, steps_eq [_], steps_eq [_], List.map_singleton, List.map_singleton, sel_snoc, sel_snoc]
  simp only [Img, decide_eq_true_eq, cmpdSat_append]
  tauto

/-- Selected elements are elements of the tree. -/
theorem sel_elems {cx : Complex} (hne : cx ≠ []) {A : Nat → Prop} (hA : ∀ y, A y → Within h r y) {M : List Nat}
    (hM : ∀ x, x ∈ M ↔ Sel h r A (steps h r env cx) x) : Elems h r M := by
  intro x hx
  refine ⟨sel_inside hA x ((hM x).1 hx), ?_⟩
  obtain ⟨l, s, rfl⟩ : ∃ l s, cx = l ++ [s] := ⟨_, _, (List.dropLast_append_getLast hne).symm⟩
  have := (hM x).1 hx
  rw [steps_app, steps_eq [_], List.map_singleton, sel_snoc] at this
  exact this.1

section Desc
variable (wf : TreeWF h r) (ev : Metas h r) (sm : Small h r) (gr : Grounded h r env rt) (own : Nat → Bool)
include wf ev sm gr

/-- C64: `find("A B")` is `find("A").find("B")`. -/
theorem C64_find_twice_common {a b : Complex} (ha : Descends rt a) (hb : Descends rt b) {ta tb tab : List Char} (hta : SelText [a] ta)
    (htb : SelText [b] tb) (htab : SelText [a ++ b] tab) {S : List Nat} (hS : Nodes h r S) (hs : DocSorted h r S) :
    ∃ M res, findText h env own S ta = .ok (M, 0) ∧ findText h env own M tb = .ok (res, 0) ∧ findText h env own S tab = .ok (res, 0) := by
  have hab := ha.append hb
  obtain ⟨M, h1, h2, _, h4⟩ := C29_find_text_common wf ev sm gr own ha.1 ha.2.1 ha.2.2 hta hS hs
  have hM : Nodes h r M := Elems.nodes (sel_elems ha.1.1 (fun y hy => (hS y hy).1) h4)
  obtain ⟨res, k1, k2, _, k4⟩ := C29_find_text_common wf ev sm gr own hb.1 hb.2.1 hb.2.2 htb hM h2
  obtain ⟨res', l1, l2, _, l4⟩ := C29_find_text_common wf ev sm gr own hab.1 hab.2.1 hab.2.2 htab hS hs
  have : res = res' := by
    refine docSorted_ext k2 l2 (fun x hx => sel_inside (fun y hy => (hM y hy).1) x ((k4 x).1 hx)) (fun x => ?_) wf
    rw [k4, l4, steps_app, sel_append, sel_congr h4]
  subst this
  exact ⟨M, res, h1, k1, l1⟩

/-- A set found, and a subset of it. -/
theorem found_sub {a : Complex} {ss ts : List Sim} {S M F res : List Nat} (hS : Nodes h r S) (hM : DocSorted h r M)
    (hm : ∀ e, e ∈ M ↔ Sel h r (· ∈ S) (steps h r env (a ++ [(.childrenAll, ss)])) e) (hF : F.Sublist M)
    (hf : ∀ x ∈ M, x ∈ F ↔ cmpdSat h r env ts x) (hres : DocSorted h r res)
    (hr : ∀ e, e ∈ res ↔ Sel h r (· ∈ S) (steps h r env (a ++ [(.childrenAll, ss ++ ts)])) e) : F = res := by
  refine docSorted_ext (List.Pairwise.sublist hF hM) hres
    (fun x hx => sel_inside (fun y hy => (hS y hy).1) x ((hm x).1 (hF.subset hx))) (fun x => ?_) wf
  rw [hr, sel_refine, ← hm]
  constructor
  · exact fun hx => ⟨hF.subset hx, (hf x (hF.subset hx)).1 hx⟩
  · exact fun hx => (hf x hx.1).2 hx.2

/-- C64: `find("Xab")` is `find("Xa").filter("b")`, where `a` and `b` are lists of simple selectors. -/
theorem C64_find_filter_common {a : Complex} {ss ts : List Sim} (ha : Descends rt (a ++ [(.childrenAll, ss)])) (ht : CommonCmpd rt true ts)
    (hst : Steady [(.childrenAll, ss ++ ts)]) {ta tb tab : List Char} (hta : SelText [a ++ [(.childrenAll, ss)]] ta)
    (htb : SelText [[(.childrenAll, ts)]] tb) (htab : SelText [a ++ [(.childrenAll, ss ++ ts)]] tab) {S : List Nat} (hS : Nodes h r S)
    (hs : DocSorted h r S) :
    ∃ M res, findText h env own S ta = .ok (M, 0) ∧ filterText h env own M tb = .ok (res, 0) ∧ findText h env own S tab = .ok (res, 0) := by
  have hab := ha.refine ht.2 hst
  obtain ⟨M, h1, h2, _, h4⟩ := C29_find_text_common wf ev sm gr own ha.1 ha.2.1 ha.2.2 hta hS hs
  have hM := sel_elems ha.1.1 (fun y hy => (hS y hy).1) h4
  obtain ⟨res, l1, l2, _, l4⟩ := C29_find_text_common wf ev sm gr own hab.1 hab.2.1 hab.2.2 htab hS hs
  have hc : CommonList rt [[(.childrenAll, ts)]] := by
    refine ⟨Or.inl (by simp), ?_⟩
    have : simsCommon rt true ts = true := by
      have := ht.2
      clear ht hst htb htab hab l4
      induction ts with
      | nil => rfl
      | cons t ts ih => rw [simsCommon, this t (by simp), ih fun s hs => this s (by simp [hs])]; rfl
    have hne : ts.isEmpty = false := by simpa using ht.1
    simp [altsCommon, stepsCommon, stepCommon, this, hne, Comb.down]
  have hf := (C29_filter_text_common wf ev sm gr own hc htb hM h2).1
  refine ⟨M, _, h1, hf, ?_⟩
  rw [l1, found_sub wf ev sm gr hS h2 h4 List.filter_sublist (fun x hx => ?_) l2 l4]
  rw [List.mem_filter, decide_eq_true_eq, ← anySat_iff, anySat_cmpd wf (hM x hx).1 (hM x hx).2]
  exact and_iff_right hx

/-- C64: `find("Xa:not(S)")` is `find("Xa").not("S")`. -/
theorem C64_find_not_common {a : Complex} {ss : List Sim} (ha : Descends rt (a ++ [(.childrenAll, ss)])) {sel : List Complex}
    (hc : CommonList rt sel) {ta tb tab : List Char} (hta : SelText [a ++ [(.childrenAll, ss)]] ta) (htb : SelText sel tb)
    (htab : SelText [a ++ [(.childrenAll, ss ++ [.not sel])]] tab) {S : List Nat} (hS : Nodes h r S) (hs : DocSorted h r S) :
    ∃ M res, findText h env own S ta = .ok (M, 0) ∧ notText h env own M tb = .ok (res, 0) ∧ findText h env own S tab = .ok (res, 0) := by
  have hab : Descends rt (a ++ [(.childrenAll, ss ++ [.not sel])]) := by
    refine ha.refine (fun t ht => ?_) (fun s hs => ?_)
    · rw [List.mem_singleton] at ht
      subst ht
      simpa [Sim.common, CommonList] using hc
    · rw [List.mem_singleton] at hs
      subst hs
      rcases ha.2.1 (.childrenAll, ss) (by simp) with ⟨t, h1, h2⟩ | h1
      · exact Or.inl ⟨t, by simp [h1], h2⟩
      · refine Or.inr fun t ht => ?_
        rcases List.mem_append.1 ht with ht | ht
        · exact h1 t ht
        · rw [List.mem_singleton] at ht; subst ht; rfl
  obtain ⟨M, h1, h2, _, h4⟩ := C29_find_text_common wf ev sm gr own ha.1 ha.2.1 ha.2.2 hta hS hs
  have hM := sel_elems ha.1.1 (fun y hy => (hS y hy).1) h4
  obtain ⟨res, l1, l2, _, l4⟩ := C29_find_text_common wf ev sm gr own hab.1 hab.2.1 hab.2.2 htab hS hs
  refine ⟨M, _, h1, (C29_filter_text_common wf ev sm gr own hc htb hM h2).2, ?_⟩
  rw [l1, found_sub wf ev sm gr hS h2 h4 List.filter_sublist (fun x hx => ?_) l2 l4]
  rw [List.mem_filter, decide_eq_true_eq, cmpdSat_one, Sim.Sat, anySat_iff]
  simp only [hx, true_and, not_exists, not_and]

/-- C64: `find("Xa:has(S)")` is `find("Xa").has("S")`. -/
theorem C64_find_has_common {a : Complex} {ss : List Sim} (ha : Descends rt (a ++ [(.childrenAll, ss)])) {sel : List Complex}
    (hc : altsCommon rt true sel = true) {ta tb tab : List Char} (hta : SelText [a ++ [(.childrenAll, ss)]] ta) (htb : SelText sel tb)
    (htab : SelText [a ++ [(.childrenAll, ss ++ [.has sel])]] tab) {S : List Nat} (hS : Nodes h r S) (hs : DocSorted h r S) :
    ∃ M res, findText h env own S ta = .ok (M, 0) ∧ hasText h env own M tb = .ok (res, 0) ∧ findText h env own S tab = .ok (res, 0) := by
  have hab : Descends rt (a ++ [(.childrenAll, ss ++ [.has sel])]) := by
    refine ha.refine (fun t ht => ?_) (fun s hs => ?_)
    · rw [List.mem_singleton] at ht
      subst ht
      simpa [Sim.common] using hc
    · rw [List.mem_singleton] at hs
      subst hs
      rcases ha.2.1 (.childrenAll, ss) (by simp) with ⟨t, h1, h2⟩ | h1
      · exact Or.inl ⟨t, by simp [h1], h2⟩
      · refine Or.inr fun t ht => ?_
        rcases List.mem_append.1 ht with ht | ht
        · exact h1 t ht
        · rw [List.mem_singleton] at ht; subst ht; rfl
  obtain ⟨M, h1, h2, _, h4⟩ := C29_find_text_common wf ev sm gr own ha.1 ha.2.1 ha.2.2 hta hS hs
  have hM := sel_elems ha.1.1 (fun y hy => (hS y hy).1) h4
  obtain ⟨res, l1, l2, _, l4⟩ := C29_find_text_common wf ev sm gr own hab.1 hab.2.1 hab.2.2 htab hS hs
  obtain ⟨F, f1, f2, f3⟩ := C24_has_common wf ev sm gr hc (fun x hx => (hM x hx).1)
  refine ⟨M, F, h1, by rw [(C29_filter_text_partial h env own htb M).2.2.2.2, f1]; rfl, ?_⟩
  rw [l1, found_sub wf ev sm gr hS h2 h4 f2 (fun x hx => ?_) l2 l4]
  rw [f3, cmpdSat_one, Sim.Sat]
  simp only [hx, true_and]

/-- C64: `filter("ab")` is `filter("a").filter("b")` and `filter("b").filter("a")`, on every set in which siblings come in order. -/
theorem C64_filter_twice_common {ss ts : List Sim} (hs : CommonCmpd rt false ss) (ht : CommonCmpd rt false ts) {ta tb tab : List Char}
    (hta : SelText [[(.childrenAll, ss)]] ta) (htb : SelText [[(.childrenAll, ts)]] tb) (htab : SelText [[(.childrenAll, ss ++ ts)]] tab)
    {X : List Nat} (hX : Elems h r X) (hq : SibAsc h X) :
    ∃ A B res, filterText h env own X ta = .ok (A, 0) ∧ filterText h env own A tb = .ok (res, 0) ∧
      filterText h env own X tb = .ok (B, 0) ∧ filterText h env own B ta = .ok (res, 0) ∧ filterText h env own X tab = .ok (res, 0) := by
  have hone : ∀ {us : List Sim} {tu : List Char}, CommonCmpd rt false us → SelText [[(.childrenAll, us)]] tu → ∀ {Y : List Nat}, Elems h r Y →
      SibAsc h Y → filterText h env own Y tu = .ok (Y.filter fun x => decide (cmpdSat h r env us x), 0) := by
    intro us tu hu htu Y hY hq
    have hc : CommonTest rt false [(.childrenAll, us)] := by
      have : simsCommon rt false us = true := by
        have := hu.2
        clear hu htu
        induction us with
        | nil => rfl
        | cons t ts ih => rw [simsCommon, this t (by simp), ih fun s hs => this s (by simp [hs])]; rfl
      have hne : us.isEmpty = false := by simpa using hu.1
      simp [CommonTest, altsCommon, stepsCommon, stepCommon, this, hne, Comb.down]
    have hok : innersOk h r env true .sib [[(.childrenAll, us)]] := common_alts sm gr _ hc .sib (by simp) (by simp)
    rw [(C29_filter_text_partial h env own htu Y).1, C22_filter_exact_partial wf ev hok (Or.inl (by simp)) hY hq]
    simp only [Except.map, Except.ok.injEq, Prod.mk.injEq, and_true]
    refine List.filter_congr fun x hx => ?_
    rw [decide_eq_decide, anySat_cmpd wf (hY x hx).1 (hY x hx).2]
  have hst : CommonCmpd rt false (ss ++ ts) := ⟨by simp [hs.1], fun t hm => (List.mem_append.1 hm).elim (hs.2 t) (ht.2 t)⟩
  have hsub : ∀ (Y : List Nat) (p : Nat → Bool), Elems h r Y → Elems h r (Y.filter p) := fun Y p hY x hx => hY x (List.mem_filter.1 hx).1
  refine ⟨_, _, _, hone hs hta hX hq, hone ht htb (hsub X _ hX) (Spec.SibAsc.sublist hq List.filter_sublist), hone ht htb hX hq, ?_, ?_⟩
  · rw [hone hs hta (hsub X _ hX) (Spec.SibAsc.sublist hq List.filter_sublist), List.filter_filter, List.filter_filter]
    simp only [Except.ok.injEq, Prod.mk.injEq, and_true]
    exact List.filter_congr fun x _ => Bool.and_comm _ _
  · rw [hone hst htab hX hq, List.filter_filter]
    simp only [Except.ok.injEq, Prod.mk.injEq, and_true]
    refine List.filter_congr fun x _ => ?_
    rw [Bool.eq_iff_iff]
    simp only [decide_eq_true_eq, Bool.and_eq_true, cmpdSat_append]
    exact and_comm

end Desc

/-! ## Children and next elements -/

/-- Sorting looks at the rules only. -/
theorem sortPriority_fst (l : Cmpd) : (sortPriority l).map (·.1) = (l.map (·.1)).insertionSort fun a b => b.priority ≤ a.priority :=
  List.map_insertionSort _ _ _ _ fun _ _ _ _ => Iff.rfl

theorem optimizeCmpd_fst (l : Cmpd) : (optimizeCmpd l).map (·.1) = (l.map (·.1)).insertionSort fun a b => b.priority ≤ a.priority := by
  rw [← sortPriority_fst]
  unfold optimizeCmpd
  split
  · rfl
  · rfl
  · next s t ss =>
    cases hsort : sortPriority (s :: t :: ss) with
    | nil => rfl
    | cons a as =>
      simp only
      split <;> simp [Function.comp_def]

/-- Changing the combinator of a compound before and after it has been sorted. -/
theorem optimizeCmpd_head {c c' : Comb} (hc : c ≠ .chain) (hc' : c' ≠ .chain) {ss : List Sim} (hne : ss ≠ []) :
    ∃ m segs, optimizeCmpd (simSegs h env c ss) = (m, c) :: segs ∧ optimizeCmpd (simSegs h env c' ss) = (m, c') :: segs := by
  obtain ⟨s0, _, _, _, segs, h1, _, h2⟩ := optimizeCmpd_shape (h := h) (env := env) hc hne
  obtain ⟨s1, _, _, _, segs', k1, _, k2⟩ := optimizeCmpd_shape (h := h) (env := env) hc' hne
  have e1 := optimizeCmpd_fst (simSegs h env c ss)
  have e2 := optimizeCmpd_fst (simSegs h env c' ss)
  rw [simSegs_fst, ← simSegs_fst (h := h) (env := env) c', ← e2, h1, k1, List.map_cons, List.map_cons, List.cons.injEq] at e1
  have hpair : ∀ {l : Cmpd}, (∀ t ∈ l, t.2 = Comb.chain) → l = (l.map (·.1)).map fun m => (m, Comb.chain) := by
    intro l hl
    rw [List.map_map]
    conv_lhs => rw [← List.map_id l]
    exact List.map_congr_left fun t ht => by rw [Function.comp_apply, ← hl t ht]; rfl
  have e3 : simMatcher h env s0 = simMatcher h env s1 := e1.1
  refine ⟨_, segs, h1, ?_⟩
  rw [k1, e3, hpair h2, hpair k2, e1.2]

/-- One compound with a combinator: the call with the combinator in front, and `select_with_comb`. -/
theorem find_comb {ss : List Sim} (hne : ss ≠ []) {c : Comb} (hc : c ≠ .chain) (S : List Nat) :
    find h env S [[(c, ss)]] = selectWithComb h S (some (innerSel h env (cmpdSel ss))) c := by
  obtain ⟨m, segs, h1, h2⟩ := optimizeCmpd_head (h := h) (env := env) (c := .childrenAll) (c' := c) (by simp) hc hne
  by_cases hS : S = []
  · subst hS; rfl
  · have he : S.isEmpty = false := by simpa using hS
    rw [find_one_step hS, inner_cmpd, h1, h2]
    simp only [selectWithComb, he, List.map_cons, List.map_nil, headComb, headCmpds, findSelector_one]
    rfl

/-- C64: `find("> a")` is `children("a")` and `find("+ a")` is `next("a")`: the same result or the same panic, for all trees, all sets and
all compounds. -/
theorem C64_find_children_any (own : Nat → Bool) {ss : List Sim} {t tc tn : List Char} (ht : SelText [[(.childrenAll, ss)]] t)
    (htc : SelText [[(.children, ss)]] tc) (htn : SelText [[(.next, ss)]] tn) (S : List Nat) :
    findText h env own S tc = childrenText h env own S t ∧ findText h env own S tn = nextText h env own S t := by
  have hne : ss ≠ [] := by
    rintro rfl
    obtain ⟨d, w, t', w', hc, _⟩ := ht
    have : ∀ P u, ¬ CmpdText P [] u := fun P u hu => by cases hu
    cases d <;> (cases hc; exact this _ _ ‹_›)
  obtain ⟨h1, _, h3, _⟩ := C29_navigate_text_partial h env own ht S
  rw [C29_find_text_partial h env own htc, C29_find_text_partial h env own htn, h1, h3, find_comb hne (by simp), find_comb hne (by simp)]
  exact ⟨rfl, rfl⟩

/-! ## Instances -/

example : looked [(.childrenAll, [ty "div"]), (.children, [ty "p"])] = false ∧ looked [(.childrenAll, [ty "div"])] = false ∧
    looked [(.children, [ty "p"])] = false ∧
    SelText [[(.childrenAll, [ty "div"])]] "div".toList ∧
    findText demo env0 (fun _ => true) [0] "div".toList = .ok ([1, 5], 0) ∧
    findText demo env0 (fun _ => true) [1, 5] "> p".toList = .ok ([2, 6], 0) ∧
    childrenText demo env0 (fun _ => true) [1, 5] "p".toList = .ok ([2, 6], 0) ∧
    findText demo env0 (fun _ => true) [0] "div > p".toList = .ok ([2, 6], 0) := by
  refine ⟨by decide, by decide, by decide, selText_cmpd (ss := [.name ['d', 'i', 'v']]) (t := ['d', 'i', 'v']) (.one (.name (idText_plain ?_ ?_))),
    by decide, by decide, by decide, by decide⟩ <;> simp [NameStart, NameChar]

example : Descends false ([(.childrenAll, [ty "div"])] ++ [(.childrenAll, [.all])]) ∧ CommonCmpd false true [.nth false false 2 0] ∧
    CommonList false [[(.childrenAll, [ty "p"])], [(.childrenAll, [ty "ul"])]] ∧
    findText demo env0 (fun _ => true) [0] "div *".toList = .ok ([2, 5, 6, 7], 0) ∧
    filterText demo env0 (fun _ => true) [2, 5, 6, 7] "div".toList = .ok ([5], 0) ∧
    findText demo env0 (fun _ => true) [0] "div *:not(p, ul)".toList = .ok ([5, 7], 0) ∧
    notText demo env0 (fun _ => true) [2, 5, 6, 7] "p, ul".toList = .ok ([5, 7], 0) ∧
    findText demo env0 (fun _ => true) [0] "div *:has(p)".toList = .ok ([5], 0) ∧
    hasText demo env0 (fun _ => true) [2, 5, 6, 7] "p".toList = .ok ([5], 0) := by
  refine ⟨⟨⟨by decide, by decide⟩, by unfold Steady; simp [Sim.shaky, ty], by decide⟩, ⟨by decide, by decide⟩, ⟨Or.inr (by decide), by decide⟩, by decide, by decide, by decide, by decide, by decide, by decide⟩

/-- Where the two differ: the parser rearranges `* :last-child` and `> * p`. The one call answers and the other panics. -/
theorem C64_fails_looked : looked [(.childrenAll, [.all]), (.childrenAll, [.edge true false])] = true ∧
    findText demo env0 (fun _ => true) [5] "* :last-child".toList = .ok ([], 0) ∧
    findText demo env0 (fun _ => true) [5] "*".toList = .ok ([6, 7], 0) ∧
    findText demo env0 (fun _ => true) [6, 7] ":last-child".toList = .error .overflow ∧
    findText demo env0 (fun _ => true) [5, 1] "> *".toList = .ok ([6, 7, 2, 5], 0) ∧
    (∃ e, findText demo env0 (fun _ => true) [5, 1] "> * p".toList = .error e) ∧
    findText demo env0 (fun _ => true) [6, 7, 2, 5] "p".toList = .ok ([6], 0) :=
  ⟨by decide, by decide, by decide, by decide, by decide, ⟨_, rfl⟩, by decide⟩

end Visdom
