import Verif.Proofs.Chain
import Verif.Props.Add
/-!
# Filtering by complex selectors
-/
namespace Visdom
open Spec Classical
variable {h : Heap} {r : Nat} {env : Env} {tot : Bool}

theorem listQ_filter {q : ListQ} {l : List Nat} (P : Nat → Bool) (hl : q.lists h r l) : q.lists h r (l.filter P) := by
  cases q with
  | any => trivial
  | sib => exact Spec.SibAsc.sublist hl List.filter_sublist
  | doc => exact ⟨List.Pairwise.sublist List.filter_sublist hl.1, Spec.SibAsc.sublist hl.2 List.filter_sublist⟩

/-- The matcher of a rule decides it under the combinators of a kind, and answers. -/
def SimGood (h : Heap) (r : Nat) (env : Env) (tot : Bool) (q : ListQ) (v : Via) (s : Sim) : Prop :=
  ∀ c : Comb, Comb.via c = v →
    Decides h r (q.lists h r) (simMatcher h env s) c (fun x => decide (s.Sat h r env x)) ∧
    (tot = true → Answers h r (q.lists h r) (simMatcher h env s) c)

theorem cmpdSat_iff {ss : List Sim} {x : Nat} : cmpdSat h r env ss x ↔ ∀ s ∈ ss, s.Sat h r env x := by
  induction ss with
  | nil => rw [cmpdSat]; simp
  | cons s ss ih => rw [cmpdSat, ih]; simp

theorem cmpd_good {q : ListQ} {c c0 : Comb} (hc0 : c0 ≠ .chain) {ss : List Sim} (hne : ss ≠ [])
    (hhead : ∀ s ∈ ss, (∀ t ∈ ss, t.prio ≤ s.prio) → SimGood h r env tot q (Comb.via c) s)
    (hrest : ss.length = 1 ∨ ∀ s ∈ ss, SimGood h r env tot q .list s) :
    HeadIs c0 (optimizeCmpd (simSegs h env c0 ss)) ∧
    DecidesCmpd h r (q.lists h r) c (optimizeCmpd (simSegs h env c0 ss)) (fun x => decide (cmpdSat h r env ss x)) ∧
    (tot = true → AnswersCmpd h r (q.lists h r) c (optimizeCmpd (simSegs h env c0 ss))) := by
  obtain ⟨s0, ss', hp, hmax, segs, hopt, hmap, hch⟩ := optimizeCmpd_shape (h := h) (env := env) hc0 hne
  have hs0 : s0 ∈ ss := hp.subset List.mem_cons_self
  have h0 := hhead s0 hs0 hmax c rfl
  have hss' : ∀ s ∈ ss', SimGood h r env tot q .list s := by
    intro s hs
    rcases hrest with h1 | h1
    · have := hp.length_eq
      rw [h1] at this
      simp only [List.length_cons, Nat.add_eq_right] at this
      rw [List.length_eq_zero_iff.1 this] at hs
      cases hs
    · exact h1 s (hp.subset (List.mem_cons_of_mem _ hs))
  rw [hopt]
  have hforall : ∀ (ss' : List Sim) (segs : List Seg), segs.map (·.1) = ss'.map (simMatcher h env) →
      (∀ t ∈ segs, t.2 = Comb.chain) → (∀ s ∈ ss', SimGood h r env tot q .list s) →
      List.Forall₂ (fun s p => s.2 = Comb.chain ∧ Decides h r (q.lists h r) s.1 .chain p) segs
        (ss'.map fun s x => decide (s.Sat h r env x)) ∧
      (tot = true → ∀ t ∈ segs, Answers h r (q.lists h r) t.1 .chain) := by
    intro ss'
    induction ss' with
    | nil =>
      intro segs hm _ _
      rw [List.map_nil, List.map_eq_nil_iff] at hm
      subst hm
      exact ⟨.nil, by simp⟩
    | cons s ss' ih =>
      intro segs hm hc hg
      cases segs with
      | nil => cases hm
      | cons t segs =>
        simp only [List.map_cons, List.cons.injEq] at hm
        obtain ⟨g1, g2⟩ := hg s List.mem_cons_self .chain rfl
        obtain ⟨i1, i2⟩ := ih segs hm.2 (fun t ht => hc t (List.mem_cons_of_mem _ ht))
          (fun s hs => hg s (List.mem_cons_of_mem _ hs))
        refine ⟨.cons ⟨hc t List.mem_cons_self, by rw [hm.1]; exact g1⟩ i1, fun ht u hu => ?_⟩
        rcases List.mem_cons.1 hu with rfl | hu
        · rw [hm.1]; exact g2 ht
        · exact i2 ht u hu
  obtain ⟨f1, f2⟩ := hforall ss' segs hmap hch hss'
  refine ⟨⟨_, _, rfl⟩, ⟨_, _, _, _, rfl, h0.1, f1, fun x => ?_⟩, fun ht => ⟨_, _, rfl, h0.2 ht, f2 ht⟩⟩
  rw [Bool.eq_iff_iff, decide_eq_true_eq, cmpdSat_iff, Bool.and_eq_true, decide_eq_true_eq, List.all_map, List.all_eq_true]
  simp only [Function.comp_apply, decide_eq_true_eq]
  constructor
  · exact fun ha => ⟨ha s0 hs0, fun s hs => ha s (hp.subset (List.mem_cons_of_mem _ hs))⟩
  · rintro ⟨ha, hb⟩ s hs
    rcases List.mem_cons.1 (hp.symm.subset hs) with rfl | hs
    · exact ha
    · exact hb s hs

theorem cplxCmpds_eq (cx : List (Comb × List Sim)) : cplxCmpds h env cx = cx.map fun s => simSegs h env s.1 s.2 := by
  induction cx with
  | nil => rw [cplxCmpds]; rfl
  | cons s cx ih => obtain ⟨c, ss⟩ := s; rw [cplxCmpds, ih, stepCmpd]; rfl

theorem steps_eq (cx : List (Comb × List Sim)) :
    steps h r env cx = cx.map fun s => (s.1, fun x => decide (cmpdSat h r env s.2 x)) := by
  induction cx with
  | nil => rw [steps]; rfl
  | cons s cx ih => obtain ⟨c, ss⟩ := s; rw [steps, ih, step]; rfl

theorem innerSel_eq (sel : List Complex) : innerSel h env sel = sel.map fun c => optimizeGroup false (cplxCmpds h env c) := by
  induction sel with
  | nil => rw [innerSel]; rfl
  | cons c cs ih => rw [innerSel, ih]; rfl

/-- The rules of a complex selector used as a filter. -/
def CxGood (h : Heap) (r : Nat) (env : Env) (tot : Bool) (q : ListQ) : List (Comb × List Sim) → Prop
  | [] => True
  | s :: l => (∀ t ∈ s.2, SimGood h r env tot (if l.isEmpty then q else .doc) .list t) ∧ CxGood h r env tot q l

theorem cxGood_snoc {q : ListQ} {init : List (Comb × List Sim)} {s : Comb × List Sim}
    (hg : CxGood h r env tot q (init ++ [s])) :
    (∀ t ∈ s.2, SimGood h r env tot q .list t) ∧
    ∀ u ∈ init, ∀ t ∈ u.2, SimGood h r env tot .doc .list t := by
  induction init with
  | nil => exact ⟨by simpa [CxGood] using hg, by simp⟩
  | cons u init ih =>
    simp only [List.cons_append, CxGood] at hg
    obtain ⟨h1, h2⟩ := hg
    obtain ⟨i1, i2⟩ := ih h2
    refine ⟨i1, ?_⟩
    intro w hw
    rcases List.mem_cons.1 hw with rfl | hw
    · simpa using h1
    · exact i2 w hw

/-- One process used as a filter keeps the elements satisfying `P`. -/
def ProcGood (h : Heap) (r : Nat) (tot : Bool) (q : ListQ) (p : Proc) (P : Nat → Bool) : Prop :=
  ∀ X root, Elems h r X → q.lists h r X → (root = none ∨ root = some r) →
    (∀ f root', filterProc h X root p = .ok (f, root') → f = X.filter P ∧ (root' = none ∨ root' = some r)) ∧
    (tot = true → ∃ y, filterProc h X root p = .ok y)

theorem down_ne_chain {c : Comb} (hc : Comb.down c = true) : c ≠ .chain := by rintro rfl; cases hc

theorem proc_good (wf : TreeWF h r) {q : ListQ} {cx : Complex} (hne : cx ≠ [])
    (hdown : ∀ s ∈ cx, Comb.down s.1 = true ∧ s.2 ≠ []) (hsingle : ∀ s, cx = [s] → s.1 = .childrenAll)
    (roots : 2 ≤ cx.length → Roots h r) (hg : CxGood h r env tot q cx) :
    ProcGood h r tot q (optimizeGroup false (cplxCmpds h env cx)) (fun x => decide (Sel h r (· = r) (steps h r env cx) x)) := by
  obtain ⟨init, ⟨c, ss⟩, rfl⟩ : ∃ init s, cx = init ++ [s] := ⟨_, _, (List.dropLast_concat_getLast hne).symm⟩
  obtain ⟨hlast, hinit⟩ := cxGood_snoc hg
  obtain ⟨hcd, hssne⟩ := hdown (c, ss) (by simp)
  simp only at hcd hssne hlast
  intro X root hX hqX hroot
  -- the shape of the process
  obtain ⟨hhead, hdec, hans⟩ := cmpd_good (q := q) (c := .chain) (down_ne_chain hcd) hssne
    (fun s hs _ => hlast s hs) (Or.inr hlast)
  have hquery : (optimizeGroup false (cplxCmpds h env (init ++ [(c, ss)]))).query =
      (init.map fun s => optimizeCmpd (simSegs h env s.1 s.2)) ++ [optimizeCmpd (simSegs h env c ss)] := by
    simp [optimizeGroup, cplxCmpds_eq, Function.comp_def]
  obtain ⟨m, segs, hopt⟩ := hhead
  unfold filterProc
  rw [hquery]
  simp only [List.getLast?_concat, hopt]
  rw [hopt] at hdec hans
  obtain ⟨s', ss', P0, Ps, he, hd0, hds, hP⟩ := hdec
  simp only [List.cons.injEq] at he
  obtain ⟨rfl, rfl⟩ := he
  -- the steps
  have hsel : ∀ x, Sel h r (· = r) (steps h r env (init ++ [(c, ss)])) x ↔
      h.isElem x = true ∧ decide (cmpdSat h r env ss x) = true ∧ ∃ y, Sel h r (· = r) (steps h r env init) y ∧ Rel h r c y x := by
    intro x
    have : steps h r env (init ++ [(c, ss)]) = steps h r env init ++ [(c, fun x => decide (cmpdSat h r env ss x))] := by
      simp [steps_eq]
    rw [this, sel_snoc]
    exact Iff.rfl
  have hup : DecidesUp h r (init.map fun s => optimizeCmpd (simSegs h env s.1 s.2)) (steps h r env init) ∧
      (tot = true → ∀ rules ∈ init.map fun s => optimizeCmpd (simSegs h env s.1 s.2), ∀ c, Comb.up c = true →
        AnswersCmpd h r (Phase.lists h r .sorted) c rules) := by
    have key : ∀ s ∈ init, HeadIs s.1 (optimizeCmpd (simSegs h env s.1 s.2)) ∧ Comb.down s.1 = true ∧
        ∀ c, Comb.up c = true → DecidesCmpd h r (Phase.lists h r .sorted) c (optimizeCmpd (simSegs h env s.1 s.2))
          (fun x => decide (cmpdSat h r env s.2 x)) ∧
          (tot = true → AnswersCmpd h r (Phase.lists h r .sorted) c (optimizeCmpd (simSegs h env s.1 s.2))) := by
      intro s hs
      obtain ⟨d1, d2⟩ := hdown s (by simp [hs])
      have hg := hinit s hs
      have hvia : ∀ c, Comb.up c = true → Comb.via c = .list := by intro c hc; cases c <;> first | rfl | cases hc
      refine ⟨(cmpd_good (q := .doc) (c := .chain) (down_ne_chain d1) d2 (fun t ht _ => hg t ht) (Or.inr hg)).1, d1, ?_⟩
      intro c hc
      exact (cmpd_good (q := .doc) (c := c) (down_ne_chain d1) d2 (fun t ht _ => by rw [hvia c hc]; exact hg t ht) (Or.inr hg)).2
    refine ⟨?_, fun ht rules hr c hc => ?_⟩
    · rw [steps_eq]
      unfold DecidesUp
      rw [List.forall₂_map_left_iff, List.forall₂_map_right_iff, List.forall₂_same]
      intro s hs
      obtain ⟨k1, k2, k3⟩ := key s hs
      exact ⟨k1, k2, fun c hc => (k3 c hc).1⟩
    · obtain ⟨s, hs, rfl⟩ := List.mem_map.1 hr
      exact ((key s hs).2.2 c hc).2 ht
  have hPeq : ∀ x, decide (cmpdSat h r env ss x) = (P0 x && Ps.all fun p => p x) := hP
  have hfilt : ∀ l : List Nat, (l.filter P0).filter (fun x => Ps.all fun p => p x) =
      l.filter fun x => decide (cmpdSat h r env ss x) := by
    intro l
    rw [List.filter_filter]
    congr 1
    funext x
    rw [hPeq, Bool.and_comm]
  have hhas := fun x (hx : x ∈ X) => hasEle_decides wf (S := [r]) (by intro y hy; simp at hy; subst hy; exact ⟨.self, Or.inr rfl⟩)
    (hX x hx).1 (hX x hx).2 hup.1 hcd
  have hmemr : (fun x => x ∈ [r]) = (fun x => x = r) := by funext x; simp
  simp only [hmemr] at hhas
  have hrootr : init ≠ [] → ∀ x ∈ X, root.getD (rootElem h x) = r := by
    intro hi x hx
    have hl : 2 ≤ (init ++ [(c, ss)]).length := by
      have := List.length_pos_of_ne_nil hi
      simp; omega
    rcases hroot with rfl | rfl
    · simp [rootElem, roots hl x (hX x hx).1]
    · rfl
  have hXr : ∀ x ∈ X, Below h r x := by
    intro x hx
    rcases within_cases (hX x hx).1 with rfl | hb
    · exact absurd rfl (elem_ne_root wf (hX r hx).2)
    · exact hb
  constructor
  · intro f root' hres
    cases h1 : selectByRule h X m .chain with
    | error e => rw [h1] at hres; cases hres
    | ok f0 =>
      simp only [h1] at hres
      have hf0 := chain_decides hd0 hX hqX h1
      subst hf0
      cases h2 : selectRest h (X.filter P0) segs with
      | error e => rw [h2] at hres; cases hres
      | ok f1 =>
        rw [h2] at hres
        have hf1 := rest_decides (fun l P hl => listQ_filter P hl) hds (elems_filter hX _) (listQ_filter _ hqX) h2
        rw [hfilt] at hf1
        cases f1 with
        | nil =>
          simp only [Except.ok.injEq, Prod.mk.injEq] at hres
          obtain ⟨rfl, rfl⟩ := hres
          refine ⟨?_, hroot⟩
          symm
          rw [List.filter_eq_nil_iff]
          intro x hx hs
          rw [decide_eq_true_eq, hsel] at hs
          have : x ∈ X.filter fun x => decide (cmpdSat h r env ss x) := List.mem_filter.2 ⟨hx, hs.2.1⟩
          rw [← hf1] at this
          cases this
        | cons x f1 =>
          have hxX : x ∈ X := by
            have : x ∈ x :: f1 := List.mem_cons_self
            rw [hf1] at this
            exact (List.mem_filter.1 this).1
          simp only [List.length_append, List.length_map, List.length_singleton,
            List.dropLast_concat] at hres
          cases init with
          | nil =>
            rw [if_neg (by simp)] at hres
            simp only [Except.ok.injEq, Prod.mk.injEq] at hres
            obtain ⟨rfl, rfl⟩ := hres
            refine ⟨?_, hroot⟩
            rw [hf1]
            refine List.filter_congr fun y hy => ?_
            rw [Bool.eq_iff_iff, decide_eq_true_eq (p := Sel _ _ _ _ _), hsel]
            have hc : c = .childrenAll := hsingle (c, ss) rfl
            subst hc
            constructor
            · intro hc; exact ⟨(hX y hy).2, hc, r, by rw [steps]; rfl, hXr y hy⟩
            · exact fun hc => hc.2.1
          | cons i0 init =>
            rw [if_pos (by simp)] at hres
            simp only [hrootr (by simp) x hxX, List.map_cons] at hres
            cases h3 : filterR (fun e => hasEle h [r] e c
                (optimizeCmpd (simSegs h env i0.1 i0.2) :: init.map fun s => optimizeCmpd (simSegs h env s.1 s.2))) (x :: f1) with
            | error e => rw [h3] at hres; cases hres
            | ok l =>
              simp only [h3, Except.ok.injEq, Prod.mk.injEq] at hres
              obtain ⟨rfl, rfl⟩ := hres
              refine ⟨?_, Or.inr rfl⟩
              have hfin := filterR_inv (P := fun e => decide (∃ y, Sel h r (· = r) (steps h r env (i0 :: init)) y ∧ Rel h r c y e)) h3
                (by
                  intro e he b hb
                  rw [hf1] at he
                  have := (hhas e (List.mem_filter.1 he).1).1 b hb
                  rw [Bool.eq_iff_iff, decide_eq_true_eq]
                  exact this)
              rw [hfin, hf1, List.filter_filter]
              refine List.filter_congr fun y hy => ?_
              rw [Bool.eq_iff_iff, decide_eq_true_eq (p := Sel _ _ _ _ _), hsel, Bool.and_eq_true, decide_eq_true_eq (p := ∃ _, _)]
              constructor
              · exact fun hc => ⟨(hX y hy).2, hc.2, hc.1⟩
              · exact fun hc => ⟨hc.2.2, hc.2.1⟩
  · intro ht
    obtain ⟨s'', ss'', he, ha0, has⟩ := hans ht
    simp only [List.cons.injEq] at he
    obtain ⟨rfl, rfl⟩ := he
    obtain ⟨f0, h1⟩ := chain_answers ha0 hX hqX
    simp only [h1]
    have hf0 := chain_decides hd0 hX hqX h1
    subst hf0
    obtain ⟨f1, h2⟩ := rest_answers (fun l P hl => listQ_filter P hl) hds has (elems_filter hX P0) (listQ_filter P0 hqX)
    simp only [h2]
    have hf1 := rest_decides (fun l P hl => listQ_filter P hl) hds (elems_filter hX _) (listQ_filter _ hqX) h2
    rw [hfilt] at hf1
    cases f1 with
    | nil => exact ⟨_, rfl⟩
    | cons x f1 =>
      have hxX : x ∈ X := by
        have : x ∈ x :: f1 := List.mem_cons_self
        rw [hf1] at this
        exact (List.mem_filter.1 this).1
      simp only [List.dropLast_concat]
      split
      · rename_i hlen
        have hi : init ≠ [] := by rintro rfl; simp at hlen
        rw [hrootr hi x hxX]
        obtain ⟨l, hl⟩ := filterR_total (f := fun e => hasEle h [r] e c
            (init.map fun s => optimizeCmpd (simSegs h env s.1 s.2))) (l := x :: f1) (by
          intro e he
          rw [hf1] at he
          exact (hhas e (List.mem_filter.1 he).1).2 (hup.2 ht))
        rw [hl]
        exact ⟨_, rfl⟩
      · exact ⟨_, rfl⟩

end Visdom
