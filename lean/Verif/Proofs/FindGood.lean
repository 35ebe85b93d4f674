import Verif.Proofs.SimGood
/-!
# The processes built from selectors decide their meaning
-/
namespace Visdom
open Spec Classical
variable {h : Heap} {r : Nat} {env : Env} {tot : Bool}

theorem phase_lists (ph : Phase) : Phase.lists h r ph = ListQ.lists h r (Phase.listQ ph) := by
  cases ph <;> rfl

theorem cmpdPriority_eq {c : Comb} (hc : c ≠ .chain) {ss : List Sim} (hne : ss ≠ []) :
    cmpdPriority (optimizeCmpd (simSegs h env c ss)) = (ss.map Sim.prio).sum := by
  obtain ⟨s0, ss', hp, _, segs, hopt, hmap, _⟩ := optimizeCmpd_shape (h := h) (env := env) hc hne
  unfold cmpdPriority
  rw [hopt]
  have h1 : ((simMatcher h env s0, c) :: segs).map (·.1.priority) = ((s0 :: ss').map (simMatcher h env)).map Matcher.priority := by
    rw [List.map_cons, List.map_cons, ← hmap]
    simp [Function.comp_def]
  rw [h1, List.map_map]
  have h2 : (Matcher.priority ∘ simMatcher h env) = Sim.prio := by funext s; exact prio_eq s
  rw [h2]
  exact (hp.map _).sum_nat

theorem maxIndex_spec (g : List Cmpd) : ∀ i mi mp,
    maxIndex g i mi mp = if mp < (g.map cmpdPriority).foldr max 0 then
      i + (g.map cmpdPriority).idxOf ((g.map cmpdPriority).foldr max 0) else mi := by
  induction g with
  | nil => intro i mi mp; simp [maxIndex]
  | cons a g ih =>
    intro i mi mp
    simp only [maxIndex, List.map_cons, List.foldr_cons]
    generalize hM : (g.map cmpdPriority).foldr max 0 = M at ih ⊢
    by_cases h1 : mp < cmpdPriority a
    · rw [if_pos h1, ih]
      rw [if_pos (show mp < max (cmpdPriority a) M by omega)]
      by_cases h2 : cmpdPriority a < M
      · rw [if_pos h2, Nat.max_eq_right (by omega), List.idxOf_cons_ne _ (by omega)]
        omega
      · rw [if_neg h2, Nat.max_eq_left (by omega), List.idxOf_cons_self]
        omega
    · rw [if_neg h1, ih]
      by_cases h2 : mp < M
      · rw [if_pos h2, if_pos (show mp < max (cmpdPriority a) M by omega), Nat.max_eq_right (by omega),
          List.idxOf_cons_ne _ (by omega)]
        omega
      · rw [if_neg h2, if_neg (show ¬ mp < max (cmpdPriority a) M by omega)]

/-- The written compounds, optimised. -/
def optCmpds (h : Heap) (env : Env) (cx : Complex) : List Cmpd := cx.map fun s => optimizeCmpd (simSegs h env s.1 s.2)

theorem maxIndex_heaviest {cx : Complex} (hcx : ∀ s ∈ cx, s.1 ≠ Comb.chain ∧ s.2 ≠ []) :
    maxIndex (optCmpds h env cx) 0 0 0 = heaviest cx := by
  have hw : (optCmpds h env cx).map cmpdPriority = cx.map fun s => (s.2.map Sim.prio).sum := by
    unfold optCmpds
    rw [List.map_map]
    exact List.map_congr_left fun s hs => cmpdPriority_eq (hcx s hs).1 (hcx s hs).2
  rw [maxIndex_spec, hw]
  unfold heaviest
  simp only
  split
  · omega
  · next hle =>
    have h0 : (cx.map fun s => (s.2.map Sim.prio).sum).foldr max 0 = 0 := by omega
    rw [h0]
    cases cx with
    | nil => rfl
    | cons s l =>
      simp only [List.map_cons, List.foldr_cons] at h0 ⊢
      rw [show (s.2.map Sim.prio).sum = 0 by omega, List.idxOf_cons_self]

theorem cplx_opt (cx : Complex) : (cplxCmpds h env cx).map optimizeCmpd = optCmpds h env cx := by
  rw [cplxCmpds_eq, List.map_map]; rfl

theorem optimize_eq (cx : Complex) (hcx : ∀ s ∈ cx, s.1 ≠ Comb.chain ∧ s.2 ≠ []) :
    optimizeGroup true (cplxCmpds h env cx) = if looked cx = true then
      { shouldIn := some (optCmpds h env (cx.take (heaviest cx))), query := optCmpds h env (cx.drop (heaviest cx)) }
      else { query := optCmpds h env cx } := by
  unfold optimizeGroup
  simp only [cplx_opt, if_true, maxIndex_heaviest hcx, Bool.true_and]
  cases cx with
  | nil => rfl
  | cons s l =>
    obtain ⟨c, ss⟩ := s
    obtain ⟨hc, hs⟩ := hcx (c, ss) List.mem_cons_self
    obtain ⟨s0, ss', _, _, segs, hopt, _⟩ := optimizeCmpd_shape (h := h) (env := env) hc hs
    have hcons : optCmpds h env ((c, ss) :: l) = ((simMatcher h env s0, c) :: segs) :: optCmpds h env l := by
      simp only [optCmpds, List.map_cons, hopt]
    have htake : optCmpds h env (((c, ss) :: l).take (heaviest ((c, ss) :: l))) =
        (optCmpds h env ((c, ss) :: l)).take (heaviest ((c, ss) :: l)) := by simp [optCmpds, List.map_take]
    have hdrop : optCmpds h env (((c, ss) :: l).drop (heaviest ((c, ss) :: l))) =
        (optCmpds h env ((c, ss) :: l)).drop (heaviest ((c, ss) :: l)) := by simp [optCmpds, List.map_drop]
    rw [htake, hdrop, hcons]
    rfl

theorem optimize_plain (cx : Complex) (hl : looked cx = false) (hcx : ∀ s ∈ cx, s.1 ≠ Comb.chain ∧ s.2 ≠ []) :
    optimizeGroup true (cplxCmpds h env cx) = { query := optCmpds h env cx } := by
  rw [optimize_eq cx hcx, hl]; rfl

theorem optimize_look (cx : Complex) (hl : looked cx = true) (hcx : ∀ s ∈ cx, s.1 ≠ Comb.chain ∧ s.2 ≠ []) :
    optimizeGroup true (cplxCmpds h env cx) =
      { shouldIn := some (optCmpds h env (cx.take (heaviest cx))), query := optCmpds h env (cx.drop (heaviest cx)) } := by
  rw [optimize_eq cx hcx, if_pos hl]

/-! ## What the conditions give -/
variable (wf : TreeWF h r) (ev : Metas h r)
include wf ev

theorem cmpdOk_good {q : ListQ} {c c0 : Comb} (hc0 : c0 ≠ .chain) {ss : List Sim} (hok : CmpdOk h r env tot q (Comb.via c) ss) :
    HeadIs c0 (optimizeCmpd (simSegs h env c0 ss)) ∧
    DecidesCmpd h r (q.lists h r) c (optimizeCmpd (simSegs h env c0 ss)) (fun x => decide (cmpdSat h r env ss x)) ∧
    (tot = true → AnswersCmpd h r (q.lists h r) c (optimizeCmpd (simSegs h env c0 ss))) := by
  refine cmpd_good hc0 hok.1 (fun s hs hmax => sim_good wf ev s q _ ((hok.2 s hs).1 hmax)) ?_
  by_cases hl : ss.length = 1
  · exact Or.inl hl
  · exact Or.inr fun s hs => sim_good wf ev s q _ (((hok.2 s hs).2).resolve_left hl)

theorem plainOk_good {q : ListQ} {c : Comb} {ss : List Sim} (hok : PlainOk h r env tot q (Comb.via c) ss) :
    HeadIs c (simSegs h env c ss) ∧
    DecidesCmpd h r (q.lists h r) c (simSegs h env c ss) (fun x => decide (cmpdSat h r env ss x)) ∧
    (tot = true → AnswersCmpd h r (q.lists h r) c (simSegs h env c ss)) := by
  cases ss with
  | nil => exact hok.elim
  | cons s ss =>
    rw [simSegs]
    have h0 := sim_good wf ev s q _ hok.1 c rfl
    have hrest : List.Forall₂ (fun s p => s.2 = Comb.chain ∧ Decides h r (q.lists h r) s.1 .chain p) (simSegs h env .chain ss)
          (ss.map fun s x => decide (s.Sat h r env x)) ∧
        (tot = true → ∀ t ∈ simSegs h env .chain ss, Answers h r (q.lists h r) t.1 .chain) := by
      have hg : ∀ t ∈ ss, SimGood h r env tot q .list t := fun t ht => sim_good wf ev t q _ (hok.2 t ht)
      clear hok h0
      induction ss with
      | nil => rw [simSegs]; exact ⟨.nil, by simp⟩
      | cons t ss ih =>
        obtain ⟨i1, i2⟩ := ih (fun t ht => hg t (List.mem_cons_of_mem _ ht))
        obtain ⟨g1, g2⟩ := hg t List.mem_cons_self .chain rfl
        rw [simSegs]
        refine ⟨.cons ⟨rfl, g1⟩ i1, fun ht u hu => ?_⟩
        rcases List.mem_cons.1 hu with rfl | hu
        · exact g2 ht
        · exact i2 ht u hu
    refine ⟨⟨_, _, rfl⟩, ⟨_, _, _, _, rfl, h0.1, hrest.1, fun x => ?_⟩, fun ht => ⟨_, _, rfl, h0.2 ht, hrest.2 ht⟩⟩
    rw [Bool.eq_iff_iff, decide_eq_true_eq, cmpdSat_iff, Bool.and_eq_true, decide_eq_true_eq, List.all_map, List.all_eq_true]
    simp

theorem stepsOk_good {ph : Phase} {cx : Complex} (hok : StepsOk tot (CmpdOk h r env tot) ph cx) :
    DecidesSteps h r ph (optCmpds h env cx) (steps h r env cx) ∧ (tot = true → AnswersSteps h r ph (optCmpds h env cx)) := by
  rw [steps_eq]
  induction cx generalizing ph with
  | nil => exact ⟨.nil, fun _ => .nil⟩
  | cons s l ih =>
    obtain ⟨c, ss⟩ := s
    obtain ⟨hd, hc, hs, hl⟩ := hok
    obtain ⟨i1, i2⟩ := ih hl
    obtain ⟨k1, k2, k3⟩ := cmpdOk_good wf ev (down_ne_chain hd) hc
    rw [← phase_lists] at k2 k3
    exact ⟨.cons k1 hd k2 i1, fun ht => .cons k1 (hs ht) (k3 ht) (i2 ht)⟩

theorem plainSteps_good {ph : Phase} {cx : Complex} (hok : StepsOk tot (PlainOk h r env tot) ph cx) :
    DecidesSteps h r ph (cplxCmpds h env cx) (steps h r env cx) ∧ (tot = true → AnswersSteps h r ph (cplxCmpds h env cx)) := by
  rw [steps_eq, cplxCmpds_eq]
  induction cx generalizing ph with
  | nil => exact ⟨.nil, fun _ => .nil⟩
  | cons s l ih =>
    obtain ⟨c, ss⟩ := s
    obtain ⟨hd, hc, hs, hl⟩ := hok
    obtain ⟨i1, i2⟩ := ih hl
    obtain ⟨k1, k2, k3⟩ := plainOk_good wf ev hc
    rw [← phase_lists] at k2 k3
    exact ⟨.cons k1 hd k2 i1, fun ht => .cons k1 (hs ht) (k3 ht) (i2 ht)⟩

theorem upOk_good {cx : Complex}
    (hok : ∀ s ∈ cx, Comb.down s.1 = true ∧ s.2 ≠ [] ∧ ∀ t ∈ s.2, t.Ok h r env tot .doc .list) :
    DecidesUp h r (optCmpds h env cx) (steps h r env cx) ∧
    (tot = true → ∀ rules ∈ optCmpds h env cx, ∀ c, Comb.up c = true → AnswersCmpd h r (Phase.lists h r .sorted) c rules) := by
  have hvia : ∀ c, Comb.up c = true → Comb.via c = .list := by intro c hc; cases c <;> first | rfl | cases hc
  have key : ∀ s ∈ cx, HeadIs s.1 (optimizeCmpd (simSegs h env s.1 s.2)) ∧ Comb.down s.1 = true ∧
      ∀ c, Comb.up c = true → DecidesCmpd h r (Phase.lists h r .sorted) c (optimizeCmpd (simSegs h env s.1 s.2))
        (fun x => decide (cmpdSat h r env s.2 x)) ∧
        (tot = true → AnswersCmpd h r (Phase.lists h r .sorted) c (optimizeCmpd (simSegs h env s.1 s.2))) := by
    intro s hs
    obtain ⟨d1, d2, d3⟩ := hok s hs
    have hg : ∀ c, Comb.up c = true → CmpdOk h r env tot .doc (Comb.via c) s.2 := fun c hc =>
      ⟨d2, fun t ht => ⟨fun _ => by rw [hvia c hc]; exact d3 t ht, Or.inr (d3 t ht)⟩⟩
    exact ⟨(cmpdOk_good wf ev (down_ne_chain d1) (hg .chain rfl)).1, d1,
      fun c hc => (cmpdOk_good wf ev (down_ne_chain d1) (hg c hc)).2⟩
  refine ⟨?_, fun ht rules hr c hc => ?_⟩
  · rw [steps_eq]
    unfold DecidesUp optCmpds
    rw [List.forall₂_map_left_iff, List.forall₂_map_right_iff, List.forall₂_same]
    intro s hs
    obtain ⟨k1, k2, k3⟩ := key s hs
    exact ⟨k1, k2, fun c hc => (k3 c hc).1⟩
  · obtain ⟨s, hs, rfl⟩ := List.mem_map.1 hr
    exact ((key s hs).2.2 c hc).2 ht

omit wf ev in
theorem stepsOk_shape {C : ListQ → Via → List Sim → Prop} (hC : ∀ q v ss, C q v ss → ss ≠ []) {ph : Phase} {cx : Complex}
    (hok : StepsOk tot C ph cx) : ∀ s ∈ cx, s.1 ≠ Comb.chain ∧ s.2 ≠ [] := by
  induction cx generalizing ph with
  | nil => intro s hs; cases hs
  | cons s l ih =>
    obtain ⟨c, ss⟩ := s
    obtain ⟨hd, hc, _, hl⟩ := hok
    intro t ht
    rcases List.mem_cons.1 ht with rfl | ht
    · exact ⟨down_ne_chain hd, hC _ _ _ hc⟩
    · exact ih hl t ht

theorem find_good {ph : Phase} {cx : Complex} (hok : FindOk h r env tot ph cx) :
    DecidesProc h r ph (optimizeGroup true (cplxCmpds h env cx)) (steps h r env cx) (resultPhase ph cx) ∧
    (tot = true → AnswersProc h r ph (optimizeGroup true (cplxCmpds h env cx))) := by
  obtain ⟨hne, hok⟩ := hok
  by_cases hl : looked cx = true
  · rw [if_pos hl] at hok
    obtain ⟨hup, hph, c, ss, l, hdrop, hcd, hcm, hst⟩ := hok
    have hcx : ∀ s ∈ cx, s.1 ≠ Comb.chain ∧ s.2 ≠ [] := by
      intro s hs
      rw [← List.take_append_drop (heaviest cx) cx] at hs
      rcases List.mem_append.1 hs with hs | hs
      · exact ⟨down_ne_chain (hup s hs).1, (hup s hs).2.1⟩
      · rw [hdrop] at hs
        rcases List.mem_cons.1 hs with rfl | hs
        · exact ⟨down_ne_chain hcd, hcm.1⟩
        · exact stepsOk_shape (fun _ _ _ hc => hc.1) hst s hs
    rw [optimize_look cx hl hcx, hdrop]
    have hk : 0 < heaviest cx := by
      unfold looked at hl
      rw [Bool.and_eq_true, decide_eq_true_eq] at hl
      exact hl.1
    obtain ⟨u1, u2⟩ := upOk_good wf ev hup
    obtain ⟨k1, k2, k3⟩ := cmpdOk_good wf ev (c := .childrenAll) (down_ne_chain hcd) hcm
    obtain ⟨s1, s2⟩ := stepsOk_good wf ev hst
    rw [← phase_lists] at k2 k3
    have hsteps : steps h r env cx = steps h r env (cx.take (heaviest cx)) ++
        (c, fun x => decide (cmpdSat h r env ss x)) :: steps h r env l := by
      conv_lhs => rw [← List.take_append_drop (heaviest cx) cx, hdrop]
      simp [steps_eq]
    have hres : resultPhase ph cx = (ph.next .childrenAll).after ((steps h r env l).map (·.1)) := by
      unfold resultPhase
      rw [if_pos hl]
      have : cx.drop (heaviest cx + 1) = l := by
        rw [← List.drop_drop, hdrop]; rfl
      rw [this, steps_eq]
      simp [Function.comp_def]
    -- the first of the checked compounds
    cases cx with
    | nil => exact absurd rfl hne
    | cons s0 l0 =>
      obtain ⟨c0, ss0⟩ := s0
      have htake : (((c0, ss0) :: l0).take (heaviest ((c0, ss0) :: l0))) =
          (c0, ss0) :: l0.take (heaviest ((c0, ss0) :: l0) - 1) := by
        obtain ⟨k, hk'⟩ : ∃ k, heaviest ((c0, ss0) :: l0) = k + 1 := ⟨_, (Nat.succ_pred_eq_of_pos hk).symm⟩
        rw [hk']
        rfl
      have hdd : c0 = .children ∨ c0 = .childrenAll := by
        unfold looked at hl
        simp only [Bool.and_eq_true, Bool.or_eq_true, beq_iff_eq] at hl
        exact hl.2
      rw [hres, hsteps]
      have hst0 : steps h r env (((c0, ss0) :: l0).take (heaviest ((c0, ss0) :: l0))) =
          (c0, fun x => decide (cmpdSat h r env ss0 x)) :: steps h r env (l0.take (heaviest ((c0, ss0) :: l0) - 1)) := by
        rw [htake]
        simp [steps_eq]
      constructor
      · rw [hst0] at u1 ⊢
        exact .look u1 hdd k1 hcd k2 s1
      · intro ht
        have hnext : ph.next .childrenAll = .sorted := by
          rcases hph ht with rfl | rfl <;> rfl
        rw [hnext] at k3 s2
        exact .look (hph ht) (u2 ht) (k3 ht) (s2 ht)
  · rw [if_neg hl] at hok
    have hl' : looked cx = false := by simpa using hl
    rw [optimize_plain cx hl' (stepsOk_shape (fun _ _ _ hc => hc.1) hok)]
    obtain ⟨s1, s2⟩ := stepsOk_good wf ev hok
    have hres : resultPhase ph cx = ph.after ((steps h r env cx).map (·.1)) := by
      unfold resultPhase
      rw [if_neg hl, steps_eq]
      simp [Function.comp_def]
    rw [hres]
    refine ⟨.plain ?_ s1, fun ht => .plain (s2 ht)⟩
    unfold optCmpds
    simpa using hne

end Visdom
