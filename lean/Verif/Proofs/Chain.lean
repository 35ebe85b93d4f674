import Verif.Spec.Side
import Verif.Proofs.Checked
import Verif.Proofs.Find
import Verif.Model.Compile
/-!
# Filtering a list by a compound or a complex selector
-/
namespace Visdom
open Spec
variable {h : Heap} {r : Nat} {Q : List Nat → Prop}

theorem chain_decides {m : Matcher} {P : Nat → Bool} (hD : Decides h r Q m .chain P) {l res : List Nat}
    (hl : Elems h r l) (hq : Q l) (hr : selectByRule h l m .chain = .ok res) : res = l.filter P := by
  simp only [selectByRule] at hr
  exact apply_decides hD (by simp) (by simp) hl hq hr

theorem chain_answers {m : Matcher} (hA : Answers h r Q m .chain) {l : List Nat}
    (hl : Elems h r l) (hq : Q l) : ∃ res, selectByRule h l m .chain = .ok res := by
  simp only [selectByRule]
  unfold Matcher.apply
  cases hall : m.all with
  | some f => exact hA.all (by simp) (by simp) f hall l hl hq
  | none =>
    cases hone : m.one with
    | some g => exact filterR_total fun x hx => hA.one g hone x (hl x hx).1 (hl x hx).2
    | none =>
      rcases hA.handle with hh | hh
      · rw [hone] at hh; cases hh
      · rw [hall] at hh; cases hh

theorem elems_filter {l : List Nat} (hl : Elems h r l) (P : Nat → Bool) : Elems h r (l.filter P) :=
  fun x hx => hl x (List.mem_filter.1 hx).1

theorem rest_decides (hQf : ∀ l P, Q l → Q (l.filter P)) {ss : List Seg} {Ps : List (Nat → Bool)}
    (hD : List.Forall₂ (fun s p => s.2 = Comb.chain ∧ Decides h r Q s.1 .chain p) ss Ps) {l res : List Nat}
    (hl : Elems h r l) (hq : Q l) (hr : selectRest h l ss = .ok res) : res = l.filter fun x => Ps.all fun p => p x := by
  induction hD generalizing l with
  | nil =>
    simp only [selectRest, Except.ok.injEq] at hr
    simp [← hr]
  | @cons s p ss Ps hs _ ih =>
    simp only [selectRest] at hr
    by_cases he : l.isEmpty = true
    · rw [if_pos he] at hr
      obtain rfl := Except.ok.inj hr
      rw [List.isEmpty_iff.1 he]; rfl
    · rw [if_neg he, hs.1] at hr
      cases h1 : selectByRule h l s.1 .chain with
      | error e => rw [h1] at hr; cases hr
      | ok l' =>
        simp only [h1] at hr
        have := chain_decides hs.2 hl hq h1
        subst this
        rw [ih (elems_filter hl p) (hQf _ _ hq) hr, List.filter_filter]
        congr 1
        funext x
        simp only [List.all_cons, Bool.and_comm]

theorem rest_answers (hQf : ∀ l P, Q l → Q (l.filter P)) {ss : List Seg} {Ps : List (Nat → Bool)}
    (hD : List.Forall₂ (fun s p => s.2 = Comb.chain ∧ Decides h r Q s.1 .chain p) ss Ps)
    (hA : ∀ t ∈ ss, Answers h r Q t.1 .chain) {l : List Nat}
    (hl : Elems h r l) (hq : Q l) : ∃ res, selectRest h l ss = .ok res := by
  induction hD generalizing l with
  | nil => exact ⟨l, rfl⟩
  | @cons s p ss Ps hs _ ih =>
    simp only [selectRest]
    split
    · exact ⟨_, rfl⟩
    · obtain ⟨l', h1⟩ := chain_answers (hA s (by simp)) hl hq
      rw [hs.1]
      simp only [h1]
      have := chain_decides hs.2 hl hq h1
      subst this
      exact ih (fun t ht => hA t (List.mem_cons_of_mem _ ht)) (elems_filter hl p) (hQf _ _ hq)

/-! ## Sorting a compound -/

theorem perm_map {α β : Type} {f : α → β} {l : List β} {ss : List α} (hp : l.Perm (ss.map f)) :
    ∃ ss' : List α, ss'.Perm ss ∧ l = ss'.map f := by
  generalize hm : ss.map f = m at hp
  induction hp generalizing ss with
  | nil => exact ⟨ss, List.Perm.refl _, hm.symm⟩
  | cons x _ ih =>
    cases ss with
    | nil => cases hm
    | cons a ss =>
      simp only [List.map_cons, List.cons.injEq] at hm
      obtain ⟨ss', h1, h2⟩ := ih hm.2
      exact ⟨a :: ss', h1.cons a, by rw [List.map_cons, ← h2, hm.1]⟩
  | swap x y l =>
    cases ss with
    | nil => cases hm
    | cons a ss =>
      cases ss with
      | nil => simp at hm
      | cons b ss =>
        simp only [List.map_cons, List.cons.injEq] at hm
        obtain ⟨h1, h2, h3⟩ := hm
        exact ⟨b :: a :: ss, List.Perm.swap a b ss, by simp [h1, h2, h3]⟩
  | trans _ _ ih1 ih2 =>
    obtain ⟨s1, p1, e1⟩ := ih2 hm
    obtain ⟨s2, p2, e2⟩ := ih1 e1.symm
    exact ⟨s2, p2.trans p1, e2⟩

variable {env : Env}

theorem simSegs_fst (c : Comb) (ss : List Sim) : (simSegs h env c ss).map (·.1) = ss.map (simMatcher h env) := by
  induction ss generalizing c with
  | nil => rw [simSegs]; rfl
  | cons s ss ih => rw [simSegs, List.map_cons, List.map_cons, ih]

theorem simSegs_chain (ss : List Sim) : ∀ t ∈ simSegs h env .chain ss, t.2 = Comb.chain := by
  induction ss with
  | nil => intro t ht; rw [simSegs] at ht; cases ht
  | cons s ss ih =>
    intro t ht
    rw [simSegs] at ht
    rcases List.mem_cons.1 ht with rfl | ht
    · rfl
    · exact ih t ht

theorem prio_eq (s : Sim) : (simMatcher h env s).priority = s.prio := by
  cases s <;> first
    | (unfold simMatcher; rfl)
    | (rename_i ot _ _; cases ot <;> (unfold simMatcher; rfl))
    | (rename_i ot _; cases ot <;> (unfold simMatcher; rfl))
    | (rename_i ot; cases ot <;> (unfold simMatcher; rfl))

theorem sortPriority_head {m : Seg} {rest r0 : Cmpd} (hs : sortPriority r0 = m :: rest) : ∀ t ∈ rest, t.1.priority ≤ m.1.priority := by
  have htr : ∀ a b c : Seg, b.1.priority ≤ a.1.priority → c.1.priority ≤ b.1.priority → c.1.priority ≤ a.1.priority :=
    fun a b c h1 h2 => Nat.le_trans h2 h1
  have hto : ∀ a b : Seg, b.1.priority ≤ a.1.priority ∨ a.1.priority ≤ b.1.priority := fun a b => Nat.le_total _ _
  have : (sortPriority r0).Pairwise fun a b => b.1.priority ≤ a.1.priority := by
    unfold sortPriority
    haveI : Std.Total (fun a b : Seg => b.1.priority ≤ a.1.priority) := ⟨hto⟩
    haveI : IsTrans Seg (fun a b : Seg => b.1.priority ≤ a.1.priority) := ⟨fun a b c => htr a b c⟩
    exact List.pairwise_insertionSort _ _
  rw [hs] at this
  exact (List.pairwise_cons.1 this).1

/-- After the optimisation a compound consists of the same rules, the one of greatest priority first, carrying the
combinator; the others are chained. -/
theorem optimizeCmpd_shape {c : Comb} (hc : c ≠ .chain) {ss : List Sim} (hne : ss ≠ []) :
    ∃ s0 ss', (s0 :: ss').Perm ss ∧ (∀ t ∈ ss, t.prio ≤ s0.prio) ∧
      ∃ segs, optimizeCmpd (simSegs h env c ss) = (simMatcher h env s0, c) :: segs ∧
        segs.map (·.1) = ss'.map (simMatcher h env) ∧ ∀ t ∈ segs, t.2 = Comb.chain := by
  cases ss with
  | nil => exact absurd rfl hne
  | cons s ss =>
    cases ss with
    | nil =>
      refine ⟨s, [], List.Perm.refl _, by simp, [], ?_, rfl, by simp⟩
      rw [simSegs, simSegs]; rfl
    | cons t ss =>
      have hseg : simSegs h env c (s :: t :: ss) = (simMatcher h env s, c) :: (simMatcher h env t, .chain) ::
          simSegs h env .chain ss := by rw [simSegs, simSegs]
      have hchain : ∀ u ∈ (simMatcher h env t, Comb.chain) :: simSegs h env .chain ss, u.2 = Comb.chain := by
        intro u hu
        rcases List.mem_cons.1 hu with rfl | hu
        · rfl
        · exact simSegs_chain ss u hu
      have hperm : (sortPriority (simSegs h env c (s :: t :: ss))).Perm (simSegs h env c (s :: t :: ss)) :=
        List.perm_insertionSort _ _
      cases hsort : sortPriority (simSegs h env c (s :: t :: ss)) with
      | nil => rw [hsort, hseg] at hperm; exact absurd hperm.length_eq (by simp)
      | cons a as =>
        rw [hsort] at hperm
        have hpm : ((a :: as).map (·.1)).Perm ((s :: t :: ss).map (simMatcher h env)) := by
          rw [← simSegs_fst c]
          exact hperm.map _
        obtain ⟨sl, hp1, hp2⟩ := perm_map hpm
        cases sl with
        | nil => cases hp2
        | cons s0 ss' =>
          simp only [List.map_cons, List.cons.injEq] at hp2
          refine ⟨s0, ss', hp1, ?_, ?_⟩
          · intro u hu
            have hmem := hp1.symm.subset hu
            rcases List.mem_cons.1 hmem with rfl | hmem
            · exact Nat.le_refl _
            · have hin : simMatcher h env u ∈ as.map (·.1) := by rw [hp2.2]; exact List.mem_map_of_mem hmem
              obtain ⟨seg, hseg1, hseg2⟩ := List.mem_map.1 hin
              have := sortPriority_head hsort seg hseg1
              rw [hseg2, hp2.1, prio_eq, prio_eq] at this
              exact this
          · have hopt : optimizeCmpd (simSegs h env c (s :: t :: ss)) =
                if a.2 ≠ c then (a.1, c) :: as.map (fun n => (n.1, Comb.chain)) else a :: as := by
              rw [hseg] at hsort ⊢
              simp only [optimizeCmpd, hsort]
            rw [hopt, ← hp2.1, ← hp2.2]
            by_cases hac : a.2 = c
            · rw [if_neg (by simpa using hac)]
              refine ⟨as, by rw [← hac], rfl, ?_⟩
              have hae : a = (simMatcher h env s, c) := by
                have hm : a ∈ simSegs h env c (s :: t :: ss) := hperm.subset List.mem_cons_self
                rw [hseg] at hm
                rcases List.mem_cons.1 hm with hm | hm
                · exact hm
                · exact absurd ((hchain a hm).symm.trans hac).symm hc
              rw [hseg, hae] at hperm
              intro u hu
              exact hchain u (hperm.cons_inv.subset hu)
            · rw [if_pos hac]
              refine ⟨_, rfl, by simp [Function.comp_def], ?_⟩
              intro u hu
              obtain ⟨_, _, rfl⟩ := List.mem_map.1 hu
              rfl

end Visdom
