import Verif.Props.NthExact
/-!
# C28, exactly: the sets on which positions are right

The positional rules look at each run of siblings in the set by itself. They are right exactly on the sets in which every two siblings that
follow one another come in the order of the document.
-/
namespace Visdom
open Spec Classical
variable {h : Heap} {r : Nat} {env : Env}

/-- A single rule is asked once, for the whole set. -/
theorem filterQ_sel1 {s : Sim} {X : List Nat} (hX : X ≠ []) :
    filterQ h env X (sel1 s) = (simMatcher h env s).apply X none := by
  have hq : (optimizeGroup false (cplxCmpds h env [(.childrenAll, [s])])).query = [[(simMatcher h env s, .childrenAll)]] := by
    rw [cplxCmpds, cplxCmpds, stepCmpd, simSegs, simSegs]
    simp [optimizeGroup, optimizeCmpd, maxIndex]
  have h1 : innerSel h env (sel1 s) = [optimizeGroup false (cplxCmpds h env [(.childrenAll, [s])])] := innerSel_eq _
  have hne : X.isEmpty = false := by simpa using hX
  simp only [filterQ, filterSel, hne, h1, filterProcs, filterProc, hq, List.getLast?_singleton, selectByRule, selectRest]
  cases (simMatcher h env s).apply X none with
  | error e => rfl
  | ok l =>
    cases l with
    | nil => rfl
    | cons x l => simp [addElems]

theorem runs_ok {m : Matcher} {P : Nat → Bool} (hd : Decides h r (RunAsc h) m .chain P) (ha : Answers h r (RunAsc h) m .chain)
    (hall : m.all.isSome = true) {X : List Nat} (hX : Elems h r X) (hs : RunAsc h X) : m.apply X none = .ok (X.filter P) := by
  obtain ⟨f, hf⟩ := Option.isSome_iff_exists.1 hall
  obtain ⟨res, hres⟩ := ha.all (by simp) (by simp) f hf X hX hs
  unfold Matcher.apply
  rw [hf]
  simp only [hres, hd.all (by simp) (by simp) f hf X res hX hs hres]

/-- C28 on every set in which siblings that follow one another come in order. -/
theorem C28_runs_partial (wf : TreeWF h r) {s : Sim} (hp : Positional s)
    (hn : ∀ last ofType a b, s = .nth last ofType a b → NthOk h r ofType a b) {X : List Nat} (hX : Elems h r X) (hs : RunAsc h X) :
    filterQ h env X (sel1 s) = .ok (X.filter fun x => decide (s.Sat h r env x)) := by
  by_cases hne : X = []
  · subst hne; rfl
  rw [filterQ_sel1 hne]
  have hQ : ListsOk h (RunAsc h) .chain := Or.inr (Or.inr fun _ hl => hl)
  cases s with
  | nth last ofType a b =>
    have hm : simMatcher h env (.nth last ofType a b) = nthMatcher h ofType (!last) (some a) (some b) := by
      cases ofType <;> (rw [simMatcher]; rfl)
    rw [hm]
    refine runs_ok (nth_decides wf (hn _ _ _ _ rfl) hQ ?_) (nth_answers wf (hn _ _ _ _ rfl) hQ (by simp)) nthMatcher_has hX hs
    intro x _ _; rw [decide_eq_true_eq, Sim.Sat]; try simp
  | nthIdx last ofType b =>
    have hm : simMatcher h env (.nthIdx last ofType b) = nthMatcher h ofType (!last) none (some b) := by
      cases ofType <;> (rw [simMatcher]; rfl)
    rw [hm]
    refine runs_ok (nthIdx_decides wf hQ ?_) (nthIdx_answers wf hQ (by simp)) nthMatcher_has hX hs
    intro x _ _; rw [decide_eq_true_eq, Sim.Sat]; try simp
  | edge last ofType =>
    have hm : simMatcher h env (.edge last ofType) = edgeMatcher h ofType (!last) := by cases ofType <;> (rw [simMatcher]; rfl)
    rw [hm]
    refine runs_ok (edge_decides wf hQ ?_) (edge_answers wf hQ (by simp)) (by cases ofType <;> rfl) hX hs
    intro x _ _; rw [decide_eq_true_eq, Sim.Sat]; try simp
  | only ofType =>
    have hm : simMatcher h env (.only ofType) = onlyMatcher h ofType := by cases ofType <;> (rw [simMatcher]; rfl)
    rw [hm]
    refine runs_ok (only_decides wf hQ ?_) (only_answers wf hQ) (by cases ofType <;> rfl) hX hs
    intro x _ _; rw [decide_eq_true_eq, Sim.Sat]; try simp
  | _ => exact hp.elim

/-! ### the other direction -/

theorem collectAvail_sublist : ∀ (A sibs : List Nat), (collectAvail h A sibs).Sublist sibs
  | [], sibs => List.nil_sublist _
  | a :: as, sibs => by
    rw [collectAvail]
    have hd := List.dropWhile_sublist (fun x => decide (h.index x < a)) (l := sibs)
    split
    · exact List.nil_sublist _
    · rename_i s t he
      rw [he] at hd
      split
      · exact ((collectAvail_sublist as t).cons₂ s).trans hd
      · exact (collectAvail_sublist as (s :: t)).trans hd

theorem collectAvail_index : ∀ (A sibs : List Nat), ((collectAvail h A sibs).map h.index).Sublist A
  | [], sibs => List.nil_sublist _
  | a :: as, sibs => by
    rw [collectAvail]
    split
    · exact List.nil_sublist _
    · rename_i s t he
      split
      · rename_i hi
        rw [List.map_cons, hi]
        exact (collectAvail_index as t).cons₂ a
      · exact (collectAvail_index as (s :: t)).cons a

theorem zip_fst_sublist : ∀ (l : List Nat) (bs : List Bool), ((l.zip bs).map (·.1)).Sublist l
  | [], _ => by simp
  | a :: l, [] => by simp
  | a :: l, b :: bs => by simpa using (zip_fst_sublist l bs)

/-- `:nth-of-type` keeps siblings of the run only, and in increasing position. -/
theorem ofType_asc (wf : TreeWF h r) {l : List Nat} {d : SibData} {p : Nat} (hp : d.parent = some p) (hpw : Within h r p) {y : List Nat}
    (hy : handleNthOfType h true l d = .ok y) : y.Sublist (slice l d) ∧ y.Pairwise fun a b => h.index a < h.index b := by
  unfold handleNthOfType at hy
  split at hy
  · cases hy
  · cases hy; exact ⟨List.nil_sublist _, .nil⟩
  · rw [hp] at hy
    simp only [if_true] at hy
    split at hy
    · cases hy
    · rename_i bs hbs
      cases hy
      refine ⟨collectAvail_sublist _ _, ?_⟩
      rw [← List.pairwise_map (f := h.index) (R := (· < ·))]
      refine List.Pairwise.sublist (collectAvail_index _ _) ?_
      rw [List.pairwise_map]
      refine List.Pairwise.filter _ ?_
      have := (children_index wf hpw).sublist (zip_fst_sublist (h.children p) bs)
      rwa [List.pairwise_map] at this

/-- Runs that follow one another have different parents. -/
theorem groupLoop_chain {f : Nat → R (Option (List Nat))} : ∀ (l : List Nat) (i : Nat) (d : SibData) (ds : List SibData),
    groupLoop h f l i d = .ok ds →
    ds.IsChain (fun d d' => d.parent ≠ d'.parent) ∧ (d.parent.isSome = true → ∀ d' ∈ ds.head?, d'.parent = d.parent)
  | [], i, d, ds, hg => by
    simp only [groupLoop, Except.ok.injEq] at hg
    subst hg
    split <;> simp
  | x :: l, i, d, ds, hg => by
    simp only [groupLoop] at hg
    split at hg
    · exact groupLoop_chain l _ _ _ hg
    · rename_i p hxp
      split at hg
      · exact groupLoop_chain l _ { d with stop := i + 1 } _ hg
      · rename_i hne
        split at hg
        · cases hg
        · rename_i a ha
          split at hg
          · cases hg
          · rename_i ds' hds
            obtain ⟨h1, h2⟩ := groupLoop_chain l _ _ _ hds
            cases hg
            cases hdp : d.parent with
            | none => simp [h1]
            | some q =>
              simp only [Option.isSome_some, if_true]
              refine ⟨List.isChain_cons.2 ⟨fun d' hd' he => ?_, h1⟩, fun _ d' hd' => ?_⟩
              · rw [h2 rfl d' hd', hdp] at he
                exact hne (by rw [hdp]; exact he)
              · simp at hd'; rw [← hd', hdp]

theorem flatMapR_whole {α : Type} {f : α → R (List Nat)} {g : α → List Nat} : ∀ {ds : List α} {res : List Nat}, flatMapR f ds = .ok res →
    (∀ d ∈ ds, ∀ y, f d = .ok y → y.Sublist (g d)) →
    res.Sublist (ds.flatMap g) ∧ (res.length = (ds.flatMap g).length → ∀ d ∈ ds, f d = .ok (g d))
  | [], res, hr, _ => by cases hr; simp
  | d :: ds, res, hr, hsub => by
    simp only [flatMapR] at hr
    split at hr
    · cases hr
    · rename_i y hy
      split at hr
      · cases hr
      · rename_i z hz
        cases hr
        obtain ⟨h1, h2⟩ := flatMapR_whole hz fun d' hd' => hsub d' (List.mem_cons_of_mem _ hd')
        have h0 := hsub d List.mem_cons_self y hy
        refine ⟨by rw [List.flatMap_cons]; exact h0.append h1, fun hlen => ?_⟩
        rw [List.flatMap_cons, List.length_append, List.length_append] at hlen
        have l0 := h0.length_le
        have l1 := h1.length_le
        intro d' hd'
        rcases List.mem_cons.1 hd' with rfl | hd'
        · rw [hy, h0.eq_of_length (by omega)]
        · exact h2 (by omega) d' hd'

theorem flatMapR_all {α : Type} {g : α → List Nat} : ∀ (ds : List α), flatMapR (fun d => .ok (g d)) ds = .ok (ds.flatMap g)
  | [] => rfl
  | d :: ds => by simp only [flatMapR, flatMapR_all ds, List.flatMap_cons]

/-- C28, exactly: the positional rules are right on a set if and only if siblings that follow one another in it come in order; and this is so
if and only if `filter(":nth-of-type(n)")`, which should keep everything, does. -/
theorem C28_sets_exact (wf : TreeWF h r) (sm : Small h r) {X : List Nat} (hX : Elems h r X) :
    (RunAsc h X ↔ filterQ h env X (sel1 (.nth false true 1 0)) = .ok X) ∧
    (RunAsc h X ↔ ∀ s, Positional s → (∀ last ofType a b, s = .nth last ofType a b → NthOk h r ofType a b) →
      filterQ h env X (sel1 s) = .ok (X.filter fun x => decide (s.Sat h r env x))) := by
  have hfwd : RunAsc h X → ∀ s, Positional s → (∀ last ofType a b, s = .nth last ofType a b → NthOk h r ofType a b) →
      filterQ h env X (sel1 s) = .ok (X.filter fun x => decide (s.Sat h r env x)) := fun hs s hp hn => C28_runs_partial wf hp hn hX hs
  have hone : (∀ s, Positional s → (∀ last ofType a b, s = .nth last ofType a b → NthOk h r ofType a b) →
      filterQ h env X (sel1 s) = .ok (X.filter fun x => decide (s.Sat h r env x))) →
      filterQ h env X (sel1 (.nth false true 1 0)) = .ok X := by
    intro hall
    rw [hall (.nth false true 1 0) trivial ?_]
    · congr 1
      rw [List.filter_eq_self]
      intro x hx
      obtain ⟨hw, he⟩ := hX x hx
      obtain ⟨p, hp, hpw, hxp⟩ := parent_inv wf hw (elem_ne_root wf he)
      have hc : x ∈ h.children p := mem_children.2 ⟨List.mem_of_getElem? hxp, he⟩
      rw [decide_eq_true_eq, Sim.Sat]
      refine ⟨_, (atPos_iff wf hpw hc).2 rfl, ?_⟩
      exact ⟨place h false true (h.children p) x + 1, by omega⟩
    · intro last ofType a b he
      cases he
      exact Or.inl ⟨rfl, by decide, by decide, fun p hp _ => sm p hp⟩
  have hback : filterQ h env X (sel1 (.nth false true 1 0)) = .ok X → RunAsc h X := by
    intro hq
    by_cases hne : X = []
    · subst hne; exact .nil
    rw [filterQ_sel1 hne] at hq
    have hm : simMatcher h env (.nth false true 1 0) = nthOfTypeMatcher h true (some 1) (some 0) := by rw [simMatcher]; rfl
    rw [hm] at hq
    simp only [Matcher.apply, nthOfTypeMatcher, groupDo] at hq
    split at hq
    · cases hq
    · rename_i ds hds
      have hdata := groupLoop_data (elems_parent wf hX) X 0 {} ds rfl (by intro p hp; cases hp) (by simp) (by omega) hds
      obtain ⟨hchain, -⟩ := groupLoop_chain _ _ _ _ hds
      have hwhole : ds.flatMap (slice X) = X := by
        have : groupDo h (fun t => (getAllowedIndexs (some 1) (some 0) t).map some) (fun d => .ok (slice X d)) X = .ok (ds.flatMap (slice X)) := by
          unfold groupDo
          rw [hds]
          exact flatMapR_all ds
        have := groupDo_filter (P := fun _ => true) (elems_parent wf hX) (fun d p _ _ _ _ y hy => by cases hy; simp) this
        simpa using this
      have hasc : ∀ d ∈ ds, ∀ y, handleNthOfType h true X d = .ok y →
          y.Sublist (slice X d) ∧ y.Pairwise fun a b => h.index a < h.index b := by
        intro d hd y hy
        obtain ⟨p, hp, _, hpar, hne⟩ := hdata d hd
        obtain ⟨x, hx⟩ := List.exists_mem_of_ne_nil _ hne
        exact ofType_asc wf hp (elems_parent_within wf hX ((slice_sublist X d).subset hx) (hpar x hx)) hy
      have heach := (flatMapR_whole hq fun d hd y hy => (hasc d hd y hy).1).2 (by rw [hwhole])
      unfold RunAsc
      rw [← hwhole, List.flatMap_def, List.isChain_flatten]
      · constructor
        · intro l hl
          obtain ⟨d, hd, rfl⟩ := List.mem_map.1 hl
          exact (((hasc d hd _ (heach d hd)).2).isChain).imp fun _ _ h1 _ => h1
        · rw [List.isChain_map]
          refine List.IsChain.imp_of_mem_imp ?_ hchain
          intro d d' hd hd' hne x hx y hy hxy
          obtain ⟨p, hp, _, hpar, _⟩ := hdata d hd
          obtain ⟨p', hp', _, hpar', _⟩ := hdata d' hd'
          rw [hpar x (List.mem_of_getLast? hx), hpar' y (List.mem_of_head? hy), ← hp, ← hp'] at hxy
          exact absurd hxy hne
      · intro hmem
        obtain ⟨d, hd, he⟩ := List.mem_map.1 hmem
        obtain ⟨p, _, _, _, hne⟩ := hdata d hd
        exact hne he
  exact ⟨⟨fun hs => hone (hfwd hs), hback⟩, ⟨hfwd, fun hall => hback (hone hall)⟩⟩

/-- A set in no order, in which siblings that follow one another are in order, and one in which they are not. -/
example : RunAsc demo [9, 6, 7, 2, 6, 1] ∧ ¬ SibAsc demo [9, 6, 7, 2, 6, 1] ∧ ¬ RunAsc demo [7, 6] ∧
    filterQ demo env0 [9, 6, 7, 2, 6, 1] (sel1 (.edge false false)) = .ok [9, 6, 2, 6, 1] ∧
    filterQ demo env0 [9, 6, 7, 2, 6, 1] (sel1 (.nth true true 2 1)) = .ok [9, 6, 7, 2, 6, 1] ∧
    filterQ demo env0 [7, 6] (sel1 (.nth false true 1 0)) = .ok [7] := by
  unfold RunAsc SibAsc
  decide

/-- Where C28 fails: `filter` answers an element that is not in the set, loses elements, and changes their order. -/
theorem C28_fails_repeated :
    filterQ demo env0 [7, 7] (sel1 (.edge false false)) = .ok [6] ∧
    filterQ demo env0 [7, 6] (sel1 (.edge false true)) = .ok [7] ∧
    filterQ demo env0 [5, 2, 5] (sel1 (.nth false false 1 0)) = .ok [5] ∧
    filterQ demo env0 [7, 6] (sel1 (.nth false false 1 0)) = .ok [6, 7] := by
  decide

end Visdom
