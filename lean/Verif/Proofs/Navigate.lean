import Verif.Proofs.FindProps
/-!
# Navigation: one step from a set
-/
namespace Visdom
open Spec Classical
variable {h : Heap} {r : Nat} {env : Env}

/-- A single compound as a selector. -/
def cmpdSel (ss : List Sim) : List Complex := [[(.childrenAll, ss)]]

theorem inner_cmpd (ss : List Sim) :
    innerSel h env (cmpdSel ss) = [{ query := [optimizeCmpd (simSegs h env .childrenAll ss)] }] := by
  rw [cmpdSel, innerSel_cons, innerSel]
  simp only [altProc, optimizeGroup, cplxCmpds, stepCmpd]
  rfl

theorem heaviest_one (s : Comb × List Sim) : heaviest [s] = 0 := by
  simp [heaviest]

theorem findSel_cmpd {ss : List Sim} (hne : ss ≠ []) :
    findSel h env (cmpdSel ss) = [{ query := [optimizeCmpd (simSegs h env .childrenAll ss)] }] := by
  rw [cmpdSel, findSel, List.map_cons, List.map_nil, optimize_plain _ (by simp [looked, heaviest_one])]
  · rfl
  · intro s hs
    rw [List.mem_singleton] at hs
    subst hs
    exact ⟨by simp, hne⟩

theorem selectWithComb_none (X : List Nat) (c : Comb) :
    selectWithComb h X none c = selectWithComb h X (some (innerSel h env (cmpdSel [.all]))) c := by
  rw [inner_cmpd]
  have : simSegs h env .childrenAll [.all] = [(allMatcher, .childrenAll)] := by
    rw [simSegs, simSegs, simMatcher]
  rw [this]
  simp only [selectWithComb, List.map_cons, List.map_nil, headComb, optimizeCmpd, headCmpds, findSelector]
  split <;> try rfl

/-- A process made of one compound. -/
theorem findSelector_one (X : List Nat) (rules : Cmpd) :
    findSelector h X [{ query := [rules] }] = if X.isEmpty then .ok [] else select h X rules none := by
  unfold findSelector
  split
  · rfl
  · simp only [findProcs, findProc, findFirst, addElems_nil]
    cases hp : select h X rules none with
    | error e => rfl
    | ok l =>
      simp only [selectChain]
      cases l with
      | nil => rfl
      | cons a l => rfl

theorem cands_nil {c : Comb} : cands h c [] = .ok [] := by
  cases c <;> rfl

theorem DecidesCmpd.head {Q : List Nat → Prop} {m : Matcher} {c c1 c2 : Comb} {ss : Cmpd} {P : Nat → Bool}
    (hD : DecidesCmpd h r Q c ((m, c1) :: ss) P) : DecidesCmpd h r Q c ((m, c2) :: ss) P := by
  obtain ⟨s, ss', P0, Ps, he, h1, h2, h3⟩ := hD
  simp only [List.cons.injEq] at he
  obtain ⟨rfl, rfl⟩ := he
  exact ⟨_, _, P0, Ps, rfl, h1, h2, h3⟩

theorem AnswersCmpd.head {Q : List Nat → Prop} {m : Matcher} {c c1 c2 : Comb} {ss : Cmpd}
    (hD : AnswersCmpd h r Q c ((m, c1) :: ss)) : AnswersCmpd h r Q c ((m, c2) :: ss) := by
  obtain ⟨s, ss', he, h1, h2⟩ := hD
  simp only [List.cons.injEq] at he
  obtain ⟨rfl, rfl⟩ := he
  exact ⟨_, _, rfl, h1, h2⟩

variable (wf : TreeWF h r) (ev : Metas h r)
include wf ev

/-- One step along a combinator with a compound. -/
theorem nav_step {c : Comb} (hca : c ≠ .childrenAll) (hch : c ≠ .chain) {ss : List Sim} {q : ListQ}
    (hok : CmpdOk h r env true q (Comb.via c) ss) {X : List Nat} (hX : Nodes h r X) (ho : OrderOk h c X)
    (hq : ∀ cs, cands h c X = .ok cs → q.lists h r cs) :
    ∃ cs, cands h c X = .ok cs ∧ Elems h r cs ∧ (∀ e, e ∈ cs ↔ h.isElem e = true ∧ ∃ y ∈ X, Rel h r c y e) ∧
      findSelector h X ([{ query := [optimizeCmpd (simSegs h env .childrenAll ss)] }].map (headComb c)) =
        .ok (cs.filter fun x => decide (cmpdSat h r env ss x)) := by
  obtain ⟨⟨m, segs, hopt⟩, hD, hA⟩ := cmpdOk_good wf ev (c := c) (c0 := .childrenAll) (by simp) hok
  rw [hopt] at hD hA ⊢
  simp only [List.map_cons, List.map_nil, headComb, headCmpds, findSelector_one]
  have hD' := DecidesCmpd.head (c2 := c) hD
  have hA' := AnswersCmpd.head (c2 := c) (hA rfl)
  have hch' : c = .chain → Elems h r X := fun e => absurd e hch
  have hsib : c = .siblings → ∃ x, X = [x] := by rintro rfl; exact ho
  have hQ : ∀ l, Elems h r l → DocSorted h r l → q.lists h r l := by
    intro l hl hs
    have hs' := docSorted_sibAsc wf (fun x hx => (hl x hx).1) hs
    cases q with
    | any => trivial
    | sib => exact hs'
    | doc => exact ⟨hs, hs'⟩
  have hQf : ∀ l P, q.lists h r l → q.lists h r (l.filter P) := by
    intro l P hl
    cases q with
    | any => trivial
    | sib => exact Spec.SibAsc.sublist hl List.filter_sublist
    | doc => exact ⟨List.Pairwise.sublist List.filter_sublist hl.1, Spec.SibAsc.sublist hl.2 List.filter_sublist⟩
  obtain ⟨cs, hcs⟩ := cands_total wf hX.within hca
  refine ⟨cs, hcs, cands_elems wf hX hch' hsib hcs, cands_mem wf hX ho hch' hcs, ?_⟩
  by_cases he : X = []
  · subst he
    rw [cands_nil] at hcs
    cases hcs
    rfl
  · rw [if_neg (by simpa using he)]
    obtain ⟨res, hres⟩ := select_answers wf hQ hQf hA' hD' (oc := none) (Or.inr ⟨rfl, ⟨m, segs, rfl⟩⟩) hX he hch' hsib ⟨cs, hcs, hq cs hcs⟩
    obtain ⟨⟨cs', h1, _, h2⟩, _⟩ := select_decides hQ hQf wf hD' (Or.inr ⟨rfl, ⟨m, segs, rfl⟩⟩) hX he ho hch' hsib hq hres
    rcases h1 with h1 | h1
    · rw [hcs] at h1; cases h1
      rw [hres, h2]
    · exact absurd h1.1 hca

theorem nav_good {c : Comb} (hca : c ≠ .childrenAll) (hch : c ≠ .chain) {ss : List Sim} {q : ListQ}
    (hok : CmpdOk h r env true q (Comb.via c) ss) {X : List Nat} (hX : Nodes h r X) (ho : OrderOk h c X)
    (hq : ∀ cs, cands h c X = .ok cs → q.lists h r cs) :
    ∃ cs, cands h c X = .ok cs ∧ Elems h r cs ∧ (∀ e, e ∈ cs ↔ h.isElem e = true ∧ ∃ y ∈ X, Rel h r c y e) ∧
      selectWithComb h X (some (innerSel h env (cmpdSel ss))) c = .ok (cs.filter fun x => decide (cmpdSat h r env ss x)) := by
  obtain ⟨cs, h1, h2, h3, h4⟩ := nav_step wf ev hca hch hok hX ho hq
  refine ⟨cs, h1, h2, h3, ?_⟩
  rw [inner_cmpd]
  simp only [selectWithComb]
  split
  · rename_i he
    rw [List.isEmpty_iff] at he
    subst he
    rw [cands_nil] at h1
    cases h1
    rfl
  · exact h4


omit ev in
theorem uniqueFirst_sublist {X : List Nat} (hX : ∀ x ∈ X, Within h r x) : (uniqueSiblingFirst h X).Sublist X := by
  rw [uniqueSiblingFirst_eq wf hX]; exact firstBy_sublist _ _

omit ev in
theorem uniqueLast_sublist {X : List Nat} (hX : ∀ x ∈ X, Within h r x) : (uniqueSiblingLast h X).Sublist X := by
  rw [uniqueSiblingLast_eq wf hX]
  have := (firstBy_sublist (key := h.parent) [] X.reverse).reverse
  rwa [List.reverse_reverse] at this

omit ev in
/-- Some sibling of every member is kept. -/
theorem uniqueFirst_cover {X : List Nat} (hX : ∀ x ∈ X, Within h r x) {y : Nat} (hy : y ∈ X) :
    ∃ z ∈ uniqueSiblingFirst h X, h.parent z = h.parent y := by
  rw [uniqueSiblingFirst_eq wf hX]
  obtain ⟨_, z, _, _, h2, h3, _⟩ := firstBy_cover (key := h.parent) (seen := []) hy (by simp)
  exact ⟨z, h2, h3⟩

omit ev in
theorem below_parent {e y : Nat} (he : Within h r e) (hy : Within h r y) :
    Below h e y ↔ ∃ p, h.parent y = some p ∧ Within h e p := by
  constructor
  · intro hb
    obtain ⟨p, hp, hk⟩ := hb.last
    exact ⟨p, parent_of_child wf (he.trans hp) hk, hp⟩
  · rintro ⟨p, hp, hw⟩
    have hk := List.mem_of_getElem? (parent_some wf hy hp).2
    rcases within_cases hw with rfl | hb
    · exact Below.of_child hk
    · exact hb.trans (Below.of_child hk)

omit ev in
/-- The parents of a list in document order: siblings come in increasing position. -/
theorem parents_sibAsc {X cs : List Nat} (hX : ∀ x ∈ X, Within h r x) (hs : DocSorted h r X)
    (hc : cands h .parent X = .ok cs) : SibAsc h cs := by
  simp only [cands, Except.ok.injEq] at hc
  subst hc
  rw [uniqueSiblingFirst_eq wf hX]
  have hsub := firstBy_sublist (key := h.parent) [] X
  have hd := firstBy_pairwise (key := h.parent) [] X
  have hs' : DocSorted h r (firstBy h.parent [] X) := List.Pairwise.sublist hsub hs
  have hw : ∀ x ∈ firstBy h.parent [] X, Within h r x := fun x hx => hX x (hsub.subset hx)
  generalize firstBy h.parent [] X = L at hd hs' hw
  unfold SibAsc parentsOf
  rw [List.pairwise_filterMap]
  refine List.Pairwise.imp_of_mem ?_ (hd.and hs')
  rintro a b ha hb ⟨hne, hbef⟩ pa hpa pb hpb hpp
  have key : ∀ x p, ((h.parent x).bind fun p => if h.isRoot p then none else some p) = some p →
      h.parent x = some p ∧ h.isRoot p = false := by
    intro x p hp
    cases hx : h.parent x with
    | none => rw [hx] at hp; cases hp
    | some p' =>
      rw [hx, Option.bind_some] at hp
      split at hp
      · cases hp
      · rename_i hr
        cases hp
        exact ⟨rfl, by simpa using hr⟩
  obtain ⟨ha1, ha2⟩ := key a pa hpa
  obtain ⟨hb1, hb2⟩ := key b pb hpb
  obtain ⟨wa, ka⟩ := parent_some wf (hw a ha) ha1
  obtain ⟨wb, kb⟩ := parent_some wf (hw b hb) hb1
  have hpn : pa ≠ pb := by rintro rfl; exact hne (ha1.trans hb1.symm)
  obtain ⟨g, hg⟩ : ∃ g, h.parent pa = some g := by
    cases hg : h.parent pa with
    | some g => exact ⟨g, rfl⟩
    | none =>
      exfalso
      rcases within_cases wa with rfl | hbl
      · rw [(isRoot_iff wf wa).2 rfl] at ha2; cases ha2
      · obtain ⟨p, hp, hk⟩ := hbl.last
        rw [parent_of_child wf hp hk] at hg; cases hg
  obtain ⟨wg, ia⟩ := parent_some wf wa hg
  obtain ⟨_, ib⟩ := parent_some wf wb (hpp ▸ hg)
  rcases Nat.lt_trichotomy (h.index pa) (h.index pb) with hlt | heq | hgt
  · exact hlt
  · rw [heq, ib] at ia
    exact absurd (Option.some.inj ia).symm hpn
  · refine absurd hbef (before_asymm wf (hw b hb) (hw a ha) ?_)
    exact Or.inr ⟨g, _, _, pb, pa, wg, hgt, ib, ia, Within.step .self (List.mem_of_getElem? kb),
      Within.step .self (List.mem_of_getElem? ka)⟩

/-! ## `unique_all_siblings` -/

/-- What the entry for the parent `p` says about the list. -/
def SibEntry (h : Heap) (L : List Nat) (p : Nat) (e : Nat × Bool) : Prop :=
  (e = (p, true) ∧ ∃ x ∈ L, ∃ y ∈ L, x ≠ y ∧ h.parent x = some p ∧ h.parent y = some p) ∨
  (∃ x ∈ L, e = (x, false) ∧ h.parent x = some p ∧ ∀ y ∈ L, h.parent y = some p → y = x)

/-- The loop invariant: `ps` are the parents met, in order. -/
structure SibInv (h : Heap) (r : Nat) (L : List Nat) (ps : List Nat) (s : AllSibState) : Prop where
  nodup : ps.Nodup
  within : ∀ p ∈ ps, Within h r p
  all : ∀ x ∈ L, ∀ p, h.parent x = some p → p ∈ ps
  len : s.kept.length = ps.length
  seen : s.seen.length = ps.length
  entry : ∀ (i p : Nat), ps[i]? = some p → ∃ e, s.kept[i]? = some e ∧ SibEntry h L p e ∧
    s.seen[i]? = some (h.treeIndexs p, i, e.2, p)

omit wf ev in
theorem SibEntry.push {L : List Nat} {p x : Nat} {e : Nat × Bool} (he : SibEntry h L p e)
    (hx : h.parent x ≠ some p ∨ e.2 = true) : SibEntry h (L ++ [x]) p e := by
  rcases he with ⟨h1, a, ha, b, hb, h2⟩ | ⟨a, ha, h1, h2, h3⟩
  · exact Or.inl ⟨h1, a, List.mem_append_left _ ha, b, List.mem_append_left _ hb, h2⟩
  · refine Or.inr ⟨a, List.mem_append_left _ ha, h1, h2, fun y hy hp => ?_⟩
    rcases List.mem_append.1 hy with hy | hy
    · exact h3 y hy hp
    · rw [List.mem_singleton] at hy
      subst hy
      rcases hx with hx | hx
      · exact absurd hp hx
      · rw [h1] at hx; cases hx

omit ev in
theorem sibInv_step {L ps : List Nat} {s : AllSibState} (hi : SibInv h r L ps s) {x : Nat} (hx : Within h r x)
    (hxL : x ∉ L) : ∃ ps', SibInv h r (L ++ [x]) ps' (allSibStep h s x) := by
  unfold allSibStep
  cases hp : h.parent x with
  | none =>
    refine ⟨ps, hi.nodup, hi.within, ?_, hi.len, hi.seen, ?_⟩
    · intro y hy p hyp
      rcases List.mem_append.1 hy with hy | hy
      · exact hi.all y hy p hyp
      · rw [List.mem_singleton] at hy; subst hy; rw [hp] at hyp; cases hyp
    · intro i p hip
      obtain ⟨e, h1, h2, h3⟩ := hi.entry i p hip
      exact ⟨e, h1, h2.push (Or.inl (by rw [hp]; simp)), h3⟩
  | some p =>
    obtain ⟨hpw, hpk⟩ := parent_some wf hx hp
    have hall : ∀ ps' : List Nat, (∀ q ∈ ps, q ∈ ps') → p ∈ ps' → ∀ y ∈ L ++ [x], ∀ q, h.parent y = some q → q ∈ ps' := by
      intro ps' h1 h2 y hy q hq
      rcases List.mem_append.1 hy with hy | hy
      · exact h1 q (hi.all y hy q hq)
      · rw [List.mem_singleton] at hy; subst hy; rw [hp] at hq; cases hq; exact h2
    simp only []
    split
    · rename_i a pos changed par hfind
      -- the entry found is the one of `p`
      have hmem := List.mem_of_find?_eq_some hfind
      have heq := List.find?_some hfind
      simp only [beq_iff_eq] at heq
      obtain ⟨i, hilt, hget⟩ := List.getElem_of_mem hmem
      have hget? : s.seen[i]? = some (a, pos, changed, par) := by rw [List.getElem?_eq_getElem hilt, hget]
      have hips : i < ps.length := by rw [← hi.seen]; exact hilt
      obtain ⟨e, k1, k2, k3⟩ := hi.entry i ps[i] (List.getElem?_eq_getElem hips)
      rw [hget?] at k3
      simp only [Option.some.injEq, Prod.mk.injEq] at k3
      obtain ⟨e1, e2, e3, e4⟩ := k3
      have hpe : ps[i] = p := treeIndexs_inj wf (hi.within _ (List.getElem_mem hips)) hpw (e1.symm.trans heq)
      have hpmem : p ∈ ps := hpe ▸ List.getElem_mem hips
      subst e2
      rw [hpe] at e4 k2
      subst e4
      have huniq : ∀ (j q : Nat), ps[j]? = some q → (q = par ↔ j = pos) := by
        intro j q hj
        obtain ⟨hjl, hjq⟩ := List.getElem?_eq_some_iff.1 hj
        constructor
        · rintro rfl
          exact (List.Nodup.getElem_inj_iff hi.nodup).1 (hjq.trans hpe.symm)
        · rintro rfl; exact hjq.symm.trans hpe
      have hidx : ∀ (j q : Nat), ps[j]? = some q → (h.treeIndexs q = h.treeIndexs par ↔ j = pos) := by
        intro j q hj
        rw [← huniq j q hj]
        constructor
        · exact fun he => treeIndexs_inj wf (hi.within q (List.mem_of_getElem? hj)) hpw he
        · rintro rfl; rfl
      split
      · rename_i hch
        subst hch
        refine ⟨ps, hi.nodup, hi.within, hall ps (fun _ h => h) hpmem, hi.len, hi.seen, ?_⟩
        intro j q hj
        obtain ⟨e', h1, h2, h3⟩ := hi.entry j q hj
        refine ⟨e', h1, h2.push ?_, h3⟩
        by_cases hq : q = par
        · right
          obtain rfl := (huniq j q hj).1 hq
          rw [k1] at h1; cases h1; exact e3.symm
        · left; rw [hp]; simpa using fun e => hq e.symm
      · rename_i hch
        refine ⟨ps, hi.nodup, hi.within, hall ps (fun _ h => h) hpmem, by rw [List.length_set]; exact hi.len,
          by rw [List.length_map]; exact hi.seen, ?_⟩
        intro j q hj
        obtain ⟨e', h1, h2, h3⟩ := hi.entry j q hj
        by_cases hq : j = pos
        · subst hq
          have hqp : q = par := (huniq j q hj).2 rfl
          subst hqp
          rw [k1] at h1
          cases h1
          refine ⟨(q, true), ?_, Or.inl ⟨rfl, ?_⟩, ?_⟩
          · rw [List.getElem?_set_self (by rw [hi.len]; exact hips)]
          · rcases k2 with ⟨k2, _⟩ | ⟨z, hz, k2, k4, _⟩
            · rw [k2] at e3; rw [e3] at hch; exact absurd rfl hch
            · refine ⟨z, List.mem_append_left _ hz, x, List.mem_append_right _ List.mem_cons_self, ?_, k4, hp⟩
              rintro rfl; exact hxL hz
          · rw [List.getElem?_map, h3, Option.map_some]
            simp
        · refine ⟨e', ?_, h2.push (Or.inl ?_), ?_⟩
          · rw [List.getElem?_set_ne (fun e => hq e.symm)]; exact h1
          · rw [hp]
            intro e
            exact hq ((huniq j q hj).1 (Option.some.inj e).symm)
          · rw [List.getElem?_map, h3, Option.map_some]
            rw [if_neg]
            simp only [beq_iff_eq]
            exact fun e => hq ((hidx j q hj).1 e)
    · rename_i hfind
      have hpn : p ∉ ps := by
        intro hpm
        obtain ⟨i, hilt, hget⟩ := List.getElem_of_mem hpm
        obtain ⟨e, k1, k2, k3⟩ := hi.entry i p (by rw [List.getElem?_eq_getElem hilt, hget])
        have := List.find?_eq_none.1 hfind _ (List.mem_of_getElem? k3)
        simp at this
      refine ⟨ps ++ [p], ?_, ?_, hall _ (fun q hq => List.mem_append_left _ hq) (by simp), by simp [hi.len], by simp [hi.seen], ?_⟩
      · rw [List.nodup_append]
        exact ⟨hi.nodup, List.nodup_singleton _, fun a ha b hb => by
          rw [List.mem_singleton] at hb; subst hb; rintro rfl; exact hpn ha⟩
      · intro q hq
        rcases List.mem_append.1 hq with hq | hq
        · exact hi.within q hq
        · rw [List.mem_singleton] at hq; subst hq; exact hpw
      · intro j q hj
        rcases Nat.lt_or_ge j ps.length with hlt | hge
        · rw [List.getElem?_append_left hlt] at hj
          obtain ⟨e', h1, h2, h3⟩ := hi.entry j q hj
          refine ⟨e', ?_, h2.push (Or.inl ?_), ?_⟩
          · rw [List.getElem?_append_left (by rw [hi.len]; exact hlt)]; exact h1
          · rw [hp]
            rintro e
            cases e
            exact hpn (List.mem_of_getElem? hj)
          · rw [List.getElem?_append_left (by rw [hi.seen]; exact hlt)]; exact h3
        · rw [List.getElem?_append_right hge] at hj
          have hj0 : j = ps.length := by
            rcases Nat.eq_or_lt_of_le hge with e | hlt
            · exact e.symm
            · rw [List.getElem?_eq_none (by simp; omega)] at hj; cases hj
          subst hj0
          simp only [Nat.sub_self, List.getElem?_cons_zero, Option.some.injEq] at hj
          subst hj
          refine ⟨(x, false), ?_, Or.inr ⟨x, by simp, rfl, hp, ?_⟩, ?_⟩
          · rw [List.getElem?_append_right (by rw [hi.len]), hi.len]; simp
          · intro y hy hyp
            rcases List.mem_append.1 hy with hy | hy
            · exact absurd (hi.all y hy p hyp) hpn
            · exact List.mem_singleton.1 hy
          · rw [List.getElem?_append_right (by rw [hi.seen]), hi.seen, hi.len]; simp

omit ev in
theorem uniqueAll_inv {X : List Nat} (hX : ∀ x ∈ X, Within h r x) (hn : X.Nodup) :
    ∃ ps, SibInv h r X ps (X.foldl (allSibStep h) {}) := by
  have key : ∀ (l L : List Nat) (ps : List Nat) (s : AllSibState), SibInv h r L ps s → (∀ x ∈ l, Within h r x) →
      (L ++ l).Nodup → ∃ ps', SibInv h r (L ++ l) ps' (l.foldl (allSibStep h) s) := by
    intro l
    induction l with
    | nil => intro L ps s hi _ _; exact ⟨ps, by rw [List.append_nil]; exact hi⟩
    | cons x l ih =>
      intro L ps s hi hw hn
      have hxL : x ∉ L := by
        intro hx
        exact (List.nodup_append.1 hn).2.2 x hx x List.mem_cons_self rfl
      obtain ⟨ps', hi'⟩ := sibInv_step wf hi (hw x List.mem_cons_self) hxL
      have := ih (L ++ [x]) ps' _ hi' (fun y hy => hw y (List.mem_cons_of_mem _ hy)) (by simpa using hn)
      simpa using this
  have := key X [] [] {} ⟨List.nodup_nil, by simp, by simp, rfl, rfl, by simp⟩ hX (by simpa using hn)
  simpa using this


omit ev in
theorem siblings_cands {x : Nat} (hx : Within h r x) {cs : List Nat} (hc : cands h .siblings [x] = .ok cs) :
    ListQ.lists h r .doc cs := by
  obtain ⟨l', h1, _, h3⟩ := siblings_ok wf hx
  simp only [cands, uniqueAllSiblings, List.foldl_cons, List.foldl_nil, allSibStep] at hc
  cases hp : h.parent x with
  | none => rw [hp] at hc; cases hc; exact ⟨.nil, .nil⟩
  | some p =>
    rw [hp] at hc
    simp only [List.find?_nil, List.nil_append, flatMapR, Bool.false_eq_true, if_false, h1, List.append_nil, Except.ok.injEq] at hc
    subst hc
    rcases h3 with rfl | ⟨p, hp, _, hs⟩
    · exact ⟨.nil, .nil⟩
    · exact ⟨sublist_kids_docSorted hp hs, sublist_kids_sibAsc wf hp hs⟩

omit wf ev in
/-- The selector of `siblings` for one head combinator. -/
theorem siblings_none (X : List Nat) : siblingsSel h X none = siblingsSel h X (some (findSel h env (cmpdSel [.all]))) := by
  rw [findSel_cmpd (by simp)]
  have : simSegs h env .childrenAll [.all] = [(allMatcher, .childrenAll)] := by
    rw [simSegs, simSegs, simMatcher]
  rw [this]
  rfl

theorem siblings_good {ss : List Sim} (hok1 : CmpdOk h r env true .doc .child ss) (hok2 : CmpdOk h r env true .doc .list ss)
    {X : List Nat} (hX : Nodes h r X) (hn : X.Nodup) :
    ∃ res, siblingsSel h X (some (findSel h env (cmpdSel ss))) = .ok res ∧ DocSorted h r res ∧
      ∀ e, e ∈ res ↔ h.isElem e = true ∧ cmpdSat h r env ss e ∧ ∃ y ∈ X, Sib h r y e := by
  obtain ⟨ps, hi⟩ := uniqueAll_inv wf hX.within hn
  set kept := uniqueAllSiblings h X with hkept
  have hkept' : (X.foldl (allSibStep h) {}).kept = kept := rfl
  have hlen := hi.len
  rw [hkept'] at hlen
  -- every entry has a parent
  have hentry : ∀ e ∈ kept, ∃ p, Within h r p ∧ SibEntry h X p e ∧
      (if e.2 then some e.1 else h.parent e.1) = some p := by
    intro e he
    obtain ⟨i, hilt, hget⟩ := List.getElem_of_mem he
    have hip : i < ps.length := by rw [← hlen]; exact hilt
    obtain ⟨e', k1, k2, _⟩ := hi.entry i ps[i] (List.getElem?_eq_getElem hip)
    rw [hkept', List.getElem?_eq_getElem hilt, hget] at k1
    cases k1
    refine ⟨ps[i], hi.within _ (List.getElem_mem hip), k2, ?_⟩
    rcases k2 with ⟨rfl, _⟩ | ⟨x, _, rfl, hp, _⟩
    · rfl
    · exact hp
  have hcover : ∀ y ∈ X, ∀ p, h.parent y = some p → ∃ e ∈ kept, SibEntry h X p e := by
    intro y hy p hp
    obtain ⟨i, hilt, hget⟩ := List.getElem_of_mem (hi.all y hy p hp)
    obtain ⟨e, k1, k2, _⟩ := hi.entry i p (by rw [List.getElem?_eq_getElem hilt, hget])
    exact ⟨e, List.mem_of_getElem? k1, k2⟩
  have hpar : kept.map (fun e => if e.2 then some e.1 else h.parent e.1) = ps.map some := by
    refine List.ext_getElem? fun i => ?_
    rw [List.getElem?_map, List.getElem?_map]
    rcases Nat.lt_or_ge i ps.length with hlt | hge
    · obtain ⟨e, k1, k2, _⟩ := hi.entry i ps[i] (List.getElem?_eq_getElem hlt)
      rw [hkept'] at k1
      rw [k1, List.getElem?_eq_getElem hlt, Option.map_some, Option.map_some]
      rcases k2 with ⟨h2, _⟩ | ⟨x, _, h2, hp, _⟩
      · rw [h2]; simp
      · rw [h2]; simp [hp]
    · rw [List.getElem?_eq_none hge, List.getElem?_eq_none (by rw [hlen]; exact hge)]; rfl
  have hpn : (kept.map (fun e => if e.2 then some e.1 else h.parent e.1)).Nodup := by
    rw [hpar]
    exact hi.nodup.map (fun a b e => Option.some.inj e)
  -- what one entry contributes
  have hone : ∀ e ∈ kept, ∃ l, findSelector h [e.1] ((findSel h env (cmpdSel ss)).map (headComb (if e.2 then .children else .siblings))) = .ok l ∧
      SibAsc h l ∧ ∀ z, z ∈ l ↔ h.isElem z = true ∧ cmpdSat h r env ss z ∧
        (if e.2 then z ∈ h.kids e.1 else Sib h r e.1 z) := by
    intro e he
    obtain ⟨p, hpw, hent, _⟩ := hentry e he
    rw [findSel_cmpd hok1.1]
    rcases hent with ⟨rfl, x, hx, _⟩ | ⟨x, hx, rfl, hp, _⟩
    · have hN : Nodes h r [p] := by
        intro y hy
        rw [List.mem_singleton] at hy
        subst hy
        refine ⟨hpw, ?_⟩
        by_cases hr : y = r
        · exact Or.inr hr
        · obtain ⟨_, _, _, hpx, _⟩ := ‹∃ y ∈ X, _›
          obtain ⟨_, hk⟩ := parent_some wf (hX.within x hx) hpx
          exact Or.inl (elem_of_kid wf hpw (List.mem_of_getElem? hk) hr)
      obtain ⟨cs, h1, h2, h3, h4⟩ := nav_step wf ev (c := .children) (by simp) (by simp) (q := .doc) hok1 hN trivial
        (by
          intro cs hcs
          simp only [cands, List.flatMap_cons, List.flatMap_nil, List.append_nil, Except.ok.injEq] at hcs
          subst hcs
          exact ⟨children_docSorted hpw, children_sibAsc wf hpw⟩)
      refine ⟨_, h4, ?_, ?_⟩
      · simp only [cands, List.flatMap_cons, List.flatMap_nil, List.append_nil, Except.ok.injEq] at h1
        subst h1
        exact Spec.SibAsc.sublist (children_sibAsc wf hpw) List.filter_sublist
      · intro z
        rw [List.mem_filter, h3, decide_eq_true_eq]
        simp only [List.mem_singleton, exists_eq_left, Rel, if_true]
        tauto
    · have hxw := hX.within x hx
      have hN : Nodes h r [x] := by
        intro y hy
        rw [List.mem_singleton] at hy
        subst hy
        exact hX y hx
      obtain ⟨cs, h1, h2, h3, h4⟩ := nav_step wf ev (c := .siblings) (by simp) (by simp) (q := .doc) hok2 hN ⟨x, rfl⟩
        (fun cs hcs => siblings_cands wf hxw hcs)
      refine ⟨_, h4, Spec.SibAsc.sublist (siblings_cands wf hxw h1).2 List.filter_sublist, ?_⟩
      intro z
      rw [List.mem_filter, h3, decide_eq_true_eq]
      simp only [List.mem_singleton, exists_eq_left, Rel, Bool.false_eq_true, if_false]
      tauto
  choose! G hG1 hG2 hG3 using hone
  have hflat : flatMapR (fun e => findSelector h [e.1] ((findSel h env (cmpdSel ss)).map (headComb (if e.2 then .children else .siblings)))) kept
      = .ok (kept.flatMap G) := flatMapR_ok hG1
  have hGp : ∀ e ∈ kept, ∀ z ∈ G e, h.parent z = (if e.2 then some e.1 else h.parent e.1) ∧ Within h r z := by
    intro e he z hz
    obtain ⟨p, hpw, _, hp⟩ := hentry e he
    rw [hp]
    obtain ⟨_, _, hr⟩ := (hG3 e he z).1 hz
    cases hb : e.2 with
    | true =>
      rw [hb] at hr hp
      cases hp
      exact ⟨parent_of_child wf hpw hr, .step hpw hr⟩
    | false =>
      rw [hb] at hr hp
      simp only [Bool.false_eq_true, if_false] at hr hp
      obtain ⟨q, hq, k1, k2, _⟩ := hr
      rw [parent_of_child wf hq k1] at hp
      cases hp
      exact ⟨parent_of_child wf hq k2, .step hq k2⟩
  have hnod : (kept.flatMap G).Nodup := by
    rw [List.nodup_flatMap]
    refine ⟨fun e he => (hG2 e he).nodup, ?_⟩
    have := List.pairwise_map.1 hpn
    refine List.Pairwise.imp_of_mem ?_ this
    intro a b ha hb hab z hza hzb
    exact hab ((hGp a ha z hza).1.symm.trans (hGp b hb z hzb).1)
  have hwith : ∀ z ∈ kept.flatMap G, Within h r z := by
    intro z hz
    obtain ⟨e, he, hz⟩ := List.mem_flatMap.1 hz
    exact (hGp e he z hz).2
  have hperm := sortElems_perm h (kept.flatMap G)
  refine ⟨sortElems h (kept.flatMap G), ?_, ?_, ?_⟩
  · unfold siblingsSel
    simp only []
    rw [← hkept, hflat]
    rfl
  · refine List.Pairwise.imp ?_ ((sortElems_sorted wf hwith).and (hperm.nodup_iff.2 hnod))
    rintro a b ⟨h1, h2⟩
    exact h1.resolve_left h2
  · intro z
    rw [hperm.mem_iff, List.mem_flatMap]
    constructor
    · rintro ⟨e, he, hz⟩
      obtain ⟨h1, h2, h3⟩ := (hG3 e he z).1 hz
      obtain ⟨p, hpw, hent, _⟩ := hentry e he
      refine ⟨h1, h2, ?_⟩
      rcases hent with ⟨rfl, x, hx, y, hy, hxy, hpx, hpy⟩ | ⟨x, hx, rfl, _, _⟩
      · simp only [if_true] at h3
        have k : ∀ w ∈ X, h.parent w = some p → w ∈ h.kids p := fun w hw hp =>
          List.mem_of_getElem? (parent_some wf (hX.within w hw) hp).2
        by_cases hzx : x = z
        · subst hzx
          exact ⟨y, hy, p, hpw, k y hy hpy, h3, fun e => hxy e.symm⟩
        · exact ⟨x, hx, p, hpw, k x hx hpx, h3, hzx⟩
      · exact ⟨x, hx, by simpa using h3⟩
    · rintro ⟨h1, h2, y, hy, p, hpw, hyk, hzk, hyz⟩
      obtain ⟨e, he, hent⟩ := hcover y hy p (parent_of_child wf hpw hyk)
      refine ⟨e, he, (hG3 e he z).2 ⟨h1, h2, ?_⟩⟩
      rcases hent with ⟨rfl, _⟩ | ⟨x, hx, rfl, _, hall⟩
      · simpa using hzk
      · have := hall y hy (parent_of_child wf hpw hyk)
        subst this
        simp only [Bool.false_eq_true, if_false]
        exact ⟨p, hpw, hyk, hzk, hyz⟩

end Visdom
