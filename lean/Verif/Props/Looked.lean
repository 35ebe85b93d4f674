import Verif.Props.Walks
/-!
# C27, C45: closest and the until methods for every selector; C25: next_all and prev_all for every set

These methods parse their selectors for `find`, which may start its search at a compound in the middle, and then test
elements with the part from the middle on only. So `closest("div .a")` is `closest(".a")`, and `closest("div > .a b")`
asks for a `b` inside an `.a` that is a child of the root. `remnant` (Spec/Walk.lean) is the selector that remains.
-/
namespace Visdom
open Spec Classical
variable {h : Heap} {r : Nat} {env : Env}

theorem optimizeCmpd_fst (g : Cmpd) :
    (optimizeCmpd g).map (·.1) = (g.map (·.1)).insertionSort fun a b => b.priority ≤ a.priority := by
  unfold optimizeCmpd
  split
  · rfl
  · rfl
  · rename_i s t ss
    have hm : (sortPriority (s :: t :: ss)).map (·.1) =
        ((s :: t :: ss).map (·.1)).insertionSort fun a b => b.priority ≤ a.priority :=
      List.map_insertionSort _ _ _ _ fun _ _ _ _ => Iff.rfl
    rw [← hm]
    cases sortPriority (s :: t :: ss) with
    | nil => rfl
    | cons a as =>
      simp only
      split
      · simp
      · rfl

/-- The rules of a compound and their order do not depend on the combinator in front of it. -/
theorem optimizeCmpd_comb {ss : List Sim} (hne : ss ≠ []) :
    ∃ m segs, ∀ c, c ≠ Comb.chain → optimizeCmpd (simSegs h env c ss) = (m, c) :: segs := by
  obtain ⟨s0, _, _, _, segs, h1, h2, h3⟩ := optimizeCmpd_shape (h := h) (env := env) (c := .childrenAll) (by decide) hne
  refine ⟨simMatcher h env s0, segs, fun c hc => ?_⟩
  obtain ⟨s1, _, _, _, segs', k1, k2, k3⟩ := optimizeCmpd_shape (h := h) (env := env) hc hne
  have hf : (optimizeCmpd (simSegs h env c ss)).map (·.1) = (optimizeCmpd (simSegs h env .childrenAll ss)).map (·.1) := by
    rw [optimizeCmpd_fst, optimizeCmpd_fst, simSegs_fst, simSegs_fst]
  rw [k1, h1, List.map_cons, List.map_cons, List.cons.injEq] at hf
  have hf1 : simMatcher h env s1 = simMatcher h env s0 := hf.1
  rw [k1, hf1]
  refine congrArg _ ?_
  have hmap : ∀ l : List Seg, (∀ t ∈ l, t.2 = Comb.chain) → l = (l.map (·.1)).map (·, Comb.chain) := by
    intro l hl
    rw [List.map_map]
    conv_lhs => rw [← List.map_id l]
    exact List.map_congr_left fun t ht => Prod.ext rfl (hl t ht)
  rw [hmap _ k3, hmap _ h3, hf.2]

/-- The parser makes of every part of a selector a compound that is not empty and follows a combinator. -/
def Shaped (sel : List Complex) : Prop := ∀ cx ∈ sel, ∀ s ∈ cx, s.1 ≠ Comb.chain ∧ s.2 ≠ []

theorem isProcs_same {P P' : List Proc} (hp : List.Forall₂ (fun p p' => ∀ X root, filterProc h X root p = filterProc h X root p') P P') :
    ∀ X root, isProcs h X P root = isProcs h X P' root := by
  induction hp with
  | nil => intro X root; rfl
  | cons h1 _ ih =>
    intro X root
    simp only [isProcs, h1, ih]

theorem filterProc_seen {cx : Complex} (hc : ∀ s ∈ cx, s.1 ≠ Comb.chain ∧ s.2 ≠ []) (X : List Nat) (root : Option Nat) :
    filterProc h X root (optimizeGroup true (cplxCmpds h env cx)) =
      filterProc h X root { query := optCmpds h env (remnant cx) } := by
  rw [optimize_eq cx hc]
  unfold remnant
  by_cases hl : looked cx = true
  · rw [if_pos hl, if_pos hl]
    have hsub : ∀ s ∈ cx.drop (heaviest cx), s.1 ≠ Comb.chain ∧ s.2 ≠ [] := fun s hs => hc s (List.mem_of_mem_drop hs)
    generalize cx.drop (heaviest cx) = d at hsub
    match d, hsub with
    | [], _ => rfl
    | [s], hsub =>
      obtain ⟨m, segs, hm⟩ := optimizeCmpd_comb (h := h) (env := env) (hsub s (by simp)).2
      simp only [optCmpds, List.map_cons, List.map_nil, hm _ (hsub s (by simp)).1, hm .childrenAll (by decide)]
      simp [filterProc]
    | _ :: _ :: _, _ => rfl
  · rw [if_neg hl, if_neg hl]

theorem foldr_max_mem {l : List Nat} (hne : l ≠ []) : l.foldr max 0 ∈ l := by
  induction l with
  | nil => exact absurd rfl hne
  | cons a l ih =>
    rw [List.foldr_cons]
    by_cases hl : l = []
    · subst hl; simp
    · rcases Nat.le_total a (l.foldr max 0) with h1 | h1
      · rw [Nat.max_eq_right h1]; exact List.mem_cons_of_mem _ (ih hl)
      · rw [Nat.max_eq_left h1]; exact List.mem_cons_self

theorem le_foldr_max {l : List Nat} {a : Nat} (ha : a ∈ l) : a ≤ l.foldr max 0 := by
  induction l with
  | nil => cases ha
  | cons b l ih =>
    rw [List.foldr_cons]
    rcases List.mem_cons.1 ha with rfl | ha
    · omega
    · have := ih ha; omega

theorem idxOf_drop_max {l : List Nat} (hne : l ≠ []) :
    (l.drop (l.idxOf (l.foldr max 0))).idxOf ((l.drop (l.idxOf (l.foldr max 0))).foldr max 0) = 0 := by
  have hm := foldr_max_mem hne
  have hlt := List.idxOf_lt_length_iff.2 hm
  rw [List.drop_eq_getElem_cons hlt, List.getElem_idxOf]
  have : ((l.foldr max 0) :: l.drop (l.idxOf (l.foldr max 0) + 1)).foldr max 0 = l.foldr max 0 := by
    refine Nat.le_antisymm ?_ (le_foldr_max List.mem_cons_self)
    have h1 := foldr_max_mem (l := (l.foldr max 0) :: l.drop (l.idxOf (l.foldr max 0) + 1)) (by simp)
    rcases List.mem_cons.1 h1 with h1 | h1
    · omega
    · exact le_foldr_max (List.mem_of_mem_drop h1)
  rw [this, List.idxOf_cons_self]

/-- What remains is not rearranged any more. -/
theorem looked_seen (cx : Complex) : looked (remnant cx) = false := by
  unfold remnant
  by_cases hl : looked cx = true
  · rw [if_pos hl]
    have hne : cx ≠ [] := by rintro rfl; simp [looked] at hl
    have h0 : heaviest (cx.drop (heaviest cx)) = 0 := by
      have := idxOf_drop_max (l := cx.map fun s => (s.2.map Sim.prio).sum) (by simpa using hne)
      simp only [heaviest]
      rw [← List.map_drop] at this
      exact this
    split
    · simp [looked, heaviest]
    · simp [looked, h0]
  · rw [if_neg hl]; simpa using hl

theorem seen_shaped {sel : List Complex} (hs : Shaped sel) : Shaped (sel.map remnant) := by
  intro cx hcx s hs'
  obtain ⟨cx0, hcx0, rfl⟩ := List.mem_map.1 hcx
  unfold remnant at hs'
  split at hs'
  · split at hs'
    · rename_i t heq
      rw [List.mem_singleton] at hs'
      subst hs'
      exact ⟨by simp, (hs cx0 hcx0 t (List.mem_of_mem_drop (heq ▸ List.mem_singleton_self t))).2⟩
    · exact hs cx0 hcx0 s (List.mem_of_mem_drop hs')
  · exact hs cx0 hcx0 s hs'

theorem isProcs_seen {sel : List Complex} (hs : Shaped sel) (X : List Nat) (root : Option Nat) :
    isProcs h X (findSel h env sel) root = isProcs h X (findSel h env (sel.map remnant)) root := by
  refine isProcs_same ?_ X root
  unfold findSel
  rw [List.map_map, List.forall₂_map_left_iff, List.forall₂_map_right_iff, List.forall₂_same]
  intro cx hcx X root
  rw [filterProc_seen (hs cx hcx)]
  have := seen_shaped hs (remnant cx) (List.mem_map_of_mem hcx)
  simp only [Function.comp_apply]
  rw [optimize_plain _ (looked_seen cx) this]

theorem closest_congr {P P' : List Proc} (hp : ∀ X root, isProcs h X P root = isProcs h X P' root) (X : List Nat) :
    closest h X (some P) = closest h X (some P') := by
  have hw : ∀ n x, closestWalk h P n x = closestWalk h P' n x := by
    intro n
    induction n with
    | zero => intro x; rfl
    | succ n ih => intro x; simp only [closestWalk, hp, ih]
  simp only [closest, hp, hw]

theorem untilWalk_congr {P P' : List Proc} {Q Q' : Option (List Proc)} (hp : ∀ X root, isProcs h X P root = isProcs h X P' root)
    (hq : ∀ l, untilAdds h Q l = untilAdds h Q' l) (c : Comb) (b : Bool) (n x : Nat) :
    untilWalk h c P Q b n x = untilWalk h c P' Q' b n x := by
  induction n generalizing x with
  | zero => rfl
  | succ n ih => simp only [untilWalk, hp, hq, ih]

theorem selectUntil_seen {u : List Complex} {f : Option (List Complex)} (hu : Shaped u) (hf : ∀ s, f = some s → Shaped s)
    (X : List Nat) (c : Comb) (b : Bool) :
    selectUntil h X c (findSel h env u) (f.map (findSel h env)) b =
      selectUntil h X c (findSel h env (u.map remnant)) ((f.map (List.map remnant)).map (findSel h env)) b := by
  unfold selectUntil
  refine congrArg₂ _ (funext fun x => untilWalk_congr (isProcs_seen hu) (fun l => ?_) c b _ x) rfl
  cases f with
  | none => rfl
  | some s => simp only [Option.map_some, untilAdds, isProcs_seen (hf s rfl)]

/-- C27: `closest` with any selector is `closest` with the part of it that is left, which is never rearranged. -/
theorem C27_closest_seen_partial {sel : List Complex} (hs : Shaped sel) (X : List Nat) :
    closestQ h env X (some sel) = closestQ h env X (some (sel.map remnant)) ∧ ∀ cx ∈ sel.map remnant, looked cx = false := by
  refine ⟨closest_congr (isProcs_seen hs) X, fun cx hcx => ?_⟩
  obtain ⟨cx0, _, rfl⟩ := List.mem_map.1 hcx
  exact looked_seen cx0

/-- C27: what `closest` returns for every selector whose remaining part is decided element by element. -/
theorem C27_closest_any_partial (wf : TreeWF h r) (ev : Metas h r) {sel : List Complex} (hs : Shaped sel)
    (hok : innersOk h r env true .doc (sel.map remnant)) {X : List Nat} (hX : Elems h r X) :
    ∃ res, closestQ h env X (some sel) = .ok res ∧
      (∀ e, e ∈ res ↔ ∃ x ∈ X, Nearest h r (anySat h r env (sel.map remnant)) x e) ∧
      (X.Nodup → res.Nodup) ∧ (DocSorted h r X → DocSorted h r res) ∧
      ((∃ x ∈ X, ¬ anySat h r env (sel.map remnant) x) → DocSorted h r res ∧ res.Nodup) := by
  obtain ⟨h1, h2⟩ := C27_closest_seen_partial (h := h) (env := env) hs X
  rw [h1]
  exact C27_closest_partial wf ev ⟨hok, h2⟩ hX

/-- C45: the until methods with any selectors are the until methods with the parts of them that are left, which are never
rearranged. -/
theorem C45_until_seen_partial {u : List Complex} {f : Option (List Complex)} (hu : Shaped u) (hf : ∀ s, f = some s → Shaped s)
    (X : List Nat) (b : Bool) :
    nextUntilQ h env X u f b = nextUntilQ h env X (u.map remnant) (f.map (List.map remnant)) b ∧
    prevUntilQ h env X u f b = prevUntilQ h env X (u.map remnant) (f.map (List.map remnant)) b ∧
    parentsUntilQ h env X u f b = parentsUntilQ h env X (u.map remnant) (f.map (List.map remnant)) b := by
  unfold nextUntilQ prevUntilQ parentsUntilQ nextUntil prevUntil parentsUntil
  rw [selectUntil_seen hu hf, selectUntil_seen hu hf, selectUntil_seen hu hf]
  exact ⟨rfl, rfl, rfl⟩

/-! ## next_all, prev_all on any set -/

/-- C25: `next_all` on any set: the later siblings of the first members with each parent (`C25_fails_order`: the later
siblings of the others need not be among them). -/
theorem C25_next_all_any_partial (wf : TreeWF h r) (ev : Metas h r) {X : List Nat} (hX : Nodes h r X) :
    ∃ U l : List Nat, FirstOfParent h X U ∧ nextAllQ h env X none = .ok l ∧ l.Nodup ∧
      (∀ e, e ∈ l ↔ h.isElem e = true ∧ ∃ y ∈ U, LaterSib h r y e) ∧
      ∀ ss, CmpdOk h r env true .sib .list ss →
        nextAllQ h env X (some (cmpdSel ss)) = .ok (l.filter fun x => decide (cmpdSat h r env ss x)) := by
  have hsub := uniqueFirst_sublist wf hX.within
  have hU : Nodes h r (uniqueSiblingFirst h X) := fun x hx => hX x (hsub.subset hx)
  have hasc : SibAsc h (uniqueSiblingFirst h X) := by
    rw [uniqueSiblingFirst_eq wf hX.within]
    exact (firstBy_spec X).2.1.imp fun hne he => absurd he hne
  obtain ⟨cs, h1, _, h3, h4, _⟩ := nav_pair wf ev (c := .nextAll) (by simp) (by simp) (q := .sib) (all_cmpdOk (env := env) .sib .list) hU
    (hasc.firstAsc []) (fun cs hcs => nextAll_sibAsc wf hU.within hcs)
  refine ⟨_, cs, uniqueSiblingFirst_eq wf hX.within ▸ firstBy_spec X, h4, (nextAll_sibAsc wf hU.within h1).nodup, h3, fun ss hok => ?_⟩
  obtain ⟨cs', _, _, _, h4', h5'⟩ := nav_pair wf ev (c := .nextAll) (by simp) (by simp) (q := .sib) hok hU
    (hasc.firstAsc []) (fun cs hcs => nextAll_sibAsc wf hU.within hcs)
  cases h4.symm.trans h4'
  exact h5'

/-- C25: `prev_all` on any set: the earlier siblings of the last members with each parent. -/
theorem C25_prev_all_any_partial (wf : TreeWF h r) (ev : Metas h r) {X : List Nat} (hX : Nodes h r X) :
    ∃ U l : List Nat, FirstOfParent h X.reverse U.reverse ∧ prevAllQ h env X none = .ok l ∧ l.Nodup ∧
      (∀ e, e ∈ l ↔ h.isElem e = true ∧ ∃ y ∈ U, LaterSib h r e y) ∧
      ∀ ss, CmpdOk h r env true .sib .list ss →
        prevAllQ h env X (some (cmpdSel ss)) = .ok (l.filter fun x => decide (cmpdSat h r env ss x)) := by
  have hsub := uniqueLast_sublist wf hX.within
  have hU : Nodes h r (uniqueSiblingLast h X) := fun x hx => hX x (hsub.subset hx)
  have hspec : FirstOfParent h X.reverse (uniqueSiblingLast h X).reverse := by
    rw [uniqueSiblingLast_eq wf hX.within, List.reverse_reverse]
    exact firstBy_spec _
  have hasc : SibAsc h (uniqueSiblingLast h X) := by
    have := hspec.2.1
    rw [List.pairwise_reverse] at this
    exact this.imp fun hne he => absurd he.symm hne
  obtain ⟨cs, h1, _, h3, h4, _⟩ := nav_pair wf ev (c := .prevAll) (by simp) (by simp) (q := .sib) (all_cmpdOk (env := env) .sib .list) hU
    hasc (fun cs hcs => prevAll_sibAsc wf hU.within hcs)
  refine ⟨_, cs, hspec, h4, (prevAll_sibAsc wf hU.within h1).nodup, h3, fun ss hok => ?_⟩
  obtain ⟨cs', _, _, _, h4', h5'⟩ := nav_pair wf ev (c := .prevAll) (by simp) (by simp) (q := .sib) hok hU
    hasc (fun cs hcs => prevAll_sibAsc wf hU.within hcs)
  cases h4.symm.trans h4'
  exact h5'

/-! ## Instances -/

example : Nodes demo 0 [7, 6, 2] ∧ FirstOfParent demo [7, 6, 2] [7, 2] ∧ nextAllQ demo env0 [7, 6, 2] none = .ok [5] := by
  refine ⟨demo_nodes (by decide), ⟨by decide, by decide, ?_⟩, by decide⟩
  intro x hx
  simp only [List.mem_cons, List.not_mem_nil, or_false] at hx
  rcases hx with rfl | rfl | rfl
  · exact ⟨[], 7, [6, 2], rfl, by decide, by decide, by decide⟩
  · exact ⟨[], 7, [6, 2], rfl, by decide, by decide, by decide⟩
  · exact ⟨[7, 6], 2, [], rfl, by decide, by decide, by decide⟩

/-- `ul p:empty` is tested as `p:empty`, `b > p:empty i` as `> p:empty i`. -/
example : ulpEmpty.map remnant = [[(.childrenAll, [ty "p", .empty])]] ∧
    remnant [(.childrenAll, [ty "b"]), (.children, [ty "p", .empty]), (.childrenAll, [ty "i"])] =
      [(.children, [ty "p", .empty]), (.childrenAll, [ty "i"])] := ⟨rfl, rfl⟩


example : Shaped ulpEmpty ∧ innersOk demo 0 env0 true .doc (ulpEmpty.map remnant) ∧ Elems demo 0 [6] ∧
    closestQ demo env0 [6] (some ulpEmpty) = .ok [6] := by
  refine ⟨?_, ?_, demo_elems (by decide), by decide⟩
  · intro cx hcx s hs
    simp only [ulpEmpty, List.mem_singleton] at hcx
    subst hcx
    revert hs
    simp only [List.mem_cons, List.not_mem_nil, or_false]
    rintro (rfl | rfl) <;> simp
  · refine basicTest_innersOk ?_ ?_
    · intro cx hcx
      rw [show ulpEmpty.map remnant = [[(.childrenAll, [ty "p", .empty])]] from rfl, List.mem_singleton] at hcx
      subst hcx
      refine ⟨⟨by simp, ?_⟩, by simp⟩
      simp [Comb.down, Sim.basic, ty]
    · intro cx hcx hl
      rw [show ulpEmpty.map remnant = [[(.childrenAll, [ty "p", .empty])]] from rfl, List.mem_singleton] at hcx
      subst hcx
      simp at hl

end Visdom
