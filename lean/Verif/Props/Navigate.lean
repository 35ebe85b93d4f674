import Verif.Proofs.Navigate
import Verif.Props.Filter
import Verif.Spec.Samples
/-!
# C25, C26: navigation

`Rel` (Spec/Select.lean) gives the relations. C25 is about the calls with an empty selector: exactly the elements that
stand in the relation to a member of the set. C26 is about the calls with a single compound `ss`: exactly the elements of
the unfiltered call that satisfy it, in the same order; a fortiori nothing else. `q` is what is known of the set:
rules that look at whole lists (ids, positions) need a set in document order.
-/
namespace Visdom
open Spec Classical
variable {h : Heap} {r : Nat} {env : Env}

/-- `.any` for every set, `.sib` for sets in document order. -/
def SetQ (h : Heap) (r : Nat) (X : List Nat) (q : ListQ) : Prop := q = .any ∨ (q = .sib ∧ DocSorted h r X)

theorem SetQ.lists {X cs : List Nat} {q : ListQ} (hq : SetQ h r X q) (hs : DocSorted h r X → SibAsc h cs) : q.lists h r cs := by
  rcases hq with rfl | ⟨rfl, hd⟩
  · trivial
  · exact hs hd

theorem all_cmpdOk (q : ListQ) (v : Via) : CmpdOk h r env true q v [.all] :=
  basic_cmpdOk (by simp) (by simp [Sim.basic]) q v

theorem all_sat (x : Nat) : cmpdSat h r env [.all] x := by
  rw [cmpdSat, cmpdSat, Sim.Sat]; exact ⟨trivial, trivial⟩

theorem filter_all (l : List Nat) : (l.filter fun x => decide (cmpdSat h r env [.all] x)) = l := by
  rw [List.filter_eq_self]
  intro x _
  exact decide_eq_true (all_sat x)

/-- The outcome of one navigation method with and without a compound. -/
theorem nav_pair {c : Comb} (wf : TreeWF h r) (ev : Metas h r) (hca : c ≠ .childrenAll) (hch : c ≠ .chain) {ss : List Sim}
    {q : ListQ} (hok : CmpdOk h r env true q (Comb.via c) ss) {X : List Nat} (hX : Nodes h r X)
    (ho : OrderOk h c X) (hq : ∀ cs, cands h c X = .ok cs → q.lists h r cs) :
    ∃ cs, cands h c X = .ok cs ∧ Elems h r cs ∧ (∀ e, e ∈ cs ↔ h.isElem e = true ∧ ∃ y ∈ X, Rel h r c y e) ∧
      selectWithComb h X none c = .ok cs ∧
      selectWithComb h X (some (innerSel h env (cmpdSel ss))) c = .ok (cs.filter fun x => decide (cmpdSat h r env ss x)) := by
  obtain ⟨cs, h1, h2, h3, h4⟩ := nav_good (env := env) wf ev hca hch hok hX ho hq
  obtain ⟨cs', k1, _, _, k4⟩ := nav_good (env := env) wf ev hca hch (q := .any) (all_cmpdOk .any (Comb.via c)) hX ho (fun _ _ => trivial)
  rw [h1] at k1
  cases k1
  rw [filter_all] at k4
  exact ⟨cs, h1, h2, h3, (selectWithComb_none X c).trans k4, h4⟩

variable (wf : TreeWF h r) (ev : Metas h r)
include wf ev

/-! ## children, next, prev: every set -/

/-- C26: `children` with a compound. -/
theorem C26_children_partial {ss : List Sim} {q : ListQ} {X : List Nat} (hX : Nodes h r X) (hq : SetQ h r X q)
    (hok : CmpdOk h r env true q .child ss) :
    ∃ l, childrenQ h env X none = .ok l ∧ (∀ e, e ∈ l ↔ h.isElem e = true ∧ ∃ y ∈ X, e ∈ h.kids y) ∧
      childrenQ h env X (some (cmpdSel ss)) = .ok (l.filter fun x => decide (cmpdSat h r env ss x)) := by
  obtain ⟨cs, _, _, h3, h4, h5⟩ := nav_pair wf ev (c := .children) (by simp) (by simp) hok hX trivial
    (by
      intro cs hcs
      simp only [cands, Except.ok.injEq] at hcs
      subst hcs
      exact hq.lists fun hs => children_list_sibAsc wf hX.within (docSorted_nodup wf hX.within hs))
  exact ⟨cs, h4, h3, h5⟩

/-- C25: `children` returns exactly the element children of the members, on every set. -/
theorem C25_children {X : List Nat} (hX : Nodes h r X) :
    ∃ l, childrenQ h env X none = .ok l ∧ (∀ e, e ∈ l ↔ h.isElem e = true ∧ ∃ y ∈ X, e ∈ h.kids y) := by
  obtain ⟨l, h1, h2, _⟩ := C26_children_partial wf ev hX (Or.inl rfl) (all_cmpdOk .any .child)
  exact ⟨l, h1, h2⟩

/-- C26: `next` with a compound. -/
theorem C26_next_partial {ss : List Sim} {q : ListQ} {X : List Nat} (hX : Nodes h r X) (hq : SetQ h r X q)
    (hok : CmpdOk h r env true q .list ss) :
    ∃ l, nextQ h env X none = .ok l ∧ (∀ e, e ∈ l ↔ h.isElem e = true ∧ ∃ y ∈ X, NextSib h r y e) ∧
      nextQ h env X (some (cmpdSel ss)) = .ok (l.filter fun x => decide (cmpdSat h r env ss x)) := by
  obtain ⟨cs, _, _, h3, h4, h5⟩ := nav_pair wf ev (c := .next) (by simp) (by simp) hok hX trivial
    (by
      intro cs hcs
      simp only [cands, Except.ok.injEq] at hcs
      subst hcs
      exact hq.lists fun hs => filterMap_next_sibAsc wf hX (docSorted_sibAsc wf hX.within hs))
  exact ⟨cs, h4, h3, h5⟩

/-- C25: `next` returns exactly the elements that follow a member with no element in between. -/
theorem C25_next {X : List Nat} (hX : Nodes h r X) :
    ∃ l, nextQ h env X none = .ok l ∧ (∀ e, e ∈ l ↔ h.isElem e = true ∧ ∃ y ∈ X, NextSib h r y e) := by
  obtain ⟨l, h1, h2, _⟩ := C26_next_partial wf ev hX (Or.inl rfl) (all_cmpdOk .any .list)
  exact ⟨l, h1, h2⟩

/-- C26: `prev` with a compound. -/
theorem C26_prev_partial {ss : List Sim} {q : ListQ} {X : List Nat} (hX : Nodes h r X) (hq : SetQ h r X q)
    (hok : CmpdOk h r env true q .list ss) :
    ∃ l, prevQ h env X none = .ok l ∧ (∀ e, e ∈ l ↔ h.isElem e = true ∧ ∃ y ∈ X, NextSib h r e y) ∧
      prevQ h env X (some (cmpdSel ss)) = .ok (l.filter fun x => decide (cmpdSat h r env ss x)) := by
  obtain ⟨cs, _, _, h3, h4, h5⟩ := nav_pair wf ev (c := .prev) (by simp) (by simp) hok hX trivial
    (fun cs hcs => hq.lists fun hs => prev_sibAsc wf hX (docSorted_sibAsc wf hX.within hs) hcs)
  exact ⟨cs, h4, h3, h5⟩

/-- C25: `prev` returns exactly the elements that a member follows with no element in between. -/
theorem C25_prev {X : List Nat} (hX : Nodes h r X) :
    ∃ l, prevQ h env X none = .ok l ∧ (∀ e, e ∈ l ↔ h.isElem e = true ∧ ∃ y ∈ X, NextSib h r e y) := by
  obtain ⟨l, h1, h2, _⟩ := C26_prev_partial wf ev hX (Or.inl rfl) (all_cmpdOk .any .list)
  exact ⟨l, h1, h2⟩

/-! ## parent, parents: every set -/

/-- C26: `parent` with a compound. -/
theorem C26_parent_partial {ss : List Sim} {q : ListQ} {X : List Nat} (hX : Nodes h r X) (hq : SetQ h r X q)
    (hok : CmpdOk h r env true q .list ss) :
    ∃ l, parentQ h env X none = .ok l ∧ l.Nodup ∧ (∀ e, e ∈ l ↔ h.isElem e = true ∧ ∃ y ∈ X, y ∈ h.kids e ∧ Within h r e) ∧
      parentQ h env X (some (cmpdSel ss)) = .ok (l.filter fun x => decide (cmpdSat h r env ss x)) := by
  have hsub := uniqueFirst_sublist wf hX.within
  have hU : Nodes h r (uniqueSiblingFirst h X) := fun x hx => hX x (hsub.subset hx)
  obtain ⟨cs, h1, _, h3, h4, h5⟩ := nav_pair wf ev (c := .parent) (by simp) (by simp) hok hU trivial
    (fun cs hcs => hq.lists fun hs => parents_sibAsc wf hU.within (List.Pairwise.sublist hsub hs) hcs)
  refine ⟨cs, h4, ?_, ?_, h5⟩
  · simp only [cands, Except.ok.injEq] at h1
    rw [← h1, uniqueSiblingFirst_eq wf hU.within]
    exact parentsOf_nodup (firstBy_pairwise _ _)
  · intro e
    rw [h3]
    refine and_congr_right fun _ => ?_
    constructor
    · rintro ⟨y, hy, h1, h2⟩; exact ⟨y, hsub.subset hy, h2, h1⟩
    · rintro ⟨y, hy, h2, h1⟩
      obtain ⟨z, hz, hzp⟩ := uniqueFirst_cover wf hX.within hy
      rw [parent_of_child wf h1 h2] at hzp
      exact ⟨z, hz, h1, List.mem_of_getElem? (parent_some wf (hU.within z hz) hzp).2⟩

/-- C25: `parent` returns exactly the elements with a member among their children, each once, on every set. -/
theorem C25_parent {X : List Nat} (hX : Nodes h r X) :
    ∃ l, parentQ h env X none = .ok l ∧ l.Nodup ∧
      (∀ e, e ∈ l ↔ h.isElem e = true ∧ ∃ y ∈ X, y ∈ h.kids e ∧ Within h r e) := by
  obtain ⟨l, h1, h2, h3, _⟩ := C26_parent_partial wf ev hX (Or.inl rfl) (all_cmpdOk .any .list)
  exact ⟨l, h1, h2, h3⟩

/-- C26: `parents` with a compound. -/
theorem C26_parents_partial {ss : List Sim} {X : List Nat} (hX : Nodes h r X) (hok : CmpdOk h r env true .doc .list ss) :
    ∃ l, parentsQ h env X none = .ok l ∧ DocSorted h r l ∧
      (∀ e, e ∈ l ↔ h.isElem e = true ∧ Within h r e ∧ ∃ y ∈ X, Below h e y) ∧
      parentsQ h env X (some (cmpdSel ss)) = .ok (l.filter fun x => decide (cmpdSat h r env ss x)) := by
  have hsub := uniqueFirst_sublist wf hX.within
  have hU : Nodes h r (uniqueSiblingFirst h X) := fun x hx => hX x (hsub.subset hx)
  have hsort : ∀ cs, cands h .parentAll (uniqueSiblingFirst h X) = .ok cs → DocSorted h r cs := by
    intro cs hcs
    simp only [cands] at hcs
    cases hall : flatMapR (ancestorsFuel h h.fuel) (uniqueSiblingFirst h X) with
    | error e => rw [hall] at hcs; cases hcs
    | ok all =>
      rw [hall] at hcs
      simp only [Except.map, Except.ok.injEq] at hcs
      rw [← hcs]
      refine (C14_sort_and_unique wf fun x hx => ?_).1
      obtain ⟨a, ha, y, hy, hxy⟩ := ((flatMapR_mem hall).2 x).1 hx
      obtain ⟨l', k1, k2⟩ := ancestors_ok wf (hU.within a ha)
      rw [k1] at hy; cases hy
      exact ((k2 x).1 hxy).1
  obtain ⟨cs, h1, h2, h3, h4, h5⟩ := nav_pair wf ev (c := .parentAll) (by simp) (by simp) (q := .doc) hok hU trivial
    (fun cs hcs => ⟨hsort cs hcs, docSorted_sibAsc wf
      (fun x hx => (cands_elems wf hU (c := .parentAll) (by simp) (by simp) hcs x hx).1) (hsort cs hcs)⟩)
  have hcsw : ∀ x ∈ cs, Within h r x := fun x hx => (h2 x hx).1
  have hd := hsort cs h1
  have hself : ∀ l : List Nat, l.Sublist cs → sortAndUnique h l = l := by
    intro l hl
    have hlw : ∀ x ∈ l, Within h r x := fun x hx => hcsw x (hl.subset hx)
    obtain ⟨s1, _, s3⟩ := C14_sort_and_unique wf hlw
    exact docSorted_ext s1 (List.Pairwise.sublist hl hd) (fun x hx => hlw x ((s3 x).1 hx)) s3 wf
  refine ⟨cs, ?_, hd, ?_, ?_⟩
  · unfold parentsQ parentsSel
    rw [Option.map_none, h4, Except.map, hself cs (List.Sublist.refl _)]
  · intro e
    rw [h3]
    refine and_congr_right fun he => ?_
    constructor
    · rintro ⟨y, hy, k1, k2⟩; exact ⟨k1, y, hsub.subset hy, k2⟩
    · rintro ⟨k1, y, hy, k2⟩
      obtain ⟨z, hz, hzp⟩ := uniqueFirst_cover wf hX.within hy
      obtain ⟨p, hp, hw⟩ := (below_parent wf k1 (hX.within y hy)).1 k2
      exact ⟨z, hz, k1, (below_parent wf k1 (hU.within z hz)).2 ⟨p, hzp.trans hp, hw⟩⟩
  · unfold parentsQ parentsSel
    rw [Option.map_some, h5, Except.map, hself _ List.filter_sublist]

/-- C25: `parents` returns exactly the elements that have a member below them, in document order, on every set. -/
theorem C25_parents {X : List Nat} (hX : Nodes h r X) :
    ∃ l, parentsQ h env X none = .ok l ∧ DocSorted h r l ∧
      (∀ e, e ∈ l ↔ h.isElem e = true ∧ Within h r e ∧ ∃ y ∈ X, Below h e y) := by
  obtain ⟨l, h1, h2, h3, _⟩ := C26_parents_partial wf ev hX (all_cmpdOk .doc .list)
  exact ⟨l, h1, h2, h3⟩

/-! ## next_all, prev_all: sets in which siblings occur in document order -/

/-- C26: `next_all` with a compound. -/
theorem C26_next_all_partial {ss : List Sim} {X : List Nat} (hX : Nodes h r X) (hs : SibAsc h X)
    (hok : CmpdOk h r env true .sib .list ss) :
    ∃ l, nextAllQ h env X none = .ok l ∧ l.Nodup ∧ (∀ e, e ∈ l ↔ h.isElem e = true ∧ ∃ y ∈ X, LaterSib h r y e) ∧
      nextAllQ h env X (some (cmpdSel ss)) = .ok (l.filter fun x => decide (cmpdSat h r env ss x)) := by
  have hsub := uniqueFirst_sublist wf hX.within
  have hU : Nodes h r (uniqueSiblingFirst h X) := fun x hx => hX x (hsub.subset hx)
  obtain ⟨cs, h1, _, h3, h4, h5⟩ := nav_pair wf ev (c := .nextAll) (by simp) (by simp) (q := .sib) hok hU
    ((hs.sublist hsub).firstAsc []) (fun cs hcs => nextAll_sibAsc wf hU.within hcs)
  refine ⟨cs, h4, (nextAll_sibAsc wf hU.within h1).nodup, ?_, h5⟩
  intro e
  rw [h3]
  refine and_congr_right fun _ => ?_
  constructor
  · rintro ⟨y, hy, k⟩; exact ⟨y, hsub.subset hy, k⟩
  · rintro ⟨y, hy, k⟩
    obtain ⟨z, hz, hzp, hzi⟩ := firstAsc_cover hy (hs.firstAsc [])
    rw [← uniqueSiblingFirst_eq wf hX.within] at hz
    obtain ⟨a1, a2, ⟨p, a3, a4⟩, a5⟩ := (laterSib_index wf).1 k
    exact ⟨z, hz, (laterSib_index wf).2 ⟨hU.within z hz, a2, ⟨p, hzp.trans a3, a4⟩, by omega⟩⟩

/-- C25: `next_all` returns exactly the elements after a member among its siblings, each once. -/
theorem C25_next_all_partial {X : List Nat} (hX : Nodes h r X) (hs : SibAsc h X) :
    ∃ l, nextAllQ h env X none = .ok l ∧ l.Nodup ∧
      (∀ e, e ∈ l ↔ h.isElem e = true ∧ ∃ y ∈ X, LaterSib h r y e) := by
  obtain ⟨l, h1, h2, h3, _⟩ := C26_next_all_partial wf ev hX hs (all_cmpdOk .sib .list)
  exact ⟨l, h1, h2, h3⟩

/-- C26: `prev_all` with a compound. -/
theorem C26_prev_all_partial {ss : List Sim} {X : List Nat} (hX : Nodes h r X) (hs : SibAsc h X)
    (hok : CmpdOk h r env true .sib .list ss) :
    ∃ l, prevAllQ h env X none = .ok l ∧ l.Nodup ∧ (∀ e, e ∈ l ↔ h.isElem e = true ∧ ∃ y ∈ X, LaterSib h r e y) ∧
      prevAllQ h env X (some (cmpdSel ss)) = .ok (l.filter fun x => decide (cmpdSat h r env ss x)) := by
  have hsub := uniqueLast_sublist wf hX.within
  have hU : Nodes h r (uniqueSiblingLast h X) := fun x hx => hX x (hsub.subset hx)
  obtain ⟨cs, h1, _, h3, h4, h5⟩ := nav_pair wf ev (c := .prevAll) (by simp) (by simp) (q := .sib) hok hU
    (hs.sublist hsub) (fun cs hcs => prevAll_sibAsc wf hU.within hcs)
  refine ⟨cs, h4, (prevAll_sibAsc wf hU.within h1).nodup, ?_, h5⟩
  intro e
  rw [h3]
  refine and_congr_right fun _ => ?_
  constructor
  · rintro ⟨y, hy, k⟩; exact ⟨y, hsub.subset hy, k⟩
  · rintro ⟨y, hy, k⟩
    obtain ⟨z, hz, hzp, hzi⟩ := sibAsc_last_cover hy hs
    rw [← List.mem_reverse, ← uniqueSiblingLast_eq wf hX.within] at hz
    obtain ⟨a1, a2, ⟨p, a3, a4⟩, a5⟩ := (laterSib_index wf).1 k
    exact ⟨z, hz, (laterSib_index wf).2 ⟨a1, hU.within z hz, ⟨p, a3, hzp.trans a4⟩, by omega⟩⟩

/-- C25: `prev_all` returns exactly the elements before a member among its siblings, each once. -/
theorem C25_prev_all_partial {X : List Nat} (hX : Nodes h r X) (hs : SibAsc h X) :
    ∃ l, prevAllQ h env X none = .ok l ∧ l.Nodup ∧
      (∀ e, e ∈ l ↔ h.isElem e = true ∧ ∃ y ∈ X, LaterSib h r e y) := by
  obtain ⟨l, h1, h2, h3, _⟩ := C26_prev_all_partial wf ev hX hs (all_cmpdOk .sib .list)
  exact ⟨l, h1, h2, h3⟩

/-! ## siblings: sets without repetition -/

/-- C26: `siblings` with a compound. -/
theorem C26_siblings_partial {ss : List Sim} {X : List Nat} (hX : Nodes h r X) (hn : X.Nodup)
    (hok1 : CmpdOk h r env true .doc .child ss) (hok2 : CmpdOk h r env true .doc .list ss) :
    ∃ l, siblingsQ h env X none = .ok l ∧ DocSorted h r l ∧ (∀ e, e ∈ l ↔ h.isElem e = true ∧ ∃ y ∈ X, Sib h r y e) ∧
      siblingsQ h env X (some (cmpdSel ss)) = .ok (l.filter fun x => decide (cmpdSat h r env ss x)) := by
  obtain ⟨l, h1, h2, h3⟩ := siblings_good (env := env) wf ev (all_cmpdOk .doc .child) (all_cmpdOk .doc .list) hX hn
  obtain ⟨res, k1, k2, k3⟩ := siblings_good wf ev hok1 hok2 hX hn
  have h3' : ∀ e, e ∈ l ↔ h.isElem e = true ∧ ∃ y ∈ X, Sib h r y e := by
    intro e
    rw [h3]
    exact ⟨fun ⟨a, _, b⟩ => ⟨a, b⟩, fun ⟨a, b⟩ => ⟨a, all_sat e, b⟩⟩
  refine ⟨l, (siblings_none X).trans h1, h2, h3', ?_⟩
  unfold siblingsQ
  rw [Option.map_some, k1]
  have hw : ∀ x ∈ res, Within h r x := by
    intro x hx
    obtain ⟨_, _, y, _, p, hp, _, hk, _⟩ := (k3 x).1 hx
    exact .step hp hk
  refine congrArg _ (docSorted_ext k2 (List.Pairwise.sublist List.filter_sublist h2) hw (fun x => ?_) wf)
  rw [k3, List.mem_filter, h3', decide_eq_true_eq]
  tauto

/-- C25: `siblings` returns exactly the elements that share the parent of a member and differ from it, in document
order. -/
theorem C25_siblings_partial {X : List Nat} (hX : Nodes h r X) (hn : X.Nodup) :
    ∃ l, siblingsQ h env X none = .ok l ∧ DocSorted h r l ∧ (∀ e, e ∈ l ↔ h.isElem e = true ∧ ∃ y ∈ X, Sib h r y e) := by
  obtain ⟨l, h1, h2, h3, _⟩ := C26_siblings_partial wf ev hX hn (all_cmpdOk .doc .child) (all_cmpdOk .doc .list)
  exact ⟨l, h1, h2, h3⟩

omit wf ev

/-! ## Instances and counterexamples -/

theorem demo_nodes {l : List Nat} (hl : ∀ x ∈ l, x ∈ [0, 1, 2, 5, 6, 7, 8, 9]) : Nodes demo 0 l := by
  intro x hx
  have := hl x hx
  simp only [List.mem_cons, List.not_mem_nil, or_false] at this
  rcases this with rfl | rfl | rfl | rfl | rfl | rfl | rfl | rfl
  · exact ⟨.self, Or.inr rfl⟩
  · exact ⟨wfCheck_within [0] (by decide) rfl, Or.inl (by decide)⟩
  · exact ⟨wfCheck_within [0, 1] (by decide) rfl, Or.inl (by decide)⟩
  · exact ⟨wfCheck_within [0, 1] (by decide) rfl, Or.inl (by decide)⟩
  · exact ⟨wfCheck_within [0, 1, 5] (by decide) rfl, Or.inl (by decide)⟩
  · exact ⟨wfCheck_within [0, 1, 5] (by decide) rfl, Or.inl (by decide)⟩
  · exact ⟨wfCheck_within [0] (by decide) rfl, Or.inl (by decide)⟩
  · exact ⟨wfCheck_within [0, 8] (by decide) rfl, Or.inl (by decide)⟩

example : Nodes demo 0 [8, 1, 5] ∧ [8, 1, 5].Nodup ∧ SibAsc demo [2, 5, 7] ∧
    childrenQ demo env0 [8, 1, 5] none = .ok [9, 2, 5, 6, 7] ∧
    childrenQ demo env0 [8, 1, 5] (some (cmpdSel [ty "p"])) = .ok [2, 6] ∧
    parentQ demo env0 [6, 7, 2, 1] none = .ok [5, 1] ∧ parentsQ demo env0 [7, 9, 1] none = .ok [1, 5, 8] ∧
    nextQ demo env0 [6, 2, 1] none = .ok [7, 5, 8] ∧ prevQ demo env0 [7, 5] (some (cmpdSel [ty "p"])) = .ok [6, 2] ∧
    nextAllQ demo env0 [2, 6] none = .ok [5, 7] ∧ prevAllQ demo env0 [5, 7] none = .ok [2, 6] ∧
    siblingsQ demo env0 [6, 7, 2] none = .ok [5, 6, 7] ∧
    CmpdOk demo 0 env0 true .any .child [ty "p"] :=
  ⟨demo_nodes (by decide), by decide, by unfold SibAsc; decide, by decide, by decide, by decide, by decide, by decide,
    by decide, by decide, by decide, by decide, basic_cmpdOk (by simp) (by simp [ty, Sim.basic]) _ _⟩

/-- Without the order `next_all` and `prev_all` lose elements: of siblings only the first, respectively last, in the set
is used. -/
theorem C25_fails_order : nextAllQ demo env0 [7, 6] none = .ok [] ∧ prevAllQ demo env0 [7, 6] none = .ok [] := by decide

/-- `siblings` of a set in which an element is repeated contains the element itself. -/
theorem C25_fails_siblings_repeated : siblingsQ demo env0 [6, 6] none = .ok [6, 7] ∧ ¬ Sib demo 0 6 6 :=
  ⟨by decide, fun ⟨_, _, _, _, h⟩ => h rfl⟩

/-- With an id the filtered call leaves the relation: `children("#x")` returns a grandchild. -/
theorem C26_fails_id : childrenQ demo env6 [1] (some (cmpdSel [.id "x".toList])) = .ok [6] ∧
    childrenQ demo env6 [1] none = .ok [2, 5] := by decide

end Visdom
