import Verif.Props.Navigate
import Verif.Props.Walks
import Verif.Props.EmptyText
/-!
# C95: the order of the answers of navigation

C25 says which elements the navigation methods return. Here: in which order, and how often, on every set, sorted or not.
`children`, `next` and `prev` answer member by member. `parent` and `next_all` answer for the first member with each parent,
`prev_all` for the last one. `C26` takes the same lists through a selector.
-/
namespace Visdom
open Spec Classical
variable {h : Heap} {r : Nat} {env : Env}

theorem sibAsc_distinct {U : List Nat} (hp : U.Pairwise fun x y => h.parent x ≠ h.parent y) : SibAsc h U :=
  hp.imp fun hne he => absurd he hne

variable (wf : TreeWF h r) (ev : Metas h r)
include wf ev

/-- C95: `children` gives the element children of the first member, then those of the second, and so on. -/
theorem C95_children {X : List Nat} (hX : Nodes h r X) :
    childrenQ h env X none = .ok (X.flatMap fun y => (h.kids y).filter h.isElem) := by
  obtain ⟨cs, h1, _, _, h4, _⟩ := nav_pair wf ev (c := .children) (by simp) (by simp) (all_cmpdOk (env := env) .any .child) hX trivial
    (fun _ _ => trivial)
  simp only [cands, Except.ok.injEq] at h1
  subst h1
  exact h4

/-- C95: `next` gives one element at most for every member, in the order of the members. -/
theorem C95_next {X : List Nat} (hX : Nodes h r X) :
    ∃ f : Nat → Option Nat, (∀ y ∈ X, ∀ e, f y = some e ↔ h.isElem e = true ∧ NextSib h r y e) ∧
      nextQ h env X none = .ok (X.filterMap f) := by
  obtain ⟨cs, h1, _, _, h4, _⟩ := nav_pair wf ev (c := .next) (by simp) (by simp) (all_cmpdOk (env := env) .any .list) hX trivial
    (fun _ _ => trivial)
  simp only [cands, Except.ok.injEq] at h1
  subst h1
  exact ⟨h.nextElem, fun y hy e => (mem_nextElem wf (hX y hy).1).trans and_comm, h4⟩

/-- C95: `prev` gives one element at most for every member, in the order of the members. -/
theorem C95_prev {X : List Nat} (hX : Nodes h r X) :
    ∃ f : Nat → Option Nat, (∀ y ∈ X, ∀ e, f y = some e ↔ h.isElem e = true ∧ NextSib h r e y) ∧
      prevQ h env X none = .ok (X.filterMap f) := by
  obtain ⟨cs, h1, _, _, h4, _⟩ := nav_pair wf ev (c := .prev) (by simp) (by simp) (all_cmpdOk (env := env) .any .list) hX trivial
    (fun _ _ => trivial)
  have hf : ∀ y, ∃ o : Option Nat, y ∈ X → h.prevElem y = .ok o ∧ ∀ e, o = some e ↔ NextSib h r e y ∧ h.isElem e = true := by
    intro y
    by_cases hy : y ∈ X
    · obtain ⟨o, ho⟩ := prevElem_ok wf (hX y hy).1
      exact ⟨o, fun _ => ho⟩
    · exact ⟨none, fun k => absurd k hy⟩
  choose f hf using hf
  refine ⟨f, fun y hy e => ((hf y hy).2 e).trans and_comm, ?_⟩
  have : cs = X.flatMap fun y => (f y).toList := by
    refine flatMapR_inv (by simpa only [cands] using h1) fun x hx y hy => ?_
    rw [(hf x hx).1] at hy
    simpa [Except.map] using hy.symm
  refine Eq.trans h4 (congrArg _ (this.trans ?_))
  rw [List.filterMap_eq_flatMap_toList]

/-- C95: `parent` gives one element for the first member with each parent, in the order of these members. -/
theorem C95_parent {X : List Nat} (hX : Nodes h r X) :
    ∃ (U : List Nat) (f : Nat → Option Nat), FirstOfParent h X U ∧
      (∀ y ∈ U, ∀ e, f y = some e ↔ h.isElem e = true ∧ Within h r e ∧ y ∈ h.kids e) ∧ parentQ h env X none = .ok (U.filterMap f) := by
  have hspec := firstBy_spec (h := h) X
  rw [← uniqueSiblingFirst_eq wf hX.within] at hspec
  have hU : Nodes h r (uniqueSiblingFirst h X) := fun x hx => hX x (hspec.1.subset hx)
  obtain ⟨cs, h1, h2, h3, h4, _⟩ := nav_pair wf ev (c := .parent) (by simp) (by simp) (all_cmpdOk (env := env) .any .list) hU trivial
    (fun _ _ => trivial)
  simp only [cands, Except.ok.injEq] at h1
  rw [uniqueSiblingFirst_eq wf hU.within, firstBy_self hspec.2.1 (by simp)] at h1
  subst h1
  refine ⟨_, fun x => (h.parent x).bind fun p => if h.isRoot p then none else some p, hspec, ?_, h4⟩
  intro y hy e
  constructor
  · intro he
    have hm : e ∈ parentsOf h (uniqueSiblingFirst h X) := List.mem_filterMap.2 ⟨y, hy, he⟩
    obtain ⟨p, hp, hpe⟩ := Option.bind_eq_some_iff.1 he
    have : p = e := by
      by_cases hr : h.isRoot p = true
      · simp [hr] at hpe
      · simpa [hr] using hpe
    subst this
    have hk := parent_some wf (hU.within y hy) hp
    exact ⟨((h3 p).1 hm).1, hk.1, List.mem_of_getElem? hk.2⟩
  · rintro ⟨he, hw, hk⟩
    simp only [parent_of_child wf hw hk, Option.bind_some]
    rw [if_neg]
    intro hr
    simp [Heap.isRoot, Heap.isElem] at hr he
    simp [hr] at he

/-- C95: `next_all` gives the later sibling elements of the first member with each parent, in their order. -/
theorem C95_next_all {X : List Nat} (hX : Nodes h r X) :
    ∃ (U : List Nat) (w : Nat → List Nat), FirstOfParent h X U ∧
      (∀ y ∈ U, (y = r → w y = []) ∧ ∀ p A B, Within h r p → h.kids p = A ++ y :: B → w y = B.filter h.isElem) ∧
      nextAllQ h env X none = .ok (U.flatMap w) := by
  have hspec := firstBy_spec (h := h) X
  rw [← uniqueSiblingFirst_eq wf hX.within] at hspec
  have hU : Nodes h r (uniqueSiblingFirst h X) := fun x hx => hX x (hspec.1.subset hx)
  obtain ⟨cs, h1, _, _, h4, _⟩ := nav_pair wf ev (c := .nextAll) (by simp) (by simp) (all_cmpdOk (env := env) .any .list) hU
    ((sibAsc_distinct hspec.2.1).firstAsc []) (fun _ _ => trivial)
  simp only [cands] at h1
  rw [uniqueSiblingFirst_eq wf hU.within, firstBy_self hspec.2.1 (by simp)] at h1
  refine ⟨_, fun x => match h.nextElems x with | .ok o => o | .error _ => [], hspec, ?_, ?_⟩
  · intro y hy
    refine ⟨fun e => by subst e; simp [Heap.nextElems, wf.rootParent], ?_⟩
    intro p A B hp hk
    obtain ⟨k1, k2⟩ := wf.link p A.length y hp (by rw [hk]; simp)
    simp only [Heap.nextElems, k1, k2, hk]
    rw [if_neg (by simp)]
    simp
  · refine Eq.trans h4 (congrArg _ (flatMapR_inv h1 fun x _ y hy => ?_))
    rw [hy]

/-- C95: `prev_all` gives the earlier sibling elements of the last member with each parent, in their order. -/
theorem C95_prev_all {X : List Nat} (hX : Nodes h r X) :
    ∃ (U : List Nat) (w : Nat → List Nat), FirstOfParent h X.reverse U.reverse ∧
      (∀ y ∈ U, (y = r → w y = []) ∧ ∀ p A B, Within h r p → h.kids p = A ++ y :: B → w y = A.filter h.isElem) ∧
      prevAllQ h env X none = .ok (U.flatMap w) := by
  have hspec := firstBy_spec (h := h) X.reverse
  have hr : (uniqueSiblingLast h X).reverse = firstBy h.parent [] X.reverse := by
    rw [uniqueSiblingLast_eq wf hX.within, List.reverse_reverse]
  rw [← hr] at hspec
  have hU : Nodes h r (uniqueSiblingLast h X) := fun x hx =>
    hX x (List.mem_reverse.1 (hspec.1.subset (List.mem_reverse.2 hx)))
  have hd : (uniqueSiblingLast h X).Pairwise fun x y => h.parent x ≠ h.parent y :=
    (List.pairwise_reverse.1 hspec.2.1).imp fun k => k.symm
  obtain ⟨cs, h1, _, _, h4, _⟩ := nav_pair wf ev (c := .prevAll) (by simp) (by simp) (all_cmpdOk (env := env) .any .list) hU
    (sibAsc_distinct hd) (fun _ _ => trivial)
  simp only [cands] at h1
  rw [uniqueSiblingLast_eq wf hU.within, firstBy_self hspec.2.1 (by simp), List.reverse_reverse] at h1
  refine ⟨_, fun x => match h.prevElems x with | .ok o => o | .error _ => [], hspec, ?_, ?_⟩
  · intro y hy
    refine ⟨fun e => by subst e; simp [Heap.prevElems, wf.rootParent], ?_⟩
    intro p A B hp hk
    obtain ⟨k1, k2⟩ := wf.link p A.length y hp (by rw [hk]; simp)
    simp only [Heap.prevElems, k1, k2, hk]
    rw [if_neg (by simp)]
    simp
  · refine Eq.trans h4 (congrArg _ (flatMapR_inv h1 fun x _ y hy => ?_))
    rw [hy]

/-- C95: `closest` gives back a set all of whose members match, as it is. If a member does not match, C27 says that the
answer is sorted. -/
theorem C95_closest {sel : List Complex} (hok : TestOk h r env sel) {X : List Nat} (hX : Elems h r X)
    (hall : ∀ x ∈ X, anySat h r env sel x) : closestQ h env X (some sel) = .ok X := by
  have hf : ∀ x ∈ X, isProcs h [x] (findSel h env sel) none = .ok true := fun x hx => by
    rw [isProcs_one wf ev hok.1 hok.2 (hX x hx).1 (hX x hx).2, decide_eq_true (hall x hx)]
  obtain ⟨res, hres⟩ := filterR_total (l := X) (f := fun x => isProcs h [x] (findSel h env sel) none) fun x hx => ⟨true, hf x hx⟩
  obtain rfl : res = X := by
    have := filterR_inv (P := fun _ => true) hres fun x hx b hb => by
      rw [hf x hx] at hb
      cases hb; rfl
    simpa using this
  have hemp : (res.filter fun x => decide (x ∉ res)) = [] := by
    rw [List.filter_eq_nil_iff]
    intro a ha
    simpa using ha
  simp only [closestQ, closest, Option.map_some, hres, hemp, List.isEmpty_nil, if_true]

omit wf ev

example : closestQ demo env0 [5, 1] (some (sel1 (ty "div"))) = .ok [5, 1] :=
  C95_closest demo_wf demo_metas0 (ty_testOk _) (by
    intro x hx
    have := demo_nodes (l := [5, 1]) (by decide) x hx
    exact ⟨this.1, this.2.resolve_right (by rintro rfl; revert hx; decide)⟩) (by
    intro x hx
    have : x = 5 ∨ x = 1 := by simpa using hx
    rcases this with rfl | rfl
    · exact (sel1_sat demo_wf (wfCheck_within [0, 1] (by decide) rfl) (by decide)).2 (by rw [ty, Sim.Sat]; exact ⟨rfl, rfl⟩)
    · exact (sel1_sat demo_wf (wfCheck_within [0] (by decide) rfl) (by decide)).2 (by rw [ty, Sim.Sat]; exact ⟨rfl, rfl⟩))

/-- A set that is not in document order, with two siblings: the answers, and the theorem for `prev_all`. -/
example : Nodes demo 0 [8, 7, 5, 2] ∧ childrenQ demo env0 [8, 7, 5, 2] none = .ok [9, 6, 7] ∧ nextQ demo env0 [1, 2, 6] none = .ok [8, 5, 7] ∧
    prevQ demo env0 [8, 7, 5] none = .ok [1, 6, 2] ∧ parentQ demo env0 [9, 7, 5, 2, 6] none = .ok [8, 5, 1] ∧
    nextAllQ demo env0 [6, 1, 2] none = .ok [7, 8, 5] ∧ prevAllQ demo env0 [8, 7, 5, 2] none = .ok [1, 6] :=
  ⟨demo_nodes (by decide), by decide, by decide, by decide, by decide, by decide, by decide⟩

end Visdom
