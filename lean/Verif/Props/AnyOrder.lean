import Verif.Props.Find
import Verif.Proofs.Walks
import Verif.Proofs.Stumble
import Verif.Spec.Common
/-!
# C17, C19: `find` from sets in any order

A result of `find` need not be in document order (C18) and may hold an element twice. Here `find` is called on such sets: any list of nodes.
-/
namespace Visdom
open Spec Classical

variable {h : Heap} {r : Nat} {env : Env}

theorem find_one_step {S : List Nat} (hne : S ≠ []) (c : Comb) (ss : List Sim) :
    find h env S [[(c, ss)]] = select h S (optimizeCmpd (simSegs h env c ss)) none := by
  rw [find_single hne]
  have : optimizeGroup true (cplxCmpds h env [(c, ss)]) = ⟨none, [optimizeCmpd (simSegs h env c ss)]⟩ := by
    simp only [cplxCmpds, stepCmpd, optimizeGroup, List.map_cons, List.map_nil, maxIndex]
    split <;> simp
  rw [this]
  simp only [findProc, findFirst]
  cases select h S (optimizeCmpd (simSegs h env c ss)) none <;> rfl

theorem isId_inCache {s : Sim} (hs : s.isId = false) : (simMatcher h env s).inCache = false := by
  cases s
  case id i => cases hs
  case nth last o a b => cases o <;> unfold simMatcher <;> simp only [nthChildMatcher, nthOfTypeMatcher, nthMatcher_cache]
  case nthIdx last o b => cases o <;> unfold simMatcher <;> simp only [nthChildMatcher, nthOfTypeMatcher, nthMatcher_cache]
  case edge last o => cases o <;> unfold simMatcher <;> rfl
  case only o => cases o <;> unfold simMatcher <;> rfl
  all_goals unfold simMatcher; rfl

theorem mem_firstBy {κ : Type} [DecidableEq κ] {key : Nat → κ} {seen : List κ} {l : List Nat} {y : Nat} :
    y ∈ firstBy key seen l ↔ key y ∉ seen ∧ ∃ A B, l = A ++ y :: B ∧ ∀ z ∈ A, key z ≠ key y := by
  induction l generalizing seen with
  | nil => simp [firstBy]
  | cons x l ih =>
    simp only [firstBy]
    split
    · next hx =>
      rw [ih]
      constructor
      · rintro ⟨h1, A, B, rfl, h2⟩
        refine ⟨h1, x :: A, B, rfl, ?_⟩
        intro z hz
        rcases List.mem_cons.1 hz with rfl | hz
        · intro e; exact h1 (e ▸ hx)
        · exact h2 z hz
      · rintro ⟨h1, A, B, he, h2⟩
        cases A with
        | nil =>
          simp only [List.nil_append, List.cons.injEq] at he
          exact absurd (he.1 ▸ hx) h1
        | cons a A =>
          simp only [List.cons_append, List.cons.injEq] at he
          exact ⟨h1, A, B, he.2, fun z hz => h2 z (List.mem_cons_of_mem _ hz)⟩
    · next hx =>
      rw [List.mem_cons, ih]
      constructor
      · rintro (rfl | ⟨h1, A, B, rfl, h2⟩)
        · exact ⟨hx, [], l, rfl, by simp⟩
        · simp only [List.mem_cons, not_or] at h1
          refine ⟨h1.2, x :: A, B, rfl, ?_⟩
          intro z hz
          rcases List.mem_cons.1 hz with rfl | hz
          · exact fun e => h1.1 e.symm
          · exact h2 z hz
      · rintro ⟨h1, A, B, he, h2⟩
        cases A with
        | nil =>
          simp only [List.nil_append, List.cons.injEq] at he
          exact Or.inl he.1.symm
        | cons a A =>
          simp only [List.cons_append, List.cons.injEq] at he
          refine Or.inr ⟨?_, A, B, he.2, fun z hz => h2 z (List.mem_cons_of_mem _ hz)⟩
          simp only [List.mem_cons, not_or]
          exact ⟨fun e => h2 a (by simp) (he.1 ▸ e.symm), h1⟩

/-- Looking for descendants panics when `unique_parents` does. -/
theorem select_stumbles (wf : TreeWF h r) {S : List Nat} (hS : ∀ x ∈ S, Within h r x) (hs : Stumbles h S) {m : Matcher} {segs : Cmpd}
    (hc : m.inCache = false) (hh : m.one.isSome = true ∨ m.all.isSome = true) :
    select h S ((m, .childrenAll) :: segs) none = .error .unreachableCode := by
  have hlen : 1 < S.length := by
    obtain ⟨A, t, B, x, C, rfl, _⟩ := hs
    simp; omega
  have hu : uniqueParents h S = .error .unreachableCode := by
    rcases uniqueParents_stumbles wf hS with ⟨_, _, hn⟩ | ⟨hu, _⟩
    · exact absurd hs hn
    · exact hu
  have ho : ∀ f, overTops h f S = .error .unreachableCode := by
    intro f
    unfold overTops
    rw [if_pos hlen, hu]
  simp only [select, selectFirst, Option.getD, hc, Bool.false_and, Bool.false_eq_true, if_false, selectByRule]
  cases h1 : m.one with
  | some g => simp only [ho]
  | none =>
    cases h2 : m.spec with
    | some s => simp only [ho]
    | none =>
      cases h3 : m.all with
      | some f => simp only [ho]
      | none =>
        rw [h1, h3] at hh
        rcases hh with hh | hh <;> cases hh

section
variable (wf : TreeWF h r) (ev : Metas h r)
include wf ev

/-- C19 for descendants of a set in any order, exactly: `find` panics when the set stumbles, otherwise it returns exactly the descendants
that satisfy the compound. -/
theorem C19_find_any_order {ss : List Sim} (hok : CmpdOk h r env true .any .desc ss) (hid : ∀ t ∈ ss, t.isId = false) {S : List Nat}
    (hS : Nodes h r S) :
    (Stumbles h S → find h env S [[(.childrenAll, ss)]] = .error .unreachableCode) ∧
    (¬ Stumbles h S → ∃ res, find h env S [[(.childrenAll, ss)]] = .ok res ∧
      ∀ e, e ∈ res ↔ h.isElem e = true ∧ cmpdSat h r env ss e ∧ ∃ y ∈ S, Below h y e) := by
  have hw := hS.within
  obtain ⟨hhead, hD, hA⟩ := cmpdOk_good (c := .childrenAll) (c0 := .childrenAll) wf ev (by simp) hok
  have hA := hA rfl
  constructor
  · intro hs
    have hne : S ≠ [] := by
      rintro rfl
      obtain ⟨A, t, B, x, C, he, _⟩ := hs
      simp at he
    rw [find_one_step hne]
    obtain ⟨s0, ss', hp, _, segs, hopt, _, _⟩ := optimizeCmpd_shape (h := h) (env := env) (c := .childrenAll) (by simp) hok.1
    obtain ⟨s, l, he, ha, _⟩ := hA
    rw [hopt] at he ⊢
    simp only [List.cons.injEq] at he
    obtain ⟨rfl, rfl⟩ := he
    exact select_stumbles wf hw hs (isId_inCache (hid s0 (hp.subset List.mem_cons_self))) ha.handle
  · intro hs
    by_cases hne : S = []
    · subst hne
      exact ⟨[], rfl, by simp⟩
    rw [find_one_step hne]
    have hcs : ∃ cs, cands h .childrenAll S = .ok cs := by
      simp only [cands]
      unfold overTops
      split
      · rcases uniqueParents_stumbles wf hw with ⟨u, hu, _⟩ | ⟨_, hn⟩
        · rw [hu]
          exact flatMapR_total fun x _ => ⟨_, rfl⟩
        · exact absurd hn hs
      · exact flatMapR_total fun x _ => ⟨_, rfl⟩
    obtain ⟨cs, hcs⟩ := hcs
    obtain ⟨res, hr⟩ := select_answers wf (fun _ _ _ => True.intro) (fun _ _ _ => True.intro) hA hD (oc := none) (Or.inr ⟨rfl, hhead⟩) hS hne
      (by simp) (by simp) ⟨cs, hcs, True.intro⟩
    have := (select_decides (fun _ _ _ => True.intro) (fun _ _ _ => True.intro) wf hD (oc := none) (Or.inr ⟨rfl, hhead⟩) hS hne
      True.intro (by simp) (by simp) (fun _ _ => True.intro) hr).2
    exact ⟨res, hr, fun e => by rw [this e]; simp only [decide_eq_true_eq, Rel]⟩

/-- C19 for basic compounds: from a set in any order, `find` panics exactly when the set stumbles. -/
theorem C19_find_any_order_basic {ss : List Sim} (hne : ss ≠ []) (hb : ∀ t ∈ ss, t.basic = true) {S : List Nat} (hS : Nodes h r S) :
    (find h env S [[(.childrenAll, ss)]] = .error .unreachableCode ↔ Stumbles h S) ∧
    (¬ Stumbles h S → ∃ res, find h env S [[(.childrenAll, ss)]] = .ok res ∧
      ∀ e, e ∈ res ↔ h.isElem e = true ∧ cmpdSat h r env ss e ∧ ∃ y ∈ S, Below h y e) := by
  obtain ⟨h1, h2⟩ := C19_find_any_order wf ev (env := env) (basic_cmpdOk hne hb .any .desc)
    (fun t ht => by have := hb t ht; cases t <;> first | rfl | cases this) hS
  refine ⟨⟨fun he => ?_, h1⟩, h2⟩
  by_contra hs
  obtain ⟨res, hr, _⟩ := h2 hs
  rw [hr] at he
  cases he

/-- C17, C19 for `> ss` and `+ ss` from a set in any order: no panic, and exactly the children, or next siblings, that satisfy the compound;
of every member in turn. -/
theorem C17_find_any_order_near {ss : List Sim} {c : Comb} (hc : c = .children ∨ c = .next) (hok : CmpdOk h r env true .any (Comb.via c) ss)
    {S : List Nat} (hS : Nodes h r S) : ∃ res, find h env S [[(c, ss)]] = .ok res ∧
      res = (S.flatMap (if c = .children then h.children else fun x => (h.nextElem x).toList)).filter (fun x => decide (cmpdSat h r env ss x)) ∧
      ∀ e, e ∈ res ↔ h.isElem e = true ∧ cmpdSat h r env ss e ∧ ∃ y ∈ S, Rel h r c y e := by
  by_cases hne : S = []
  · subst hne
    exact ⟨[], rfl, rfl, by simp⟩
  rw [find_one_step hne]
  obtain ⟨hhead, hD, hA⟩ := cmpdOk_good (c := c) (c0 := c) wf ev (by rcases hc with rfl | rfl <;> simp) hok
  have hcs : cands h c S = .ok (S.flatMap (if c = .children then h.children else fun x => (h.nextElem x).toList)) := by
    rcases hc with rfl | rfl
    · simp only [cands, if_true]
    · simp only [cands, reduceCtorEq, if_false, Except.ok.injEq]
      exact List.filterMap_eq_flatMap_toList _ _
  obtain ⟨res, hr⟩ := select_answers wf (fun _ _ _ => True.intro) (fun _ _ _ => True.intro) (hA rfl) hD (oc := none) (Or.inr ⟨rfl, hhead⟩) hS hne
    (by rcases hc with rfl | rfl <;> simp) (by rcases hc with rfl | rfl <;> simp) ⟨_, hcs, True.intro⟩
  obtain ⟨⟨cs, k1, _, k3⟩, k2⟩ := select_decides (fun _ _ _ => True.intro) (fun _ _ _ => True.intro) wf hD (oc := none) (Or.inr ⟨rfl, hhead⟩) hS hne
    (by rcases hc with rfl | rfl <;> exact True.intro) (by rcases hc with rfl | rfl <;> simp) (by rcases hc with rfl | rfl <;> simp)
    (fun _ _ => True.intro) hr
  refine ⟨res, hr, ?_, fun e => by rw [k2 e]; simp only [decide_eq_true_eq]⟩
  rcases k1 with k1 | ⟨k1, _⟩
  · rw [hcs] at k1
    rw [k3, Except.ok.inj k1]
  · rcases hc with rfl | rfl <;> cases k1

/-- C17, C19 for `~ ss` from a set in any order: no panic. Of members with the same parent only the first one in the set counts, even if
another one stands before it in the document. -/
theorem C17_find_any_order_later {ss : List Sim} (hok : CmpdOk h r env true .any .list ss) {S : List Nat} (hS : Nodes h r S) :
    ∃ res, find h env S [[(.nextAll, ss)]] = .ok res ∧
      ∀ e, e ∈ res ↔ h.isElem e = true ∧ cmpdSat h r env ss e ∧
        ∃ A y B, S = A ++ y :: B ∧ (∀ z ∈ A, h.parent z ≠ h.parent y) ∧ LaterSib h r y e := by
  by_cases hne : S = []
  · subst hne
    exact ⟨[], rfl, by simp⟩
  rw [find_one_step hne]
  obtain ⟨hhead, hD, hA⟩ := cmpdOk_good (c := .nextAll) (c0 := .nextAll) wf ev (by simp) hok
  obtain ⟨cs, hcs⟩ := cands_total wf hS.within (c := .nextAll) (by simp)
  obtain ⟨res, hr⟩ := select_answers wf (fun _ _ _ => True.intro) (fun _ _ _ => True.intro) (hA rfl) hD (oc := none) (Or.inr ⟨rfl, hhead⟩) hS hne
    (by simp) (by simp) ⟨cs, hcs, True.intro⟩
  refine ⟨res, hr, ?_⟩
  have hfe := uniqueSiblingFirst_eq wf hS.within
  have hsub : ∀ x ∈ uniqueSiblingFirst h S, x ∈ S := uniqueFirst_sub wf hS.within
  have hpw : (uniqueSiblingFirst h S).Pairwise fun a b => h.parent a ≠ h.parent b := by rw [hfe]; exact firstBy_pairwise _ _
  have hS' : Nodes h r (uniqueSiblingFirst h S) := fun x hx => hS x (hsub x hx)
  have hidem : uniqueSiblingFirst h (uniqueSiblingFirst h S) = uniqueSiblingFirst h S := by
    rw [uniqueSiblingFirst_eq wf hS'.within]
    exact firstBy_self hpw (by simp)
  have hne' : uniqueSiblingFirst h S ≠ [] := by
    obtain ⟨x, S', rfl⟩ := List.exists_cons_of_ne_nil hne
    rw [hfe]
    simp [firstBy]
  have hr' : select h (uniqueSiblingFirst h S) (optimizeCmpd (simSegs h env .nextAll ss)) none = .ok res := by
    rw [← hr]
    obtain ⟨m, segs, he⟩ := hhead
    rw [he]
    simp only [select, selectFirst, Option.getD, selectByRule, hidem]
    simp
  have hasc : SibAsc h (uniqueSiblingFirst h S) := List.Pairwise.imp (fun hab he => absurd he hab) hpw
  have := (select_decides (fun _ _ _ => True.intro) (fun _ _ _ => True.intro) wf hD (oc := none) (Or.inr ⟨rfl, hhead⟩) hS' hne'
    (SibAsc.firstAsc hasc []) (by simp) (by simp) (fun _ _ => True.intro) hr').2
  intro e
  rw [this e]
  simp only [decide_eq_true_eq, Rel, hfe, mem_firstBy, List.not_mem_nil, not_false_eq_true, true_and]
  constructor
  · rintro ⟨h1, h2, y, ⟨A, B, h3, h4⟩, h5⟩; exact ⟨h1, h2, A, y, B, h3, h4, h5⟩
  · rintro ⟨h1, h2, A, y, B, h3, h4, h5⟩; exact ⟨h1, h2, y, ⟨A, B, h3, h4⟩, h5⟩

end

/-- Sets that stumble: an element after one of its descendants, or twice in a row. The result `[2, 6, 3]` of `div > div` does not. -/
example : Stumbles nest [3, 2] ∧ Stumbles nest [4, 4] ∧ ¬ Stumbles nest [2, 6, 3] ∧
    find nest env0 [3, 2] [[(.childrenAll, [ty "b"])]] = .error .unreachableCode ∧
    find nest env0 [4, 4] [[(.childrenAll, [ty "b"])]] = .error .unreachableCode ∧
    find nest env0 [2, 6, 3] [[(.childrenAll, [ty "b"])]] = .ok [5, 5] := by
  have hm : Metas nest 0 := nest_env.metas
  have hn : Nodes nest 0 [2, 6, 3] := by
    intro x hx
    simp only [List.mem_cons, List.not_mem_nil, or_false] at hx
    rcases hx with rfl | rfl | rfl
    · exact ⟨wfCheck_within [0, 1] (by decide) rfl, Or.inl (by decide)⟩
    · exact ⟨wfCheck_within [0, 1] (by decide) rfl, Or.inl (by decide)⟩
    · exact ⟨wfCheck_within [0, 1, 2] (by decide) rfl, Or.inl (by decide)⟩
  refine ⟨⟨[], 3, [], 2, [], rfl, by intro A' a B he; simp at he, by simp, .step .self (by decide)⟩,
    ⟨[], 4, [], 4, [], rfl, by intro A' a B he; simp at he, by simp, .self⟩, ?_, by decide, by decide, by decide⟩
  intro hs
  have := ((C19_find_any_order_basic (ss := [ty "b"]) (env := env0) nest_wf hm (by simp) (by decide) hn).1).2 hs
  revert this
  decide

/-- `C17_find_any_order_near`, and an element missed by `~` because a later sibling comes first in the set. -/
example : CmpdOk nest 0 env0 true .any .child [ty "div"] ∧ find nest env0 [2, 1] [[(.children, [ty "div"])]] = .ok [3, 2, 6] ∧
    find row env0 [4, 2] [[(.nextAll, [ty "b"])]] = .ok [] ∧ find row env0 [2, 4] [[(.nextAll, [ty "b"])]] = .ok [3] :=
  ⟨basic_cmpdOk (by simp) (by decide) _ _, by decide, by decide, by decide⟩

end Visdom
