import Verif.Spec.Walk
import Verif.Proofs.Navigate
import Verif.Props.Filter
/-!
# The walks of `closest` and of the `*_until` methods
-/
namespace Visdom
open Spec Classical
variable {h : Heap} {r : Nat} {env : Env}

/-- A selector that is not searched from the middle is parsed the same with and without look-up optimisation. -/
theorem findSel_inner {sel : List Complex} (hl : ∀ cx ∈ sel, looked cx = false)
    (hp : ∀ cx ∈ sel, ∀ s ∈ cx, s.1 ≠ Comb.chain ∧ s.2 ≠ []) : findSel h env sel = innerSel h env sel := by
  induction sel with
  | nil => rw [innerSel]; rfl
  | cons cx sel ih =>
    have h1 := optimize_plain (h := h) (env := env) cx (hl cx List.mem_cons_self) (hp cx List.mem_cons_self)
    rw [innerSel]
    unfold findSel
    rw [List.map_cons]
    refine congrArg₂ _ ?_ (ih (fun c hc => hl c (List.mem_cons_of_mem _ hc)) fun c hc => hp c (List.mem_cons_of_mem _ hc))
    rw [h1]
    simp [optimizeGroup, optCmpds, cplxCmpds_eq, List.map_map, Function.comp_def]

theorem innersOk_shape {tot : Bool} {q : ListQ} {sel : List Complex} (hok : innersOk h r env tot q sel) :
    ∀ cx ∈ sel, ∀ s ∈ cx, s.1 ≠ Comb.chain ∧ s.2 ≠ [] := by
  induction sel with
  | nil => intro cx hcx; cases hcx
  | cons c sel ih =>
    rw [innersOk] at hok
    intro cx hcx
    rcases List.mem_cons.1 hcx with rfl | hcx
    · intro s hs
      refine ⟨?_, (hok.1.2.1 s hs).2⟩
      intro e
      have := (hok.1.2.1 s hs).1
      rw [e] at this
      cases this
    · exact ih hok.2.2 cx hcx

theorem firstBy_self {κ : Type} [DecidableEq κ] {key : Nat → κ} {seen : List κ} {l : List Nat}
    (hp : l.Pairwise fun x y => key x ≠ key y) (hs : ∀ x ∈ l, key x ∉ seen) : firstBy key seen l = l := by
  induction l generalizing seen with
  | nil => rfl
  | cons x l ih =>
    rw [List.pairwise_cons] at hp
    rw [firstBy, if_neg (hs x List.mem_cons_self), ih hp.2]
    intro y hy
    rw [List.mem_cons, not_or]
    exact ⟨fun e => hp.1 y hy e.symm, hs y (List.mem_cons_of_mem _ hy)⟩

variable (wf : TreeWF h r)
include wf

theorem index_pos {x y : Nat} (hs : LaterSib h r x y) : h.index x < h.index y ∧ h.index y < h.size := by
  obtain ⟨p, i, j, hp, hij, hi, hj⟩ := hs
  have h1 := (wf.link _ _ _ hp hi).2
  have h2 := (wf.link _ _ _ hp hj).2
  have h3 : j < (h.kids p).length := (List.getElem?_eq_some_iff.1 hj).1
  have h4 := kids_length wf hp
  omega

theorem depth_child {x p : Nat} (hx : Within h r x) (hp : h.parent x = some p) :
    (h.treeIndexs p).length < (h.treeIndexs x).length := by
  obtain ⟨h1, h2⟩ := parent_some wf hx hp
  obtain ⟨π, hπ⟩ := h1.path
  have hx' : At h r (π ++ [h.index x]) x := .step hπ h2
  rw [treeIndexs_eq wf hπ, treeIndexs_eq wf hx']
  simp

theorem depth_bound {x : Nat} (hx : Within h r x) : (h.treeIndexs x).length < h.fuel := by
  obtain ⟨π, hπ⟩ := hx.path
  have := path_length wf hπ
  rw [treeIndexs_eq wf hπ]
  unfold Heap.fuel
  simp only [List.length_cons]
  omega

theorem isProcs_one (ev : Metas h r) {sel : List Complex} (hok : innersOk h r env true .doc sel)
    (hl : ∀ cx ∈ sel, looked cx = false) {x : Nat} (hx : Within h r x) (he : h.isElem x = true) :
    isProcs h [x] (findSel h env sel) none = .ok (decide (anySat h r env sel x)) := by
  rw [findSel_inner hl (innersOk_shape hok)]
  have hX : Elems h r [x] := by
    intro y hy
    rw [List.mem_singleton] at hy
    subst hy
    exact ⟨hx, he⟩
  obtain ⟨h1, h2⟩ := isProcs_good (inners_good wf ev sel .doc hok) hX
    ⟨List.pairwise_singleton _ _, List.pairwise_singleton _ _⟩ (root := none) (Or.inl rfl)
  obtain ⟨b, hb⟩ := h2 rfl
  rw [hb]
  have := h1 b hb
  simp only [List.mem_singleton, exists_eq_left] at this
  refine congrArg _ ?_
  by_cases hs : anySat h r env sel x
  · rw [@decide_eq_true _ (Classical.propDecidable _) hs, this.2 hs]
  · rw [@decide_eq_false _ (Classical.propDecidable _) hs]
    exact Bool.eq_false_iff.2 fun e => hs (this.1 e)

/-! ## closest -/

theorem nearest_self {P : Nat → Prop} {x e : Nat} (hx : Within h r x) (he : h.isElem x = true) (hP : P x) :
    Nearest h r P x e ↔ e = x := by
  constructor
  · rintro ⟨a1, a2, a3, a4, a5⟩
    rcases within_cases a3 with rfl | hb
    · rfl
    · exact absurd hP (a5 x hb .self)
  · rintro rfl
    exact ⟨hx, he, .self, hP, fun a hb hw => absurd ⟨_, hb.choose_spec.1, hb.choose_spec.2.trans hw⟩ (not_below_self wf hx)⟩

theorem nearest_parent {P : Nat → Prop} {x p e : Nat} (hx : Within h r x) (hp : h.parent x = some p) (hP : ¬ P x) :
    Nearest h r P x e ↔ Nearest h r P p e := by
  have hk := List.mem_of_getElem? (parent_some wf hx hp).2
  have key : ∀ a, Within h r a → Within h a x → a = x ∨ Within h a p := by
    intro a ha hw
    rcases within_cases hw with rfl | hb
    · exact Or.inl rfl
    · obtain ⟨p', hp', hw'⟩ := (below_parent wf ha hx).1 hb
      rw [hp] at hp'; cases hp'
      exact Or.inr hw'
  constructor
  · rintro ⟨a1, a2, a3, a4, a5⟩
    rcases key e a1 a3 with rfl | h1
    · exact absurd a4 hP
    · exact ⟨a1, a2, h1, a4, fun a hb hw => a5 a hb (.step hw hk)⟩
  · rintro ⟨a1, a2, a3, a4, a5⟩
    refine ⟨a1, a2, .step a3 hk, a4, fun a hb hw => ?_⟩
    rcases key a (a1.trans hb.within) hw with rfl | h1
    · exact hP
    · exact a5 a hb h1

theorem nearest_root {P : Nat → Prop} {e : Nat} : ¬ Nearest h r P r e := by
  rintro ⟨a1, a2, a3, _, _⟩
  rcases within_cases a3 with rfl | hb
  · exact elem_ne_root wf a2 rfl
  · rcases within_cases a1 with rfl | hb'
    · exact elem_ne_root wf a2 rfl
    · exact not_below_self wf .self (hb'.trans hb)

theorem closestWalk_ok {sel : List Proc} {P : Nat → Prop}
    (hsel : ∀ x, Within h r x → h.isElem x = true → isProcs h [x] sel none = .ok (decide (P x)))
    {n x : Nat} (hx : Within h r x) (he : h.isElem x = true) (hn : (h.treeIndexs x).length < n) :
    ∃ o, closestWalk h sel n x = .ok o ∧ ∀ e, o = some e ↔ Nearest h r P x e := by
  induction n generalizing x with
  | zero => omega
  | succ n ih =>
    rw [closestWalk, hsel x hx he]
    by_cases hP : P x
    · rw [decide_eq_true hP]
      refine ⟨some x, rfl, fun e => ?_⟩
      rw [nearest_self wf hx he hP, Option.some.injEq]
      exact eq_comm
    · rw [decide_eq_false hP]
      obtain ⟨p, hpx, hp, hk⟩ := parent_inv wf hx (elem_ne_root wf he)
      simp only [hpx]
      by_cases hr : h.isRoot p = true
      · rw [if_pos hr]
        refine ⟨none, rfl, fun e => ?_⟩
        rw [nearest_parent wf hx hpx hP, (isRoot_iff wf hp).1 hr]
        simp only [reduceCtorEq, false_iff]
        exact nearest_root wf
      · rw [if_neg hr]
        have hpe : h.isElem p = true := elem_of_kid wf hp (List.mem_of_getElem? hk) fun e => hr ((isRoot_iff wf hp).2 e)
        obtain ⟨o, h1, h2⟩ := ih hp hpe (by have := depth_child wf hx hpx; omega)
        exact ⟨o, h1, fun e => (h2 e).trans (nearest_parent wf hx hpx hP).symm⟩

theorem closest_good {sel : List Proc} {P : Nat → Prop}
    (hsel : ∀ x, Within h r x → h.isElem x = true → isProcs h [x] sel none = .ok (decide (P x)))
    {X : List Nat} (hX : Elems h r X) :
    ∃ res, closest h X (some sel) = .ok res ∧ (∀ e, e ∈ res ↔ ∃ x ∈ X, Nearest h r P x e) ∧
      (X.Nodup → res.Nodup) ∧ (DocSorted h r X → DocSorted h r res) ∧
      ((∃ x ∈ X, ¬ P x) → DocSorted h r res ∧ res.Nodup) := by
  have hself : filterR (fun x => isProcs h [x] sel none) X = .ok (X.filter fun x => decide (P x)) :=
    filterR_ok fun x hx => hsel x (hX x hx).1 (hX x hx).2
  have hprops : (X.filter fun x => decide (x ∉ X.filter fun x => decide (P x))) = X.filter fun x => decide (¬ P x) := by
    refine List.filter_congr fun x hx => ?_
    rw [decide_eq_decide, List.mem_filter, decide_eq_true_eq]
    simp [hx]
  simp only [closest, hself]
  rw [hprops]
  by_cases hemp : (X.filter fun x => decide (¬ P x)).isEmpty = true
  · rw [if_pos hemp]
    have hall : ∀ x ∈ X, P x := by
      intro x hx
      by_contra hnp
      have : x ∈ X.filter fun x => decide (¬ P x) := List.mem_filter.2 ⟨hx, decide_eq_true hnp⟩
      rw [List.isEmpty_iff.1 hemp] at this
      cases this
    refine ⟨_, rfl, fun e => ?_, fun hn => hn.filter _, fun hd => List.Pairwise.sublist List.filter_sublist hd,
      fun ⟨x, hx, hn⟩ => absurd (hall x hx) hn⟩
    rw [List.mem_filter, decide_eq_true_eq]
    constructor
    · rintro ⟨h1, h2⟩; exact ⟨e, h1, (nearest_self wf (hX e h1).1 (hX e h1).2 h2).2 rfl⟩
    · rintro ⟨x, hx, hne⟩
      rw [nearest_self wf (hX x hx).1 (hX x hx).2 (hall x hx)] at hne
      subst hne
      exact ⟨hx, hall e hx⟩
  · rw [if_neg hemp]
    have hpw : ∀ x ∈ X.filter fun x => decide (¬ P x), Within h r x ∧ h.isElem x = true ∧ ¬ P x := by
      intro x hx
      rw [List.mem_filter, decide_eq_true_eq] at hx
      exact ⟨(hX x hx.1).1, (hX x hx.1).2, hx.2⟩
    generalize hL : (X.filter fun x => decide (¬ P x)) = L at hpw hemp ⊢
    have hsub := uniqueFirst_sublist wf (fun x hx => (hpw x hx).1)
    have hwalk : ∀ x ∈ uniqueSiblingFirst h L, ∃ o, closestWalk h sel h.fuel x = .ok o ∧ ∀ e, o = some e ↔ Nearest h r P x e := by
      intro x hx
      have := hpw x (hsub.subset hx)
      exact closestWalk_ok wf hsel this.1 this.2.1 (depth_bound wf this.1)
    obtain ⟨found, hfound⟩ := flatMapR_total (f := fun x => (closestWalk h sel h.fuel x).map Option.toList)
      (l := uniqueSiblingFirst h L) (fun x hx => by
        obtain ⟨o, h1, _⟩ := hwalk x hx
        exact ⟨o.toList, by rw [h1]; rfl⟩)
    rw [hfound]
    have hmem : ∀ e, e ∈ found ↔ ∃ x ∈ L, Nearest h r P x e := by
      intro e
      rw [(flatMapR_mem hfound).2]
      constructor
      · rintro ⟨a, ha, y, hy, hey⟩
        obtain ⟨o, h1, h2⟩ := hwalk a ha
        rw [h1] at hy; cases hy
        exact ⟨a, hsub.subset ha, (h2 e).1 (by simpa using hey)⟩
      · rintro ⟨y, hy, hn⟩
        obtain ⟨z, hz, hzp⟩ := uniqueFirst_cover wf (fun x hx => (hpw x hx).1) hy
        obtain ⟨o, h1, h2⟩ := hwalk z hz
        refine ⟨z, hz, o.toList, by rw [h1]; rfl, ?_⟩
        obtain ⟨a1, a2, a3⟩ := hpw y hy
        obtain ⟨b1, b2, b3⟩ := hpw z (hsub.subset hz)
        obtain ⟨p, hpx, hp, hk⟩ := parent_inv wf a1 (elem_ne_root wf a2)
        rw [nearest_parent wf a1 hpx a3] at hn
        rw [Option.mem_toList]
        exact (h2 e).2 ((nearest_parent wf b1 (hzp.trans hpx) b3).2 hn)
    have hw : ∀ x ∈ X.filter (fun x => decide (P x)) ++ found, Within h r x := by
      intro x hx
      rcases List.mem_append.1 hx with hx | hx
      · exact (hX x (List.mem_filter.1 hx).1).1
      · obtain ⟨y, _, hn⟩ := (hmem x).1 hx
        exact hn.1
    obtain ⟨s1, s2, s3⟩ := C14_sort_and_unique wf hw
    refine ⟨_, rfl, fun e => ?_, fun _ => s2, fun _ => s1, fun _ => ⟨s1, s2⟩⟩
    rw [s3, List.mem_append, hmem, List.mem_filter, decide_eq_true_eq]
    constructor
    · rintro (⟨h1, h2⟩ | ⟨x, hx, hn⟩)
      · exact ⟨e, h1, (nearest_self wf (hX e h1).1 (hX e h1).2 h2).2 rfl⟩
      · exact ⟨x, by rw [← hL] at hx; exact (List.mem_filter.1 hx).1, hn⟩
    · rintro ⟨x, hx, hn⟩
      by_cases hP : P x
      · rw [nearest_self wf (hX x hx).1 (hX x hx).2 hP] at hn
        subst hn
        exact Or.inl ⟨hx, hP⟩
      · refine Or.inr ⟨x, ?_, hn⟩
        rw [← hL, List.mem_filter, decide_eq_true_eq]
        exact ⟨hx, hP⟩

/-! ## The walks of the `*_until` methods -/

/-- One step of a walk. -/
structure Steps (h : Heap) (r : Nat) (c : Comb) (st : Nat → Option Nat) (μ : Nat → Nat) : Prop where
  select : ∀ x, Within h r x → selectByRule h [x] allMatcher c = .ok (st x).toList
  within : ∀ x y, Within h r x → st x = some y → Within h r y
  rel : ∀ x y, Within h r x → (st x = some y ↔ h.isElem y = true ∧ Rel h r c x y)
  down : ∀ x y, Within h r x → st x = some y → μ y < μ x

omit wf in
theorem walk_ok {c : Comb} {st : Nat → Option Nat} {μ : Nat → Nat} (hs : Steps h r c st μ) {til : List Proc}
    {filt : Option (List Proc)} {U F : Nat → Bool} {contains : Bool}
    (hU : ∀ x, Within h r x → h.isElem x = true → isProcs h [x] til none = .ok (U x))
    (hF : ∀ x, Within h r x → h.isElem x = true → untilAdds h filt [x] = .ok (F x))
    {n x : Nat} (hx : Within h r x) (hn : μ x < n) :
    ∃ l, Walk h r c x l ∧ (∀ e ∈ l, Within h r e) ∧ untilWalk h c til filt contains n x = .ok (upTo U F contains l) := by
  induction n generalizing x with
  | zero => omega
  | succ n ih =>
    rw [untilWalk, hs.select x hx]
    cases hst : st x with
    | none =>
      refine ⟨[], .stop fun e he hr => ?_, by simp, ?_⟩
      · have := (hs.rel x e hx).2 ⟨he, hr⟩
        rw [hst] at this; cases this
      · simp [upTo]
    | some y =>
      obtain ⟨hye, hyr⟩ := (hs.rel x y hx).1 hst
      have hy := hs.within x y hx hst
      obtain ⟨l, h1, h2, h3⟩ := ih hy (by have := hs.down x y hx hst; omega)
      refine ⟨y :: l, .step hye hyr h1, fun e he => ?_, ?_⟩
      · rcases List.mem_cons.1 he with rfl | he
        · exact hy
        · exact h2 e he
      · simp only [Option.toList, hU y hy hye, hF y hy hye]
        cases hUy : U y with
        | true =>
          cases contains <;> cases hFy : F y <;> simp [upTo, hUy, hFy, Except.map]
        | false =>
          simp only [h3, Except.map, upTo, List.takeWhile_cons, hUy, Bool.not_false, if_true, List.find?_cons, List.cons_append,
            List.filter_cons]

theorem steps_next : Steps h r .next h.nextElem (fun x => h.size - h.index x) where
  select x hx := by simp [selectByRule, allMatcher, Matcher.apply]; cases hn : h.nextElem x <;> simp [hn]
  within x y hx hy := by
    obtain ⟨⟨p, i, j, hp, _, _, hj, _⟩, _⟩ := (mem_nextElem wf hx).1 hy
    exact .step hp (List.mem_of_getElem? hj)
  rel x y hx := by rw [mem_nextElem wf hx]; exact and_comm
  down x y hx hy := by
    have := index_pos wf (nextSib_later ((mem_nextElem wf hx).1 hy).1)
    omega

theorem steps_prev : ∃ st, Steps h r .prev st h.index := by
  refine ⟨fun x => match h.prevElem x with | .ok o => o | .error _ => none, ?_, ?_, ?_, ?_⟩
  · intro x hx
    obtain ⟨o, h1, h2⟩ := prevElem_ok wf hx
    simp only [selectByRule, flatMapR, h1, Except.map]
    simp [allMatcher, Matcher.apply]
  · intro x y hx
    obtain ⟨o, h1, h2⟩ := prevElem_ok wf hx
    simp only [h1]
    intro hy
    obtain ⟨⟨p, i, j, hp, _, hi, hj, _⟩, _⟩ := (h2 y).1 hy
    exact .step hp (List.mem_of_getElem? hi)
  · intro x y hx
    obtain ⟨o, h1, h2⟩ := prevElem_ok wf hx
    simp only [h1]
    rw [h2]
    exact and_comm
  · intro x y hx
    obtain ⟨o, h1, h2⟩ := prevElem_ok wf hx
    simp only [h1]
    intro hy
    exact (index_pos wf (nextSib_later ((h2 y).1 hy).1)).1

theorem steps_parent : Steps h r .parent (fun x => (parentsOf h [x]).head?) (fun x => (h.treeIndexs x).length) := by
  have hone : ∀ x, parentsOf h [x] = (parentsOf h [x]).head?.toList := by
    intro x
    unfold parentsOf
    simp only [List.filterMap_cons, List.filterMap_nil]
    split <;> rfl
  have hmem : ∀ x y, Within h r x → ((parentsOf h [x]).head? = some y ↔ h.isElem y = true ∧ h.parent x = some y) := by
    intro x y hx
    rw [← Option.mem_toList, ← hone, mem_parentsOf wf (by simpa using hx)]
    simp
  refine ⟨?_, ?_, ?_, ?_⟩
  · intro x hx
    have : uniqueSiblingFirst h [x] = [x] := by
      rw [uniqueSiblingFirst_eq wf (by simpa using hx)]; simp [firstBy]
    simp only [selectByRule, this]
    rw [hone]
    simp [allMatcher, Matcher.getAll]
  · intro x y hx hy
    exact (parent_some wf hx ((hmem x y hx).1 hy).2).1
  · intro x y hx
    rw [hmem x y hx]
    refine and_congr_right fun _ => ?_
    constructor
    · intro hp
      obtain ⟨h1, h2⟩ := parent_some wf hx hp
      exact ⟨h1, List.mem_of_getElem? h2⟩
    · rintro ⟨h1, h2⟩
      exact parent_of_child wf h1 h2
  · intro x y hx hy
    exact depth_child wf hx ((hmem x y hx).1 hy).2

theorem rel_parent_iff {x e : Nat} (hx : Within h r x) : Rel h r .parent x e ↔ h.parent x = some e := by
  constructor
  · rintro ⟨h1, h2⟩
    exact parent_of_child wf h1 h2
  · intro hp
    obtain ⟨h1, h2⟩ := parent_some wf hx hp
    exact ⟨h1, List.mem_of_getElem? h2⟩

theorem walk_parent_congr {x z : Nat} {l : List Nat} (hx : Within h r x) (hz : Within h r z) (hp : h.parent x = h.parent z)
    (hw : Walk h r .parent x l) : Walk h r .parent z l := by
  cases hw with
  | stop hs => exact .stop fun e he hr => hs e he ((rel_parent_iff wf hx).2 (hp.trans ((rel_parent_iff wf hz).1 hr)))
  | step he hr hw => exact .step he ((rel_parent_iff wf hz).2 (hp.symm.trans ((rel_parent_iff wf hx).1 hr))) hw

/-- There is one walk upwards from a node. -/
theorem walk_unique {x : Nat} {l m : List Nat} (hx : Within h r x) (hl : Walk h r .parent x l) (hm : Walk h r .parent x m) :
    l = m := by
  induction hl generalizing m with
  | stop hs =>
    cases hm with
    | stop _ => rfl
    | step he hr _ => exact absurd hr (hs _ he)
  | step he hr _ ih =>
    cases hm with
    | stop hs => exact absurd hr (hs _ he)
    | step he' hr' hw' =>
      have h1 := (rel_parent_iff wf hx).1 hr
      have h2 := (rel_parent_iff wf hx).1 hr'
      rw [h1] at h2; cases h2
      rw [ih (parent_some wf hx h1).1 hw']

end Visdom
