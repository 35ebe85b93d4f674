import Verif.Proofs.Walks
import Verif.Props.Navigate
/-!
# C27: closest; C45: next_until, prev_until, parents_until

`Nearest`, `Walk` and `upTo` are in Spec/Walk.lean; `anySat h r env sel x` says that `x` is selected from the root of the
document by one of the complex selectors. Excluded are selectors that the parser rearranges to search from the middle
(`looked`): these methods then ignore the part before the middle (`C27_fails_lookup`, `C45_fails_lookup`).
-/
namespace Visdom
open Spec Classical
variable {h : Heap} {r : Nat} {env : Env}

/-- The selectors for which a single element is tested as documented. -/
def TestOk (h : Heap) (r : Nat) (env : Env) (sel : List Complex) : Prop :=
  innersOk h r env true .doc sel ∧ ∀ cx ∈ sel, looked cx = false

/-- C27: `closest` returns exactly the nearest inclusive ancestors that match. A set without repetition gives a result
without repetition, a set in document order one in document order; and if some member does not match itself the result
is in document order without repetition whatever the set. -/
theorem C27_closest_partial (wf : TreeWF h r) (ev : Metas h r) {sel : List Complex} (hok : TestOk h r env sel)
    {X : List Nat} (hX : Elems h r X) :
    ∃ res, closestQ h env X (some sel) = .ok res ∧ (∀ e, e ∈ res ↔ ∃ x ∈ X, Nearest h r (anySat h r env sel) x e) ∧
      (X.Nodup → res.Nodup) ∧ (DocSorted h r X → DocSorted h r res) ∧
      ((∃ x ∈ X, ¬ anySat h r env sel x) → DocSorted h r res ∧ res.Nodup) :=
  closest_good wf (fun _ hx he => isProcs_one wf ev hok.1 hok.2 hx he) hX

/-! ## The until methods -/

/-- What the filter of an until method lets through. -/
noncomputable def keeps (h : Heap) (r : Nat) (env : Env) : Option (List Complex) → Nat → Bool
  | none, _ => true
  | some f, x => decide (anySat h r env f x)

theorem untilAdds_one (wf : TreeWF h r) (ev : Metas h r) {f : Option (List Complex)} (hf : ∀ s, f = some s → TestOk h r env s)
    {x : Nat} (hx : Within h r x) (he : h.isElem x = true) :
    untilAdds h (f.map (findSel h env)) [x] = .ok (keeps h r env f x) := by
  cases f with
  | none => rfl
  | some s => exact isProcs_one wf ev (hf s rfl).1 (hf s rfl).2 hx he

/-- What an until method keeps of a walk. -/
noncomputable def untilOf (h : Heap) (r : Nat) (env : Env) (u : List Complex) (f : Option (List Complex)) (including : Bool)
    (l : List Nat) : List Nat := upTo (fun x => decide (anySat h r env u x)) (keeps h r env f) including l

theorem until_set {c : Comb} {st : Nat → Option Nat} {μ : Nat → Nat} (wf : TreeWF h r) (ev : Metas h r)
    (hs : Steps h r c st μ) (hμ : ∀ x, Within h r x → μ x < h.fuel)
    {u : List Complex} {f : Option (List Complex)} (hu : TestOk h r env u) (hf : ∀ s, f = some s → TestOk h r env s)
    (b : Bool) {X : List Nat} (hX : ∀ x ∈ X, Within h r x) :
    ∃ w : Nat → List Nat, (∀ x ∈ X, Walk h r c x (w x) ∧ ∀ e ∈ w x, Within h r e) ∧
      selectUntil h X c (findSel h env u) (f.map (findSel h env)) b = .ok (X.flatMap fun x => untilOf h r env u f b (w x)) := by
  have key : ∀ x ∈ X, ∃ l, (Walk h r c x l ∧ ∀ e ∈ l, Within h r e) ∧
      untilWalk h c (findSel h env u) (f.map (findSel h env)) b h.fuel x = .ok (untilOf h r env u f b l) := by
    intro x hx
    obtain ⟨l, h1, h2, h3⟩ := walk_ok hs (contains := b) (fun _ hx he => isProcs_one wf ev hu.1 hu.2 hx he)
      (fun _ hx he => untilAdds_one wf ev hf hx he) (hX x hx) (hμ x (hX x hx))
    exact ⟨l, ⟨h1, h2⟩, h3⟩
  refine ⟨fun x => if hx : x ∈ X then (key x hx).choose else [], fun x hx => ?_, ?_⟩
  · simp only [dif_pos hx]; exact (key x hx).choose_spec.1
  · refine flatMapR_ok fun x hx => ?_
    simp only [dif_pos hx]; exact (key x hx).choose_spec.2

theorem next_fuel (x : Nat) : h.size - h.index x < h.fuel := by unfold Heap.fuel; omega

theorem prev_fuel (wf : TreeWF h r) {x : Nat} (hx : Within h r x) (hne : x ≠ r) : h.index x < h.fuel := by
  obtain ⟨p, hp, hw, hk⟩ := parent_inv wf hx hne
  have h1 := index_lt wf hx hp
  have h2 := kids_length wf hw
  unfold Heap.fuel
  omega

/-- C45: `next_until` from one element. -/
theorem C45_next_until_partial (wf : TreeWF h r) (ev : Metas h r) {u : List Complex} {f : Option (List Complex)}
    (hu : TestOk h r env u) (hf : ∀ s, f = some s → TestOk h r env s) (b : Bool) {x : Nat} (hx : Within h r x) :
    ∃ l, Walk h r .next x l ∧ nextUntilQ h env [x] u f b = .ok (untilOf h r env u f b l) := by
  have hX : ∀ y ∈ [x], Within h r y := by simpa using hx
  obtain ⟨w, h1, h2⟩ := until_set wf ev (steps_next wf) (fun x _ => next_fuel x) hu hf b hX
  refine ⟨w x, (h1 x (by simp)).1, ?_⟩
  unfold nextUntilQ nextUntil
  rw [uniqueSiblingFirst_eq wf hX]
  simp only [firstBy, List.not_mem_nil, if_false]
  rw [h2]
  simp

/-- C45: `prev_until` from one element; the result is in document order, that is the walk backwards. -/
theorem C45_prev_until_partial (wf : TreeWF h r) (ev : Metas h r) {u : List Complex} {f : Option (List Complex)}
    (hu : TestOk h r env u) (hf : ∀ s, f = some s → TestOk h r env s) (b : Bool) {x : Nat} (hx : Within h r x)
    (he : h.isElem x = true) :
    ∃ l, Walk h r .prev x l ∧ prevUntilQ h env [x] u f b = .ok (untilOf h r env u f b l).reverse := by
  obtain ⟨st, hst⟩ := steps_prev wf
  obtain ⟨l, h1, h2, h3⟩ := walk_ok hst (contains := b) (fun _ hx he => isProcs_one wf ev hu.1 hu.2 hx he)
    (fun _ hx he => untilAdds_one wf ev hf hx he) hx (prev_fuel wf hx (elem_ne_root wf he))
  refine ⟨l, h1, ?_⟩
  unfold prevUntilQ prevUntil
  rw [uniqueSiblingLast_eq wf (by simpa using hx)]
  simp only [List.reverse_singleton, firstBy, List.not_mem_nil, if_false, selectUntil, flatMapR, h3, Except.map, List.append_nil,
    Except.ok.injEq]
  split
  · rfl
  · rename_i hlen
    rw [← untilOf] at hlen ⊢
    generalize untilOf h r env u f b l = m at hlen
    match m, hlen with
    | [], _ => rfl
    | [a], _ => rfl
    | _ :: _ :: _, hlen => simp at hlen

/-- C45: `parents_until` from any set of nodes: in document order, exactly what the walks from the members give. -/
theorem C45_parents_until_partial (wf : TreeWF h r) (ev : Metas h r) {u : List Complex} {f : Option (List Complex)}
    (hu : TestOk h r env u) (hf : ∀ s, f = some s → TestOk h r env s) (b : Bool) {X : List Nat} (hX : ∀ x ∈ X, Within h r x) :
    ∃ res, parentsUntilQ h env X u f b = .ok res ∧ DocSorted h r res ∧
      ∀ e, e ∈ res ↔ ∃ x ∈ X, ∃ l, Walk h r .parent x l ∧ e ∈ untilOf h r env u f b l := by
  have hsub := uniqueFirst_sublist wf hX
  have hU : ∀ x ∈ uniqueSiblingFirst h X, Within h r x := fun x hx => hX x (hsub.subset hx)
  obtain ⟨w, h1, h2⟩ := until_set wf ev (steps_parent wf) (fun x hx => depth_bound wf hx) hu hf b hU
  have hmem : ∀ l e, e ∈ untilOf h r env u f b l → e ∈ l := by
    intro l e he
    unfold untilOf upTo at he
    rcases List.mem_append.1 (List.mem_filter.1 he).1 with hh | hh
    · exact (List.takeWhile_sublist _).subset hh
    · split at hh
      · rw [Option.mem_toList] at hh; exact List.mem_of_find?_eq_some hh
      · cases hh
  have hw : ∀ e ∈ (uniqueSiblingFirst h X).flatMap fun x => untilOf h r env u f b (w x), Within h r e := by
    intro e he
    obtain ⟨x, hx, he⟩ := List.mem_flatMap.1 he
    exact (h1 x hx).2 e (hmem _ _ he)
  obtain ⟨s1, _, s3⟩ := C14_sort_and_unique wf hw
  refine ⟨_, by unfold parentsUntilQ parentsUntil; rw [h2]; rfl, s1, fun e => ?_⟩
  rw [s3, List.mem_flatMap]
  constructor
  · rintro ⟨x, hx, he⟩; exact ⟨x, hsub.subset hx, w x, (h1 x hx).1, he⟩
  · rintro ⟨x, hx, l, hl, he⟩
    obtain ⟨z, hz, hzp⟩ := uniqueFirst_cover wf hX hx
    refine ⟨z, hz, ?_⟩
    have : Walk h r .parent z l := walk_parent_congr wf (hX x hx) (hU z hz) hzp.symm hl
    rw [walk_unique wf (hU z hz) (h1 z hz).1 this]
    exact he

theorem firstBy_spec (X : List Nat) : FirstOfParent h X (firstBy h.parent [] X) :=
  ⟨firstBy_sublist _ _, firstBy_pairwise _ _, fun x hx => firstBy_cover hx (by simp)⟩

/-- C45: `next_until` from any set: the walks from the first members with each parent, one after the other. -/
theorem C45_next_until_any_partial (wf : TreeWF h r) (ev : Metas h r) {u : List Complex} {f : Option (List Complex)}
    (hu : TestOk h r env u) (hf : ∀ s, f = some s → TestOk h r env s) (b : Bool) {X : List Nat} (hX : ∀ x ∈ X, Within h r x) :
    ∃ (U : List Nat) (w : Nat → List Nat), FirstOfParent h X U ∧ (∀ x ∈ U, Walk h r .next x (w x)) ∧
      nextUntilQ h env X u f b = .ok (U.flatMap fun x => untilOf h r env u f b (w x)) := by
  have hsub : (firstBy h.parent [] X).Sublist X := firstBy_sublist _ _
  obtain ⟨w, h1, h2⟩ := until_set wf ev (steps_next wf) (fun x _ => next_fuel x) hu hf b fun x hx => hX x (hsub.subset hx)
  refine ⟨_, w, firstBy_spec X, fun x hx => (h1 x hx).1, ?_⟩
  unfold nextUntilQ nextUntil
  rw [uniqueSiblingFirst_eq wf hX, h2]

/-- C45: `prev_until` from any set of elements: the walks from the last members with each parent, one after the other, as a whole reversed. -/
theorem C45_prev_until_any_partial (wf : TreeWF h r) (ev : Metas h r) {u : List Complex} {f : Option (List Complex)}
    (hu : TestOk h r env u) (hf : ∀ s, f = some s → TestOk h r env s) (b : Bool) {X : List Nat} (hX : Elems h r X) :
    ∃ (U : List Nat) (w : Nat → List Nat), FirstOfParent h X.reverse U.reverse ∧ (∀ x ∈ U, Walk h r .prev x (w x)) ∧
      prevUntilQ h env X u f b = .ok (U.flatMap fun x => untilOf h r env u f b (w x)).reverse := by
  obtain ⟨st, hst⟩ := steps_prev wf
  have hsub : ∀ x ∈ (firstBy h.parent [] X.reverse).reverse, x ∈ X := fun x hx =>
    List.mem_reverse.1 ((firstBy_sublist _ _).subset (List.mem_reverse.1 hx))
  have key : ∀ x ∈ (firstBy h.parent [] X.reverse).reverse, ∃ l, Walk h r .prev x l ∧
      untilWalk h .prev (findSel h env u) (f.map (findSel h env)) b h.fuel x = .ok (untilOf h r env u f b l) := by
    intro x hx
    obtain ⟨l, h1, _, h3⟩ := walk_ok hst (contains := b) (fun _ hx he => isProcs_one wf ev hu.1 hu.2 hx he)
      (fun _ hx he => untilAdds_one wf ev hf hx he) (hX x (hsub x hx)).1
      (prev_fuel wf (hX x (hsub x hx)).1 (elem_ne_root wf (hX x (hsub x hx)).2))
    exact ⟨l, h1, h3⟩
  generalize hU : (firstBy h.parent [] X.reverse).reverse = U at key
  refine ⟨U, fun x => if hx : x ∈ U then (key x hx).choose else [], ?_, fun x hx => ?_, ?_⟩
  · rw [← hU, List.reverse_reverse]; exact firstBy_spec _
  · simp only [dif_pos hx]; exact (key x hx).choose_spec.1
  · unfold prevUntilQ prevUntil
    rw [uniqueSiblingLast_eq wf fun x hx => (hX x hx).1, hU]
    unfold selectUntil
    rw [flatMapR_ok (g := fun x => untilOf h r env u f b (if hx : x ∈ U then (key x hx).choose else []))]
    · simp only [Except.map, Except.ok.injEq]
      split
      · rfl
      · rename_i hlen
        generalize U.flatMap _ = m at hlen ⊢
        match m, hlen with
        | [], _ => rfl
        | [a], _ => rfl
        | _ :: _ :: _, hlen => simp at hlen
    · intro x hx
      simp only [dif_pos hx]; exact (key x hx).choose_spec.2

/-- A set no two members of which are siblings is kept as it is. -/
theorem firstOfParent_self {X U : List Nat} (hp : X.Pairwise fun x y => h.parent x ≠ h.parent y) (hU : FirstOfParent h X U) : U = X := by
  obtain ⟨h1, _, h3⟩ := hU
  refine h1.eq_of_length_le ?_
  have hn : X.Nodup := hp.imp fun hxy e => hxy (congrArg _ e)
  have hsub : X ⊆ U := by
    intro x hx
    obtain ⟨l, z, l', he, hz, hk, _⟩ := h3 x hx
    have hzX : z ∈ X := h1.subset hz
    by_cases hzx : z = x
    · exact hzx ▸ hz
    · exact absurd hk ((haveI : Std.Symm fun x y => h.parent x ≠ h.parent y := ⟨fun _ _ => Ne.symm⟩; hp.forall hzX hx hzx))
  exact (hn.subperm hsub).length_le

/-- C45: `next_until` from a set no two members of which are siblings: the walks one after the other. -/
theorem C45_next_until_set_partial (wf : TreeWF h r) (ev : Metas h r) {u : List Complex} {f : Option (List Complex)}
    (hu : TestOk h r env u) (hf : ∀ s, f = some s → TestOk h r env s) (b : Bool) {X : List Nat} (hX : ∀ x ∈ X, Within h r x)
    (hp : X.Pairwise fun x y => h.parent x ≠ h.parent y) :
    ∃ w : Nat → List Nat, (∀ x ∈ X, Walk h r .next x (w x)) ∧
      nextUntilQ h env X u f b = .ok (X.flatMap fun x => untilOf h r env u f b (w x)) := by
  obtain ⟨U, w, h1, h2, h3⟩ := C45_next_until_any_partial wf ev hu hf b hX
  rw [firstOfParent_self hp h1] at h2 h3
  exact ⟨w, h2, h3⟩

/-- C45: `prev_until` from a set no two members of which are siblings: the walks one after the other, as a whole reversed. -/
theorem C45_prev_until_set_partial (wf : TreeWF h r) (ev : Metas h r) {u : List Complex} {f : Option (List Complex)}
    (hu : TestOk h r env u) (hf : ∀ s, f = some s → TestOk h r env s) (b : Bool) {X : List Nat} (hX : Elems h r X)
    (hp : X.Pairwise fun x y => h.parent x ≠ h.parent y) :
    ∃ w : Nat → List Nat, (∀ x ∈ X, Walk h r .prev x (w x)) ∧
      prevUntilQ h env X u f b = .ok (X.flatMap fun x => untilOf h r env u f b (w x)).reverse := by
  obtain ⟨U, w, h1, h2, h3⟩ := C45_prev_until_any_partial wf ev hu hf b hX
  have := firstOfParent_self (by rw [List.pairwise_reverse]; exact hp.imp fun h => h.symm) h1
  rw [List.reverse_inj.1 this] at h2 h3
  exact ⟨w, h2, h3⟩

/-! ## Instances and counterexamples -/

theorem basic_testOk {sel : List Complex} (hb : ∀ cx ∈ sel, BasicTest cx) (hl : ∀ cx ∈ sel, looked cx = false)
    (hr : ∀ cx ∈ sel, 2 ≤ cx.length → Roots h r) : TestOk h r env sel := ⟨basicTest_innersOk hb hr, hl⟩

theorem ty_testOk (n : String) : TestOk h r env (sel1 (ty n)) :=
  ⟨sel1_innersOk (basic_ok (by simp [ty, Sim.basic]) _ _), fun cx hcx => by
    rw [sel1, List.mem_singleton] at hcx; subst hcx; simp [looked, heaviest_one]⟩

example : Elems demo 0 [7, 9, 2] ∧ TestOk demo 0 env0 (sel1 (ty "div")) ∧
    closestQ demo env0 [7, 9, 2] (some (sel1 (ty "div"))) = .ok [1, 5] ∧
    closestQ demo env0 [5, 1] (some (sel1 (ty "div"))) = .ok [5, 1] :=
  ⟨fun x hx => by
    have := demo_nodes (l := [7, 9, 2]) (by decide) x hx
    exact ⟨this.1, this.2.resolve_right (by rintro rfl; revert hx; decide)⟩, ty_testOk _, by decide, by decide⟩

example : Within row 0 5 ∧ row.isElem 5 = true ∧
    nextUntilQ row env0 [2] (sel1 (ty "i")) none false = .ok [3, 4] ∧
    nextUntilQ row env0 [2] (sel1 (ty "i")) (some (sel1 (ty "p"))) false = .ok [4] ∧
    nextUntilQ row env0 [2] (sel1 (ty "i")) none true = .ok [3, 4, 5] ∧
    prevUntilQ row env0 [5] (sel1 (ty "u")) none true = .ok [2, 3, 4] ∧
    prevUntilQ row env0 [5] (sel1 (ty "b")) none false = .ok [4] ∧
    parentsUntilQ nest env0 [5, 6] (sel1 (ty "b")) (some (sel1 (ty "div"))) false = .ok [1, 2, 3] ∧
    prevUntilQ demo env0 [5, 7] (sel1 (ty "b")) none false = .ok [6, 2] ∧ [5, 7].Pairwise fun x y => demo.parent x ≠ demo.parent y :=
  ⟨wfCheck_within [0, 1] (by decide) rfl, by decide, by decide, by decide, by decide, by decide, by decide, by decide, by decide,
    by decide⟩

example : FirstOfParent row [3, 2, 5] [3] ∧ nextUntilQ row env0 [3, 2, 5] (sel1 (ty "i")) none false = .ok [4] ∧
    FirstOfParent row [5, 2, 3] [5] ∧ prevUntilQ row env0 [3, 2, 5] (sel1 (ty "u")) none false = .ok [2, 3, 4] := by
  refine ⟨⟨by decide, by decide, ?_⟩, by decide, ⟨by decide, by decide, ?_⟩, by decide⟩
  · intro x hx
    refine ⟨[], 3, [2, 5], rfl, by decide, ?_, by simp⟩
    revert hx; revert x; decide
  · intro x hx
    refine ⟨[], 5, [2, 3], rfl, by decide, ?_, by simp⟩
    revert hx; revert x; decide

/-- `ul p:empty` -/
def ulpEmpty : List Complex := [[(.childrenAll, [ty "ul"]), (.childrenAll, [ty "p", .empty])]]

/-- The part before the heaviest compound is ignored: `closest("ul p:empty")` returns a `p` outside of any `ul`. -/
theorem C27_fails_lookup : closestQ demo env0 [6] (some ulpEmpty) = .ok [6] ∧ isQ demo env0 [6] ulpEmpty = .ok false := by decide

/-- A repeated member that matches itself is repeated in the result. -/
theorem C27_fails_repeated : closestQ demo env0 [1, 1] (some (sel1 (ty "div"))) = .ok [1, 1] := by decide

/-- C27 is false as stated for sets that hold something other than an element: `closest` of a class or attribute test
panics there. -/
theorem C27_fails_root {s : Sim} (hs : AsksAttr s) {x : Nat} (hx : h.isElem x = false) {X : List Nat} (hm : x ∈ X) :
    ∃ e, closestQ h env X (some (sel1 s)) = .error e := by
  obtain ⟨e, he⟩ := asksAttr_error (env := env) hs hx (X := [x]) (by simp) true none
  have h1 : isProcs h [x] (findSel h env (sel1 s)) none = .error e := by
    show isProcs h [x] [optimizeGroup true (cplxCmpds h env [(.childrenAll, [s])])] none = .error e
    simp only [isProcs, he]
  obtain ⟨e', he'⟩ := filterR_error (f := fun y => isProcs h [y] (findSel h env (sel1 s)) none) h1 hm
  exact ⟨e', by simp only [closestQ, closest, Option.map_some, he']⟩

example : closestQ demo env0 [0] (some (sel1 (.attr "id".toList))) = .error .unwrapNone ∧
    closestQ demo env0 [0] (some (sel1 (ty "div"))) = .ok [] := by decide

/-- As for `closest`: `prev_until("ul p:empty")` stops at a `p` outside of any `ul`. -/
theorem C45_fails_lookup : prevUntilQ demo env0 [7] ulpEmpty none false = .ok [] ∧ isQ demo env0 [6] ulpEmpty = .ok false ∧
    prevUntilQ demo env0 [7] (sel1 (ty "ul")) none false = .ok [6] := by decide

/-- Of siblings in the set only the first is walked from, though the walk from a later one gives more. -/
theorem C45_fails_siblings : nextUntilQ row env0 [2, 3] (sel1 (ty "b")) none false = .ok [] ∧
    nextUntilQ row env0 [3] (sel1 (ty "b")) none false = .ok [4, 5] := by decide

end Visdom
