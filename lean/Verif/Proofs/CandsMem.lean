import Verif.Proofs.Cands
/-!
# What the candidates are, and in which order
-/
namespace Visdom
open Spec

variable {h : Heap} {r : Nat}

theorem firstAsc_cover {l : List Nat} {y : Nat} (hy : y ∈ l) (hs : FirstAsc h [] l) :
    ∃ z ∈ firstBy h.parent [] l, h.parent z = h.parent y ∧ h.index z ≤ h.index y := by
  obtain ⟨l1, z, l2, h1, h2, h3, h4⟩ := firstBy_cover (key := h.parent) (seen := []) hy (by simp)
  refine ⟨z, h2, h3, ?_⟩
  rw [h1] at hs hy
  exact hs.head_min hy h3.symm h4 (by simp)

theorem sibAsc_last_cover {l : List Nat} {y : Nat} (hy : y ∈ l) (hs : SibAsc h l) :
    ∃ z ∈ firstBy h.parent [] l.reverse, h.parent z = h.parent y ∧ h.index y ≤ h.index z := by
  obtain ⟨l1, z, l2, h1, h2, h3, h4⟩ := firstBy_cover (key := h.parent) (seen := []) (List.mem_reverse.2 hy) (by simp)
  refine ⟨z, h2, h3, ?_⟩
  have hl : l = l2.reverse ++ z :: l1.reverse := by
    have := congrArg List.reverse h1
    simpa using this
  rw [hl] at hs hy
  rcases List.mem_append.1 hy with h5 | h5
  · have := (List.pairwise_append.1 hs).2.2 y h5 z List.mem_cons_self h3.symm
    omega
  · rcases List.mem_cons.1 h5 with rfl | h5
    · exact Nat.le_refl _
    · exact absurd rfl (h4 y (List.mem_reverse.1 h5))

theorem parentsOf_nodup {l : List Nat} (hl : l.Pairwise fun a b => h.parent a ≠ h.parent b) : (parentsOf h l).Nodup := by
  unfold parentsOf
  induction l with
  | nil => exact List.nodup_nil
  | cons x l ih =>
    obtain ⟨h1, h2⟩ := List.pairwise_cons.1 hl
    rw [List.filterMap_cons]
    split
    · exact ih h2
    · rename_i p hp
      refine List.nodup_cons.2 ⟨?_, ih h2⟩
      intro hm
      obtain ⟨y, hy, hye⟩ := List.mem_filterMap.1 hm
      have key : ∀ z q, ((h.parent z).bind fun p => if h.isRoot p then none else some p) = some q → h.parent z = some q := by
        intro z q hz
        cases hpz : h.parent z with
        | none => rw [hpz] at hz; cases hz
        | some w =>
          rw [hpz] at hz
          simp only [Option.bind_some] at hz
          split at hz
          · cases hz
          · exact hz
      exact h1 y hy ((key x p hp).trans (key y p hye).symm)

variable (wf : TreeWF h r)
include wf

theorem laterSib_iff {x e p : Nat} (hx : Within h r x) (hp : h.parent x = some p) :
    LaterSib h r x e ↔ ∃ j : Nat, h.index x < j ∧ (h.kids p)[j]? = some e := by
  obtain ⟨hpw, hi⟩ := parent_some wf hx hp
  constructor
  · rintro ⟨q, i, j, hq, hij, hi', hj⟩
    obtain ⟨k1, k2⟩ := wf.link _ _ _ hq hi'
    rw [hp] at k1
    obtain rfl : p = q := by simpa using k1
    subst k2
    exact ⟨j, hij, hj⟩
  · rintro ⟨j, hij, hj⟩
    exact ⟨p, _, j, hpw, hij, hi, hj⟩

theorem laterSib_index {x e : Nat} : LaterSib h r x e ↔
    Within h r x ∧ Within h r e ∧ (∃ p, h.parent x = some p ∧ h.parent e = some p) ∧ h.index x < h.index e := by
  constructor
  · rintro ⟨p, i, j, hp, hij, hi, hj⟩
    obtain ⟨h1, h2⟩ := wf.link _ _ _ hp hi
    obtain ⟨h3, h4⟩ := wf.link _ _ _ hp hj
    exact ⟨.step hp (List.mem_of_getElem? hi), .step hp (List.mem_of_getElem? hj), ⟨p, h1, h3⟩, by omega⟩
  · rintro ⟨hx, he, ⟨p, h1, h2⟩, hlt⟩
    obtain ⟨hp, hi⟩ := parent_some wf hx h1
    obtain ⟨_, hj⟩ := parent_some wf he h2
    exact ⟨p, _, _, hp, hlt, hi, hj⟩

theorem nextSib_index {x e : Nat} : NextSib h r x e ↔
    LaterSib h r x e ∧ ∀ z, LaterSib h r x z → LaterSib h r z e → h.isElem z = false := by
  constructor
  · rintro ⟨p, i, j, hp, hij, hi, hj, hk⟩
    refine ⟨⟨p, i, j, hp, hij, hi, hj⟩, ?_⟩
    intro z hz1 hz2
    obtain ⟨_, hzw, ⟨q, h1, h2⟩, hlt⟩ := (laterSib_index wf).1 hz1
    obtain ⟨_, _, _, hlt2⟩ := (laterSib_index wf).1 hz2
    obtain ⟨k1, k2⟩ := wf.link _ _ _ hp hi
    obtain ⟨k3, k4⟩ := wf.link _ _ _ hp hj
    rw [h1] at k1
    obtain rfl : q = p := by simpa using k1
    exact hk (h.index z) z (by omega) (by omega) (parent_some wf hzw h2).2
  · rintro ⟨⟨p, i, j, hp, hij, hi, hj⟩, hz⟩
    refine ⟨p, i, j, hp, hij, hi, hj, ?_⟩
    intro k z h1 h2 hk
    exact hz z ⟨p, i, k, hp, h1, hi, hk⟩ ⟨p, k, j, hp, h2, hk, hj⟩

theorem sib_eq {x y p : Nat} (hx : Within h r x) (hy : Within h r y) (h1 : h.parent x = some p)
    (h2 : h.parent y = some p) (hi : h.index x = h.index y) : x = y := by
  have k1 := (parent_some wf hx h1).2
  have k2 := (parent_some wf hy h2).2
  rw [hi, k2] at k1
  simpa using k1.symm

/-- An earlier sibling has an earlier next element. -/
theorem nextSib_lt {x y x' y' : Nat} (hx : NextSib h r x x') (hy : NextSib h r y y') (hey : h.isElem y = true)
    (hp : h.parent x = h.parent y) (hlt : h.index x < h.index y) : h.index x' < h.index y' := by
  rw [nextSib_index wf] at hx hy
  obtain ⟨hx1, hx2⟩ := hx
  obtain ⟨a1, a2, ⟨p, a3, a4⟩, a5⟩ := (laterSib_index wf).1 hx1
  obtain ⟨b1, b2, ⟨q, b3, b4⟩, b5⟩ := (laterSib_index wf).1 hy.1
  rw [a3, b3] at hp
  obtain rfl : p = q := by simpa using hp
  by_contra hge
  have h1 : LaterSib h r x y := (laterSib_index wf).2 ⟨a1, b1, ⟨p, a3, b3⟩, hlt⟩
  have h2 : LaterSib h r y x' := (laterSib_index wf).2 ⟨b1, a2, ⟨p, b3, a4⟩, by omega⟩
  rw [hx2 y h1 h2] at hey
  cases hey

theorem nextSib_unique {x y z : Nat} (hy : NextSib h r x y) (hz : NextSib h r x z) (hey : h.isElem y = true)
    (hez : h.isElem z = true) : y = z := by
  rw [nextSib_index wf] at hy hz
  obtain ⟨a1, a2, ⟨p, a3, a4⟩, a5⟩ := (laterSib_index wf).1 hy.1
  obtain ⟨b1, b2, ⟨q, b3, b4⟩, b5⟩ := (laterSib_index wf).1 hz.1
  rw [a3] at b3
  obtain rfl : p = q := by simpa using b3
  rcases Nat.lt_trichotomy (h.index y) (h.index z) with h1 | h1 | h1
  · have := hz.2 y hy.1 ((laterSib_index wf).2 ⟨a2, b2, ⟨p, a4, b4⟩, h1⟩)
    rw [hey] at this; cases this
  · exact sib_eq wf a2 b2 a4 b4 h1
  · have := hy.2 z hz.1 ((laterSib_index wf).2 ⟨b2, a2, ⟨p, b4, a4⟩, h1⟩)
    rw [hez] at this; cases this

/-- A later next element belongs to a later sibling. -/
theorem nextSib_lt_inv {x y x' y' : Nat} (hx : NextSib h r x x') (hy : NextSib h r y y')
    (hex' : h.isElem x' = true) (hey' : h.isElem y' = true) (hex : h.isElem x = true)
    (hp : h.parent x' = h.parent y') (hlt : h.index y' < h.index x') :
    h.parent x = h.parent y ∧ h.index y < h.index x := by
  obtain ⟨a1, a2, ⟨p, a3, a4⟩, a5⟩ := (laterSib_index wf).1 (nextSib_later hx)
  obtain ⟨b1, b2, ⟨q, b3, b4⟩, b5⟩ := (laterSib_index wf).1 (nextSib_later hy)
  rw [a4, b4] at hp
  obtain rfl : p = q := by simpa using hp
  refine ⟨a3.trans b3.symm, ?_⟩
  rcases Nat.lt_trichotomy (h.index y) (h.index x) with h1 | h1 | h1
  · exact h1
  · have := sib_eq wf b1 a1 b3 a3 h1
    subst this
    have := nextSib_unique wf hx hy hex' hey'
    subst this
    omega
  · exfalso
    -- `y'` lies after `y`, so after `x`; and before `x'`
    rw [nextSib_index wf] at hx
    have := hx.2 y' ((laterSib_index wf).2 ⟨a1, b2, ⟨p, a3, b4⟩, by omega⟩)
      ((laterSib_index wf).2 ⟨b2, a2, ⟨p, b4, a4⟩, hlt⟩)
    rw [hey'] at this; cases this

/-- An earlier sibling has an earlier previous element. -/
theorem prevSib_lt {x y x' y' : Nat} (hx : NextSib h r x' x) (hy : NextSib h r y' y) (hex : h.isElem x = true)
    (hp : h.parent x = h.parent y) (hlt : h.index x < h.index y) : h.index x' < h.index y' := by
  rw [nextSib_index wf] at hx hy
  obtain ⟨a1, a2, ⟨p, a3, a4⟩, a5⟩ := (laterSib_index wf).1 hx.1
  obtain ⟨b1, b2, ⟨q, b3, b4⟩, b5⟩ := (laterSib_index wf).1 hy.1
  rw [a4, b4] at hp
  obtain rfl : p = q := by simpa using hp
  by_contra hge
  have h1 : LaterSib h r y' x := (laterSib_index wf).2 ⟨b1, a2, ⟨p, b3, a4⟩, by omega⟩
  have h2 : LaterSib h r x y := (laterSib_index wf).2 ⟨a2, b2, ⟨p, a4, b4⟩, hlt⟩
  rw [hy.2 x h1 h2] at hex
  cases hex

/-- The members of `l` are elements of the tree, or its root. -/
def Nodes (h : Heap) (r : Nat) (l : List Nat) : Prop := ∀ x ∈ l, Within h r x ∧ (h.isElem x = true ∨ x = r)

omit wf in
theorem Elems.nodes {l : List Nat} (hl : Elems h r l) : Nodes h r l := fun x hx => ⟨(hl x hx).1, Or.inl (hl x hx).2⟩
omit wf in
theorem Nodes.within {l : List Nat} (hl : Nodes h r l) : ∀ x ∈ l, Within h r x := fun x hx => (hl x hx).1

theorem Nodes.elem_of_sib {l : List Nat} (hl : Nodes h r l) {x y : Nat} (hx : x ∈ l)
    (hs : LaterSib h r x y ∨ LaterSib h r y x) : h.isElem x = true := by
  rcases (hl x hx).2 with h1 | rfl
  · exact h1
  · exfalso
    rcases hs with ⟨p, i, j, hp, _, hi, _⟩ | ⟨p, i, j, hp, _, _, hi⟩
    · exact absurd rfl (child_ne_root wf hp (List.mem_of_getElem? hi))
    · exact absurd rfl (child_ne_root wf hp (List.mem_of_getElem? hi))

/-! ## Members -/

theorem mem_parentsOf {l : List Nat} (hl : ∀ x ∈ l, Within h r x) (e : Nat) :
    e ∈ parentsOf h l ↔ h.isElem e = true ∧ ∃ y ∈ l, h.parent y = some e := by
  constructor
  · intro he
    refine ⟨(parentsOf_elems wf hl e he).2, ?_⟩
    unfold parentsOf at he
    obtain ⟨y, hy, hye⟩ := List.mem_filterMap.1 he
    refine ⟨y, hy, ?_⟩
    cases hp : h.parent y with
    | none => rw [hp] at hye; cases hye
    | some q =>
      rw [hp] at hye
      simp only [Option.bind_some] at hye
      split at hye
      · cases hye
      · exact hye
  · rintro ⟨he, y, hy, hp⟩
    unfold parentsOf
    rw [List.mem_filterMap]
    refine ⟨y, hy, ?_⟩
    rw [hp]
    have hw := (parent_some wf (hl y hy) hp).1
    have : h.isRoot e = false := by
      rw [Bool.eq_false_iff]; intro e'; exact elem_ne_root wf he ((isRoot_iff wf hw).1 e')
    simp [this]

theorem rel_parent {y e : Nat} (hy : Within h r y) : Rel h r .parent y e ↔ h.parent y = some e := by
  constructor
  · rintro ⟨he, hm⟩
    exact parent_of_child wf he hm
  · intro hp
    obtain ⟨h1, h2⟩ := parent_some wf hy hp
    exact ⟨h1, List.mem_of_getElem? h2⟩

/-- The condition on the order of the list needed for the candidates of a combinator to be complete. -/
def OrderOk (h : Heap) (c : Comb) (l : List Nat) : Prop :=
  match c with
  | .nextAll => FirstAsc h [] l
  | .prevAll => SibAsc h l
  | .siblings => ∃ x, l = [x]
  | _ => True

theorem cands_mem {c : Comb} {l cs : List Nat} (hl : Nodes h r l) (ho : OrderOk h c l)
    (hchain : c = .chain → Elems h r l) (hc : cands h c l = .ok cs) (e : Nat) :
    e ∈ cs ↔ h.isElem e = true ∧ ∃ y ∈ l, Rel h r c y e := by
  have hw := hl.within
  cases c with
  | childrenAll =>
    simp only [cands, overTops] at hc
    have key : ∀ u, (∀ x ∈ u, x ∈ l) → (∀ x ∈ l, ∃ t ∈ u, Within h t x) →
        flatMapR (fun x => .ok (descFuel h h.fuel x)) u = .ok cs →
        (e ∈ cs ↔ h.isElem e = true ∧ ∃ y ∈ l, Rel h r .childrenAll y e) := by
      intro u hu1 hu2 hc
      rw [(flatMapR_mem hc).2]
      simp only [Rel]
      constructor
      · rintro ⟨a, ha, y, hy, hey⟩
        simp only [Except.ok.injEq] at hy
        subst hy
        obtain ⟨h1, h2⟩ := (mem_desc wf (hw a (hu1 a ha)) e).1 hey
        exact ⟨h2, a, hu1 a ha, h1⟩
      · rintro ⟨he, y, hy, hb⟩
        obtain ⟨t, ht, hty⟩ := hu2 y hy
        refine ⟨t, ht, _, rfl, (mem_desc wf (hw t (hu1 t ht)) e).2 ⟨?_, he⟩⟩
        rcases within_cases hty with rfl | h1
        · exact hb
        · exact h1.trans hb
    split at hc
    · split at hc
      · cases hc
      · rename_i u hu
        obtain ⟨h1, h2⟩ := uniqueParents_cover wf hw hu
        exact key u h1 h2 hc
    · exact key l (fun x hx => hx) (fun x hx => ⟨x, hx, .self⟩) hc
  | children =>
    simp only [cands, Except.ok.injEq] at hc
    subst hc
    simp only [List.mem_flatMap, mem_children, Rel]
    constructor
    · rintro ⟨y, hy, h1, h2⟩; exact ⟨h2, y, hy, h1⟩
    · rintro ⟨h2, y, hy, h1⟩; exact ⟨y, hy, h1, h2⟩
  | parent =>
    simp only [cands, Except.ok.injEq] at hc
    subst hc
    have hsub := uniqueFirst_sub wf hw
    rw [mem_parentsOf wf fun x hx => hw x (hsub x hx)]
    constructor
    · rintro ⟨h1, y, hy, hp⟩
      exact ⟨h1, y, hsub y hy, (rel_parent wf (hw y (hsub y hy))).2 hp⟩
    · rintro ⟨h1, y, hy, hr⟩
      have hp := (rel_parent wf (hw y hy)).1 hr
      rw [uniqueSiblingFirst_eq wf hw]
      obtain ⟨l1, z, l2, _, h2, h3, _⟩ := firstBy_cover (key := h.parent) (seen := []) hy (by simp)
      exact ⟨h1, z, h2, h3.trans hp⟩
  | parentAll =>
    simp only [cands] at hc
    cases hall : flatMapR (ancestorsFuel h h.fuel) l with
    | error p => rw [hall] at hc; cases hc
    | ok all =>
      rw [hall] at hc
      simp only [Except.map, Except.ok.injEq] at hc
      subst hc
      have hm : ∀ e, e ∈ all ↔ ∃ a ∈ l, Within h r e ∧ Below h e a ∧ h.isElem e = true := by
        intro e
        rw [(flatMapR_mem hall).2]
        constructor
        · rintro ⟨a, ha, y, hy, hey⟩
          obtain ⟨l', h1, h2⟩ := ancestors_ok wf (hw a ha)
          rw [h1] at hy; cases hy
          exact ⟨a, ha, (h2 e).1 hey⟩
        · rintro ⟨a, ha, hh⟩
          obtain ⟨l', h1, h2⟩ := ancestors_ok wf (hw a ha)
          exact ⟨a, ha, l', h1, (h2 e).2 hh⟩
      rw [(C14_sort_and_unique wf (fun x hx => by obtain ⟨_, _, h1, _⟩ := (hm x).1 hx; exact h1)).2.2, hm]
      simp only [Rel]
      constructor
      · rintro ⟨a, ha, h1, h2, h3⟩; exact ⟨h3, a, ha, h1, h2⟩
      · rintro ⟨h3, a, ha, h1, h2⟩; exact ⟨a, ha, h1, h2, h3⟩
  | nextAll =>
    simp only [cands] at hc
    have hsub := uniqueFirst_sub wf hw
    rw [(flatMapR_mem hc).2]
    simp only [Rel]
    constructor
    · rintro ⟨a, ha, y, hy, hey⟩
      obtain ⟨l', h1, h2, _⟩ := nextElems_ok wf (hw a (hsub a ha))
      rw [h1] at hy; cases hy
      exact ⟨((h2 e).1 hey).2, a, hsub a ha, ((h2 e).1 hey).1⟩
    · rintro ⟨he, y, hy, hs⟩
      obtain ⟨z, hz, hzp, hzi⟩ := firstAsc_cover hy ho
      rw [← uniqueSiblingFirst_eq wf hw] at hz
      obtain ⟨l', h1, h2, _⟩ := nextElems_ok wf (hw z (hsub z hz))
      refine ⟨z, hz, l', h1, (h2 e).2 ⟨?_, he⟩⟩
      obtain ⟨a1, a2, ⟨p, a3, a4⟩, a5⟩ := (laterSib_index wf).1 hs
      exact (laterSib_index wf).2 ⟨hw z (hsub z hz), a2, ⟨p, hzp.trans a3, a4⟩, by omega⟩
  | next =>
    simp only [cands, Except.ok.injEq] at hc
    subst hc
    simp only [List.mem_filterMap, Rel]
    constructor
    · rintro ⟨y, hy, hye⟩
      obtain ⟨h1, h2⟩ := (mem_nextElem wf (hw y hy)).1 hye
      exact ⟨h2, y, hy, h1⟩
    · rintro ⟨h2, y, hy, h1⟩
      exact ⟨y, hy, (mem_nextElem wf (hw y hy)).2 ⟨h1, h2⟩⟩
  | prevAll =>
    simp only [cands] at hc
    have hsub := uniqueLast_sub wf hw
    rw [(flatMapR_mem hc).2]
    simp only [Rel]
    constructor
    · rintro ⟨a, ha, y, hy, hey⟩
      obtain ⟨l', h1, h2, _⟩ := prevElems_ok wf (hw a (hsub a ha))
      rw [h1] at hy; cases hy
      exact ⟨((h2 e).1 hey).2, a, hsub a ha, ((h2 e).1 hey).1⟩
    · rintro ⟨he, y, hy, hs⟩
      obtain ⟨z, hz, hzp, hzi⟩ := sibAsc_last_cover hy ho
      have hz' : z ∈ uniqueSiblingLast h l := by rw [uniqueSiblingLast_eq wf hw]; exact List.mem_reverse.2 hz
      obtain ⟨l', h1, h2, _⟩ := prevElems_ok wf (hw z (hsub z hz'))
      refine ⟨z, hz', l', h1, (h2 e).2 ⟨?_, he⟩⟩
      obtain ⟨a1, a2, ⟨p, a3, a4⟩, a5⟩ := (laterSib_index wf).1 hs
      exact (laterSib_index wf).2 ⟨a1, hw z (hsub z hz'), ⟨p, a3, hzp.trans a4⟩, by omega⟩
  | prev =>
    simp only [cands] at hc
    rw [(flatMapR_mem hc).2]
    simp only [Rel]
    constructor
    · rintro ⟨a, ha, y, hy, hey⟩
      obtain ⟨o, h1, h2⟩ := prevElem_ok wf (hw a ha)
      rw [h1] at hy
      simp only [Except.map, Except.ok.injEq] at hy
      subst hy
      obtain ⟨h3, h4⟩ := (h2 e).1 (by simpa using hey)
      exact ⟨h4, a, ha, h3⟩
    · rintro ⟨he, y, hy, hs⟩
      obtain ⟨o, h1, h2⟩ := prevElem_ok wf (hw y hy)
      refine ⟨y, hy, o.toList, by rw [h1]; rfl, ?_⟩
      simpa using (h2 e).2 ⟨hs, he⟩
  | siblings =>
    obtain ⟨x, rfl⟩ := ho
    have hx := hw x List.mem_cons_self
    obtain ⟨l', h1, h2, _⟩ := siblings_ok wf hx
    have hu : uniqueAllSiblings h [x] = [] ∧ h.parent x = none ∨ uniqueAllSiblings h [x] = [(x, false)] := by
      unfold uniqueAllSiblings
      simp only [List.foldl_cons, List.foldl_nil, allSibStep]
      cases hp : h.parent x with
      | none => exact Or.inl ⟨rfl, rfl⟩
      | some p => exact Or.inr rfl
    simp only [cands] at hc
    simp only [List.mem_singleton, exists_eq_left, Rel]
    rcases hu with ⟨hu, hpn⟩ | hu
    · rw [hu] at hc
      simp only [flatMapR, Except.ok.injEq] at hc
      subst hc
      constructor
      · intro he; cases he
      · rintro ⟨_, p, hp, hk, _⟩
        have := parent_of_child wf hp hk
        rw [hpn] at this; cases this
    · rw [hu] at hc
      simp only [flatMapR, Bool.false_eq_true, if_false, h1, List.append_nil, Except.ok.injEq] at hc
      subst hc
      rw [h2]
      exact And.comm
  | chain =>
    simp only [cands, Except.ok.injEq] at hc
    subst hc
    simp only [Rel]
    constructor
    · intro he; exact ⟨(hchain rfl e he).2, e, he, rfl⟩
    · rintro ⟨_, y, hy, rfl⟩; exact hy

theorem cands_elems {c : Comb} {l cs : List Nat} (hl : Nodes h r l) (hchain : c = .chain → Elems h r l)
    (hsib : c = .siblings → ∃ x, l = [x]) (hc : cands h c l = .ok cs) : Elems h r cs := by
  have hw := hl.within
  intro e he
  cases c with
  | nextAll =>
    simp only [cands] at hc
    obtain ⟨a, ha, y, hy, hey⟩ := ((flatMapR_mem hc).2 e).1 he
    obtain ⟨l', h1, h2, _⟩ := nextElems_ok wf (hw a (uniqueFirst_sub wf hw a ha))
    rw [h1] at hy; cases hy
    exact ⟨(laterSib_within ((h2 e).1 hey).1).2, ((h2 e).1 hey).2⟩
  | prevAll =>
    simp only [cands] at hc
    obtain ⟨a, ha, y, hy, hey⟩ := ((flatMapR_mem hc).2 e).1 he
    obtain ⟨l', h1, h2, _⟩ := prevElems_ok wf (hw a (uniqueLast_sub wf hw a ha))
    rw [h1] at hy; cases hy
    exact ⟨(laterSib_within ((h2 e).1 hey).1).1, ((h2 e).1 hey).2⟩
  | siblings =>
    obtain ⟨h1, y, hy, p, hp, _, hk, _⟩ := (cands_mem (c := .siblings) wf hl (hsib rfl) hchain hc e).1 he
    exact ⟨.step hp hk, h1⟩
  | childrenAll =>
    obtain ⟨h1, y, hy, hr⟩ := (cands_mem (c := .childrenAll) wf hl True.intro hchain hc e).1 he
    exact ⟨(hw y hy).trans (Below.within hr), h1⟩
  | children =>
    obtain ⟨h1, y, hy, hr⟩ := (cands_mem (c := .children) wf hl True.intro hchain hc e).1 he
    exact ⟨.step (hw y hy) hr, h1⟩
  | parent =>
    obtain ⟨h1, y, hy, hr⟩ := (cands_mem (c := .parent) wf hl True.intro hchain hc e).1 he
    exact ⟨hr.1, h1⟩
  | parentAll =>
    obtain ⟨h1, y, hy, hr⟩ := (cands_mem (c := .parentAll) wf hl True.intro hchain hc e).1 he
    exact ⟨hr.1, h1⟩
  | next =>
    obtain ⟨h1, y, hy, hr⟩ := (cands_mem (c := .next) wf hl True.intro hchain hc e).1 he
    exact ⟨(laterSib_within (nextSib_later hr)).2, h1⟩
  | prev =>
    obtain ⟨h1, y, hy, hr⟩ := (cands_mem (c := .prev) wf hl True.intro hchain hc e).1 he
    exact ⟨(laterSib_within (nextSib_later hr)).1, h1⟩
  | chain =>
    obtain ⟨h1, y, hy, rfl⟩ := (cands_mem (c := .chain) wf hl True.intro hchain hc e).1 he
    exact ⟨hw _ hy, h1⟩

/-! ## Order -/

theorem filterMap_next_firstAsc {s l : List Nat} (hl : Nodes h r l) (hs : FirstAsc h s l) :
    FirstAsc h (s.filterMap h.nextElem) (l.filterMap h.nextElem) := by
  induction l generalizing s with
  | nil => trivial
  | cons x l ih =>
    have hl' : Nodes h r l := fun y hy => hl y (List.mem_cons_of_mem _ hy)
    rw [List.filterMap_cons]
    have ihs := ih hl' hs.2
    rw [List.filterMap_cons] at ihs
    cases hx : h.nextElem x with
    | none => rw [hx] at ihs; exact ihs
    | some x' =>
      rw [hx] at ihs
      refine ⟨?_, ihs⟩
      intro y' hy' hp hi
      obtain ⟨y, hy, hyy⟩ := List.mem_filterMap.1 hy'
      obtain ⟨n1, e1⟩ := (mem_nextElem wf (hl x List.mem_cons_self).1).1 hx
      obtain ⟨n2, e2⟩ := (mem_nextElem wf (hl' y hy).1).1 hyy
      have hex : h.isElem x = true := Nodes.elem_of_sib wf hl List.mem_cons_self (Or.inl (nextSib_later n1))
      obtain ⟨k1, k2⟩ := nextSib_lt_inv wf n1 n2 e1 e2 hex hp.symm hi
      exact List.mem_filterMap.2 ⟨y, hs.1 y hy k1.symm k2, hyy⟩

theorem filterMap_next_sibAsc {l : List Nat} (hl : Nodes h r l) (hs : SibAsc h l) :
    SibAsc h (l.filterMap h.nextElem) := by
  unfold SibAsc
  rw [List.pairwise_filterMap]
  refine List.Pairwise.imp_of_mem ?_ hs
  intro x y hx hy hxy x' hx' y' hy' hp
  obtain ⟨n1, e1⟩ := (mem_nextElem wf (hl x hx).1).1 hx'
  obtain ⟨n2, e2⟩ := (mem_nextElem wf (hl y hy).1).1 hy'
  have hey : h.isElem y = true := Nodes.elem_of_sib wf hl hy (Or.inl (nextSib_later n2))
  obtain ⟨_, _, ⟨p, a3, a4⟩, _⟩ := (laterSib_index wf).1 (nextSib_later n1)
  obtain ⟨_, _, ⟨q, b3, b4⟩, _⟩ := (laterSib_index wf).1 (nextSib_later n2)
  rw [a4, b4] at hp
  have hpp : h.parent x = h.parent y := by rw [a3, b3, hp]
  exact nextSib_lt wf n1 n2 hey hpp (hxy hpp)

theorem prev_sibAsc {l cs : List Nat} (hl : Nodes h r l) (hs : SibAsc h l) (hc : cands h .prev l = .ok cs) :
    SibAsc h cs := by
  simp only [cands] at hc
  have he : cs = l.flatMap (fun x => match h.prevElem x with | .ok o => o.toList | .error _ => []) := by
    refine flatMapR_inv hc ?_
    intro x _ y hy
    cases ho : h.prevElem x with
    | error e => rw [ho] at hy; cases hy
    | ok o => rw [ho] at hy; simp only [Except.map, Except.ok.injEq] at hy; exact hy.symm
  rw [he]
  unfold SibAsc
  rw [List.pairwise_flatMap]
  constructor
  · intro x _
    cases ho : h.prevElem x with
    | error e => exact .nil
    | ok o => cases o with
      | none => exact .nil
      | some z => exact List.pairwise_singleton _ _
  · refine List.Pairwise.imp_of_mem ?_ hs
    intro x y hx hy hxy x' hx' y' hy' hp
    obtain ⟨o1, h1, h2⟩ := prevElem_ok wf (hl x hx).1
    obtain ⟨o2, h3, h4⟩ := prevElem_ok wf (hl y hy).1
    rw [h1] at hx'
    rw [h3] at hy'
    obtain ⟨n1, e1⟩ := (h2 x').1 (by simpa using hx')
    obtain ⟨n2, e2⟩ := (h4 y').1 (by simpa using hy')
    have hex : h.isElem x = true := Nodes.elem_of_sib wf hl hx (Or.inr (nextSib_later n1))
    obtain ⟨_, _, ⟨p, a3, a4⟩, _⟩ := (laterSib_index wf).1 (nextSib_later n1)
    obtain ⟨_, _, ⟨q, b3, b4⟩, _⟩ := (laterSib_index wf).1 (nextSib_later n2)
    rw [a3, b3] at hp
    have hpp : h.parent x = h.parent y := by rw [a4, b4, hp]
    exact prevSib_lt wf n1 n2 hex hpp (hxy hpp)

theorem nextAll_sibAsc {l cs : List Nat} (hl : ∀ x ∈ l, Within h r x) (hc : cands h .nextAll l = .ok cs) :
    SibAsc h cs := by
  simp only [cands] at hc
  have hsub := uniqueFirst_sub wf hl
  have he : cs = (uniqueSiblingFirst h l).flatMap (fun x => match h.nextElems x with | .ok o => o | .error _ => []) := by
    refine flatMapR_inv hc ?_
    intro x _ y hy
    rw [hy]
  rw [he]
  refine flatMap_sibAsc wf (key := h.parent) ?_ ?_ ?_
  · intro x hx
    obtain ⟨l', h1, h2, h3⟩ := nextElems_ok wf (hl x (hsub x hx))
    rw [h1]
    rcases h3 with rfl | ⟨p, hp, _, hs⟩
    · exact .nil
    · exact sublist_kids_sibAsc wf hp hs
  · intro x hx e hex
    obtain ⟨l', h1, h2, h3⟩ := nextElems_ok wf (hl x (hsub x hx))
    rw [h1] at hex
    obtain ⟨_, _, ⟨p, a3, a4⟩, _⟩ := (laterSib_index wf).1 ((h2 e).1 hex).1
    rw [a3, a4]
  · rw [uniqueSiblingFirst_eq wf hl]
    exact firstBy_pairwise _ _

theorem prevAll_sibAsc {l cs : List Nat} (hl : ∀ x ∈ l, Within h r x) (hc : cands h .prevAll l = .ok cs) :
    SibAsc h cs := by
  simp only [cands] at hc
  have hsub := uniqueLast_sub wf hl
  have he : cs = (uniqueSiblingLast h l).flatMap (fun x => match h.prevElems x with | .ok o => o | .error _ => []) := by
    refine flatMapR_inv hc ?_
    intro x _ y hy
    rw [hy]
  rw [he]
  refine flatMap_sibAsc wf (key := h.parent) ?_ ?_ ?_
  · intro x hx
    obtain ⟨l', h1, h2, h3⟩ := prevElems_ok wf (hl x (hsub x hx))
    rw [h1]
    rcases h3 with rfl | ⟨p, hp, _, hs⟩
    · exact .nil
    · exact sublist_kids_sibAsc wf hp hs
  · intro x hx e hex
    obtain ⟨l', h1, h2, h3⟩ := prevElems_ok wf (hl x (hsub x hx))
    rw [h1] at hex
    obtain ⟨_, _, ⟨p, a3, a4⟩, _⟩ := (laterSib_index wf).1 ((h2 e).1 hex).1
    rw [a3, a4]
  · rw [uniqueSiblingLast_eq wf hl, List.pairwise_reverse]
    exact List.Pairwise.imp (fun hab e => hab e.symm) (firstBy_pairwise _ _)

theorem children_list_sibAsc {l : List Nat} (hl : ∀ x ∈ l, Within h r x) (hn : l.Nodup) :
    SibAsc h (l.flatMap h.children) := by
  refine flatMap_sibAsc wf (key := fun x => some x) ?_ ?_ ?_
  · intro x hx; exact children_sibAsc wf (hl x hx)
  · intro x hx c hc; exact parent_of_child wf (hl x hx) (mem_children.1 hc).1
  · exact List.Pairwise.imp (fun hab e => hab (by simpa using e)) hn

theorem children_list_firstAsc {l : List Nat} (hl : ∀ x ∈ l, Within h r x) (s : List Nat) :
    FirstAsc h s (l.flatMap h.children) := by
  refine firstAsc_blocks (fun x hx => children_sibAsc wf (hl x hx)) ?_ s
  intro a ha b hb x hx y hy hp
  have h1 := parent_of_child wf (hl a ha) (mem_children.1 hx).1
  have h2 := parent_of_child wf (hl b hb) (mem_children.1 hy).1
  rw [h1, h2] at hp
  obtain rfl : b = a := by simpa using hp
  exact hy

theorem desc_list_firstAsc {l : List Nat} (hl : ∀ x ∈ l, Within h r x) (s : List Nat) :
    FirstAsc h s (l.flatMap (descFuel h h.fuel)) := by
  refine firstAsc_blocks ?_ ?_ s
  · intro x hx
    refine docSorted_sibAsc wf ?_ (desc_sorted wf (hl x hx))
    intro e he
    exact (hl x hx).trans ((mem_desc wf (hl x hx) e).1 he).1.within
  · intro a ha b hb x hx y hy hp
    rw [mem_desc wf (hl a ha)] at hx ⊢
    rw [mem_desc wf (hl b hb)] at hy
    refine ⟨?_, hy.2⟩
    obtain ⟨p, hp1, hp2⟩ := hx.1.last
    obtain ⟨q, hq1, hq2⟩ := hy.1.last
    have k1 := parent_of_child wf ((hl a ha).trans hp1) hp2
    have k2 := parent_of_child wf ((hl b hb).trans hq1) hq2
    rw [k1, k2] at hp
    obtain rfl : q = p := by simpa using hp
    exact Below.snoc hp1 hq2

theorem childrenAll_firstAsc {l cs : List Nat} (hl : ∀ x ∈ l, Within h r x) (hc : cands h .childrenAll l = .ok cs)
    (s : List Nat) : FirstAsc h s cs := by
  simp only [cands, overTops] at hc
  have key : ∀ u, flatMapR (fun x => .ok (descFuel h h.fuel x)) u = .ok cs → cs = u.flatMap (descFuel h h.fuel) := by
    intro u hu
    rw [flatMapR_ok (g := descFuel h h.fuel) fun _ _ => rfl] at hu
    simpa using hu.symm
  split at hc
  · split at hc
    · cases hc
    · rename_i u hu
      rw [key u hc]
      exact desc_list_firstAsc wf (fun x hx => hl x ((uniqueParents_cover wf hl hu).1 x hx)) s
  · rw [key l hc]
    exact desc_list_firstAsc wf hl s

/-- From a list in document order the descendants are found in document order, without panic. -/
theorem childrenAll_sorted {l : List Nat} (hl : ∀ x ∈ l, Within h r x) (hs : DocSorted h r l) :
    ∃ cs, cands h .childrenAll l = .ok cs ∧ DocSorted h r cs := by
  simp only [cands, overTops]
  split
  · obtain ⟨u, h1, h2, h3⟩ := uniqueParents_sorted wf hl hs
    rw [h1]
    exact ⟨_, flatMapR_ok fun _ _ => rfl, flatMap_desc_sorted wf (fun x hx => hl x (h3.subset hx)) h2⟩
  · rename_i hlen
    refine ⟨_, flatMapR_ok fun _ _ => rfl, flatMap_desc_sorted wf hl ?_⟩
    match l, hlen with
    | [], _ => exact .nil
    | [x], _ => exact List.pairwise_singleton _ _
    | _ :: _ :: _, hlen => simp at hlen

/-- All the candidates but those of a descendant search always exist. -/
theorem cands_total {c : Comb} {l : List Nat} (hl : ∀ x ∈ l, Within h r x) (hc : c ≠ .childrenAll) :
    ∃ cs, cands h c l = .ok cs := by
  cases c with
  | childrenAll => exact absurd rfl hc
  | children => exact ⟨_, rfl⟩
  | parent => exact ⟨_, rfl⟩
  | parentAll =>
    obtain ⟨all, ha⟩ := flatMapR_total (f := ancestorsFuel h h.fuel) (l := l) fun x hx => by
      obtain ⟨l', h1, _⟩ := ancestors_ok wf (hl x hx); exact ⟨l', h1⟩
    exact ⟨sortAndUnique h all, by simp only [cands, ha, Except.map]⟩
  | nextAll =>
    exact flatMapR_total fun x hx => by
      obtain ⟨l', h1, _⟩ := nextElems_ok wf (hl x (uniqueFirst_sub wf hl x hx)); exact ⟨l', h1⟩
  | next => exact ⟨_, rfl⟩
  | prevAll =>
    exact flatMapR_total fun x hx => by
      obtain ⟨l', h1, _⟩ := prevElems_ok wf (hl x (uniqueLast_sub wf hl x hx)); exact ⟨l', h1⟩
  | prev =>
    exact flatMapR_total fun x hx => by
      obtain ⟨o, h1, _⟩ := prevElem_ok wf (hl x hx); exact ⟨o.toList, by rw [h1]; rfl⟩
  | siblings =>
    refine flatMapR_total fun e he => ?_
    split
    · exact ⟨_, rfl⟩
    · rename_i h2
      rcases uniqueAll_sub e he with ⟨_, h1⟩ | ⟨h3, _⟩
      · obtain ⟨l', k1, _⟩ := siblings_ok wf (hl _ h1); exact ⟨l', k1⟩
      · exact absurd h3 h2
  | chain => exact ⟨_, rfl⟩

/-- From a sorted antichain of elements the next elements are found in document order. -/
theorem next_sorted {l : List Nat} (hl : Nodes h r l) (hs : AntiSorted h r l) :
    DocSorted h r (l.filterMap h.nextElem) := by
  unfold DocSorted
  rw [List.pairwise_filterMap]
  refine List.Pairwise.imp_of_mem ?_ hs
  intro a b ha hb hab a' ha' b' hb'
  obtain ⟨n1, e1⟩ := (mem_nextElem wf (hl a ha).1).1 ha'
  obtain ⟨n2, e2⟩ := (mem_nextElem wf (hl b hb).1).1 hb'
  have heb : h.isElem b = true := Nodes.elem_of_sib wf hl hb (Or.inl (nextSib_later n2))
  obtain ⟨p, i, j, A, B, hp, hij, hA, hB, hwA, hwB⟩ := (before_not_below wf).1 hab
  -- a sibling of something properly inside `X` is inside `X`
  have inside : ∀ {X y z : Nat}, Within h r X → Below h X y → LaterSib h r y z → Within h X z := by
    intro X y z hX hb hs
    obtain ⟨q, hq1, hq2⟩ := hb.last
    obtain ⟨p', i', j', hp', _, hi', hj'⟩ := hs
    have k1 := parent_of_child wf (hX.trans hq1) hq2
    have k2 := (wf.link _ _ _ hp' hi').1
    rw [k1] at k2
    obtain rfl : q = p' := by simpa using k2
    exact .step hq1 (List.mem_of_getElem? hj')
  have hAw : Within h r A := .step hp (List.mem_of_getElem? hA)
  have hBw : Within h r B := .step hp (List.mem_of_getElem? hB)
  have hbB : b' = B ∨ (∃ j', j < j' ∧ (h.kids p)[j']? = some b') ∨ Below h B b' := by
    rcases within_cases hwB with rfl | hb1
    · right; left
      obtain ⟨q, i', j', hq, hij', hi', hj'⟩ := nextSib_later n2
      have k1 := (wf.link _ _ _ hp hB)
      have k2 := (wf.link _ _ _ hq hi')
      rw [k1.1] at k2
      obtain rfl : p = q := by simpa using k2.1
      exact ⟨j', by omega, hj'⟩
    · right; right
      obtain ⟨q, hq1, hq2⟩ := hb1.last
      obtain ⟨p', i', j', hp', _, hi', hj'⟩ := nextSib_later n2
      have k1 := parent_of_child wf (hBw.trans hq1) hq2
      have k2 := (wf.link _ _ _ hp' hi').1
      rw [k1] at k2
      obtain rfl : q = p' := by simpa using k2
      exact Below.snoc hq1 (List.mem_of_getElem? hj')
  rcases within_cases hwA with rfl | hbA
  · -- `a` is the branch itself: `a'` is at a position up to `j`
    obtain ⟨q, i', k, hq, hik, hi', hk, hbetween⟩ := n1
    have k1 := (wf.link _ _ _ hp hA)
    have k2 := (wf.link _ _ _ hq hi')
    rw [k1.1] at k2
    obtain rfl : p = q := by simpa using k2.1
    have hBe : h.isElem B = true := by
      rcases within_cases hwB with rfl | ⟨d, hd, _⟩
      · exact heb
      · exact elem_of_kid wf hBw hd (child_ne_root wf hp (List.mem_of_getElem? hB))
    have hkj : k ≤ j := by
      by_contra hgt
      have := hbetween j B (by omega) (by omega) hB
      rw [hBe] at this; cases this
    rcases Nat.lt_or_eq_of_le hkj with hlt | rfl
    · rcases hbB with rfl | ⟨j', hj', hb3⟩ | hb3
      · exact Or.inr ⟨p, k, j, a', b', hp, hlt, hk, hB, .self, .self⟩
      · exact Or.inr ⟨p, k, j', a', b', hp, by omega, hk, hb3, .self, .self⟩
      · exact Or.inr ⟨p, k, j, a', B, hp, hlt, hk, hB, .self, hb3.within⟩
    · have : a' = B := by rw [hB] at hk; simpa using hk.symm
      subst this
      rcases hbB with rfl | ⟨j', hj', hb3⟩ | hb3
      · -- `b' = B` would make `B` a sibling after `b` within `B`
        exfalso
        rcases within_cases hwB with rfl | hb1
        · have := (laterSib_index wf).1 (nextSib_later n2); omega
        · have := inside hBw hb1 (nextSib_later n2)
          obtain ⟨q, hq1, hq2⟩ := hb1.last
          obtain ⟨p', i'', j'', hp', _, hi'', hj''⟩ := nextSib_later n2
          have k3 := parent_of_child wf (hBw.trans hq1) hq2
          have k4 := (wf.link _ _ _ hp' hi'').1
          rw [k3] at k4
          obtain rfl : q = p' := by simpa using k4
          exact not_below_self wf hBw (Below.snoc hq1 (List.mem_of_getElem? hj''))
      · exact Or.inr ⟨p, k, j', a', b', hp, hj', hk, hb3, .self, .self⟩
      · exact Or.inl hb3
  · have ha'A : Within h A a' := inside hAw hbA (nextSib_later n1)
    rcases hbB with rfl | ⟨j', hj', hb3⟩ | hb3
    · exact Or.inr ⟨p, i, j, A, b', hp, hij, hA, hB, ha'A, .self⟩
    · exact Or.inr ⟨p, i, j', A, b', hp, by omega, hA, hb3, ha'A, .self⟩
    · exact Or.inr ⟨p, i, j, A, B, hp, hij, hA, hB, ha'A, hb3.within⟩

end Visdom
