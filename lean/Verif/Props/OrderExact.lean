import Verif.Props.AnyOrder
/-!
# C18: when the result of a child or sibling step is in document order

From a set in document order, `find("> p")` and `find("+ p")` return every element once. They come in document order exactly unless a member
below another member interferes.
-/
namespace Visdom
open Spec Classical

variable {h : Heap} {r : Nat} {env : Env}

section
variable (wf : TreeWF h r)
include wf

theorem pairwise_mem_before {R : Nat → Nat → Prop} {S : List Nat} (hw : ∀ x ∈ S, Within h r x) (hs : DocSorted h r S) {a b : Nat}
    (ha : a ∈ S) (hb : b ∈ S) (hab : Before h r a b) (hR : S.Pairwise R) : R a b := by
  obtain ⟨i, hi, rfl⟩ := List.getElem_of_mem ha
  obtain ⟨j, hj, rfl⟩ := List.getElem_of_mem hb
  rcases Nat.lt_trichotomy i j with hlt | rfl | hlt
  · exact List.pairwise_iff_getElem.1 hR i j hi hj hlt
  · exact absurd hab (before_irrefl wf (hw _ ha))
  · exact absurd (List.pairwise_iff_getElem.1 hs j i hj hi hlt) (before_asymm wf (hw _ ha) (hw _ hb) hab)

theorem isElem_of_kids {x c : Nat} (hx : Within h r x) (hc : c ∈ h.kids x) {p : Nat} (hp : h.parent x = some p) : h.isElem x = true := by
  by_cases h1 : (h.node x).kind = .root
  · rw [wf.onlyRoot x hx h1, wf.rootParent] at hp
    cases hp
  · by_cases h2 : (h.node x).kind = .tag
    · simp [Heap.isElem, h2]
    · rw [wf.leaf x hx h1 h2] at hc
      cases hc

/-- Two children of nodes in document order come in document order unless the second node lies in a child before the first child. -/
theorem kids_order {a b e f : Nat} (ha : Within h r a) (hb : Within h r b) (hab : Before h r a b) (he : e ∈ h.kids a) (hf : f ∈ h.kids b) :
    (Before h r e f ↔ ¬ ∃ c ∈ h.kids a, Within h c b ∧ h.index c < h.index e) := by
  obtain ⟨i, hi⟩ := List.getElem?_of_mem he
  have hie := (wf.link a i e ha hi).2
  constructor
  · rintro hef ⟨c, hc, hcb, hlt⟩
    obtain ⟨k, hk⟩ := List.getElem?_of_mem hc
    have hkc := (wf.link a k c ha hk).2
    exact before_asymm wf (.step ha he) (.step hb hf) hef
      (Or.inr ⟨a, k, i, c, e, ha, by omega, hk, hi, .step hcb hf, .self⟩)
  · intro hno
    rcases hab with ⟨c, hc, hcb⟩ | ⟨p, i', j', x, y, hp, hlt, hx, hy, hax, hby⟩
    · obtain ⟨k, hk⟩ := List.getElem?_of_mem hc
      have hkc := (wf.link a k c ha hk).2
      have hle : ¬ k < i := fun hlt => hno ⟨c, hc, hcb, by omega⟩
      rcases Nat.lt_or_eq_of_le (Nat.le_of_not_lt hle) with hlt | heq
      · exact Or.inr ⟨a, i, k, e, c, ha, hlt, hi, hk, .self, .step hcb hf⟩
      · rw [heq, hk] at hi
        obtain rfl := Option.some.inj hi
        exact Or.inl (below_of_within_child hcb hf)
    · exact Or.inr ⟨p, i', j', x, y, hp, hlt, hx, hy, .step hax he, .step hby hf⟩

/-- The next elements of two nodes in document order come in document order unless the second node lies below the first one. -/
theorem next_order {a b e f : Nat} (ha : Within h r a) (hb : Within h r b) (heb : h.isElem b = true) (hab : Before h r a b)
    (he : NextSib h r a e) (hf : NextSib h r b f) :
    (Before h r e f ↔ ¬ Below h a b) := by
  obtain ⟨p, i, j, hp, hij, hi, hj, hgap⟩ := he
  obtain ⟨q, k, l, hq, hkl, hk, hl, _⟩ := hf
  have hew : Within h r e := .step hp (List.mem_of_getElem? hj)
  have hfw : Within h r f := .step hq (List.mem_of_getElem? hl)
  constructor
  · intro hef hbel
    have : Within h a q := below_of_kid wf ha hq (List.mem_of_getElem? hk) hbel
    exact before_asymm wf hew hfw hef
      (Or.inr ⟨p, i, j, a, e, hp, hij, hi, hj, .step this (List.mem_of_getElem? hl), .self⟩)
  · intro hno
    rcases hab with hbel | ⟨p', i', j', x, y, hp', hlt, hx, hy, hax, hby⟩
    · exact absurd hbel hno
    · have lx := wf.link p' i' x hp' hx
      have ly := wf.link p' j' y hp' hy
      have la := wf.link p i a hp hi
      have lb := wf.link q k b hq hk
      have hxw : Within h r x := .step hp' (List.mem_of_getElem? hx)
      have hyw : Within h r y := .step hp' (List.mem_of_getElem? hy)
      -- `f` lies in `y` or follows it
      have hfy : Below h y f ∨ ∃ j2, j' < j2 ∧ (h.kids p')[j2]? = some f := by
        rcases within_cases hby with rfl | hbel
        · right
          have : some q = some p' := lb.1.symm.trans ly.1
          obtain rfl := Option.some.inj this
          exact ⟨l, by omega, hl⟩
        · exact Or.inl (below_of_within_child (below_of_kid wf hyw hq (List.mem_of_getElem? hk) hbel) (List.mem_of_getElem? hl))
      rcases within_cases hax with rfl | hbel
      · have : some p = some p' := la.1.symm.trans lx.1
        obtain rfl := Option.some.inj this
        have hii : i = i' := la.2.symm.trans lx.2
        subst hii
        have hyel : h.isElem y = true := by
          rcases within_cases hby with rfl | ⟨c, hc, _⟩
          · exact heb
          · exact isElem_of_kids wf hyw hc ly.1
        have hjle : j ≤ j' := by
          by_contra hgt
          have := hgap j' y hlt (by omega) hy
          rw [hyel] at this; cases this
        rcases Nat.lt_or_eq_of_le hjle with hlt' | rfl
        · rcases hfy with hfy | ⟨j2, h2, h3⟩
          · exact Or.inr ⟨p, j, j', e, y, hp, hlt', hj, hy, .self, hfy.within⟩
          · exact Or.inr ⟨p, j, j2, e, f, hp, by omega, hj, h3, .self, .self⟩
        · rw [hj] at hy
          obtain rfl := Option.some.inj hy
          rcases hfy with hfy | ⟨j2, h2, h3⟩
          · exact Or.inl hfy
          · exact Or.inr ⟨p, j, j2, e, f, hp, h2, hj, h3, .self, .self⟩
      · have hex : Within h x e := .step (below_of_kid wf hxw hp (List.mem_of_getElem? hi) hbel) (List.mem_of_getElem? hj)
        rcases hfy with hfy | ⟨j2, h2, h3⟩
        · exact Or.inr ⟨p', i', j', x, y, hp', hlt, hx, hy, hex, hfy.within⟩
        · exact Or.inr ⟨p', i', j2, x, f, hp', by omega, hx, h3, hex, .self⟩

end

/-- C18 for `> ss`, exactly: from a set in document order the matching children come, each once; in document order exactly unless some
member lies in a child of another member, has a matching child, and the other member has a matching child behind it. -/
theorem C18_find_children_exact (wf : TreeWF h r) (ev : Metas h r) {ss : List Sim} (hok : CmpdOk h r env true .any .child ss) {S : List Nat}
    (hS : Nodes h r S) (hs : DocSorted h r S) : ∃ res, find h env S [[(.children, ss)]] = .ok res ∧ res.Nodup ∧
      (DocSorted h r res ↔ ¬ ∃ a ∈ S, ∃ b ∈ S, ∃ c ∈ h.kids a, ∃ e ∈ h.kids a, ∃ f ∈ h.kids b, Within h c b ∧ h.index c < h.index e ∧
        h.isElem e = true ∧ h.isElem f = true ∧ cmpdSat h r env ss e ∧ cmpdSat h r env ss f) := by
  obtain ⟨res, hr, hres, hmem⟩ := C17_find_any_order_near wf ev (Or.inl rfl) hok hS
  simp only [if_true] at hres
  have hw := hS.within
  refine ⟨res, hr, ?_, ?_⟩
  · rw [hres]
    exact List.Nodup.filter _ (SibAsc.nodup (children_list_sibAsc wf hw (SibAsc.nodup (docSorted_sibAsc wf hw hs))))
  · rw [hres, List.filter_flatMap]
    unfold DocSorted
    rw [List.pairwise_flatMap]
    constructor
    · rintro ⟨_, h2⟩ ⟨a, ha, b, hb, c, hc, e, he, f, hf, h3, h4, h5, h6, h7, h8⟩
      have hab : Before h r a b := Or.inl ⟨c, hc, h3⟩
      have hcase := pairwise_mem_before wf hw hs ha hb hab h2
      have hbef := hcase e (by simp [mem_children, he, h5, h7]) f (by simp [mem_children, hf, h6, h8])
      exact (kids_order wf (hw a ha) (hw b hb) hab he hf).1 hbef ⟨c, hc, h3, h4⟩
    · intro hno
      refine ⟨fun a ha => ?_, List.Pairwise.imp_of_mem ?_ hs⟩
      · exact List.Pairwise.sublist List.filter_sublist (children_docSorted (hw a ha))
      · intro a b ha hb hab e he f hf
        simp only [List.mem_filter, decide_eq_true_eq, mem_children] at he hf
        refine (kids_order wf (hw a ha) (hw b hb) hab he.1.1 hf.1.1).2 ?_
        rintro ⟨c, hc, h3, h4⟩
        exact hno ⟨a, ha, b, hb, c, hc, e, he.1.1, f, hf.1.1, h3, h4, he.1.2, hf.1.2, he.2, hf.2⟩

/-- C18 for `+ ss`, exactly: from a set in document order the matching next siblings come, each once; in document order exactly unless a
member below another member has a matching next sibling, as that one has. -/
theorem C18_find_next_exact (wf : TreeWF h r) (ev : Metas h r) {ss : List Sim} (hok : CmpdOk h r env true .any .list ss) {S : List Nat}
    (hS : Nodes h r S) (hs : DocSorted h r S) : ∃ res, find h env S [[(.next, ss)]] = .ok res ∧ res.Nodup ∧
      (DocSorted h r res ↔ ¬ ∃ a ∈ S, ∃ b ∈ S, ∃ e f, Below h a b ∧ NextSib h r a e ∧ NextSib h r b f ∧
        h.isElem e = true ∧ h.isElem f = true ∧ cmpdSat h r env ss e ∧ cmpdSat h r env ss f) := by
  obtain ⟨res, hr, hres, hmem⟩ := C17_find_any_order_near wf ev (Or.inr rfl) hok hS
  simp only [reduceCtorEq, if_false] at hres
  have hw := hS.within
  refine ⟨res, hr, ?_, ?_⟩
  · rw [hres, ← List.filterMap_eq_flatMap_toList]
    exact List.Nodup.filter _ (SibAsc.nodup (filterMap_next_sibAsc wf hS (docSorted_sibAsc wf hw hs)))
  · have helem : ∀ {b f}, b ∈ S → NextSib h r b f → h.isElem b = true :=
      fun hb hf => Nodes.elem_of_sib wf hS hb (Or.inl (nextSib_later hf))
    rw [hres, List.filter_flatMap]
    unfold DocSorted
    rw [List.pairwise_flatMap]
    constructor
    · rintro ⟨_, h2⟩ ⟨a, ha, b, hb, e, f, h3, h4, h4', h5, h6, h7, h8⟩
      have hab : Before h r a b := Or.inl h3
      have hcase := pairwise_mem_before wf hw hs ha hb hab h2
      have hbef := hcase e (by simp [(mem_nextElem wf (hw a ha)).2 ⟨h4, h5⟩, h7]) f (by simp [(mem_nextElem wf (hw b hb)).2 ⟨h4', h6⟩, h8])
      exact (next_order wf (hw a ha) (hw b hb) (helem hb h4') hab h4 h4').1 hbef h3
    · intro hno
      refine ⟨fun a ha => ?_, List.Pairwise.imp_of_mem ?_ hs⟩
      · refine List.Pairwise.sublist List.filter_sublist ?_
        cases h.nextElem a with
        | none => exact .nil
        | some z => exact List.pairwise_singleton _ _
      · intro a b ha hb hab e he f hf
        simp only [List.mem_filter, decide_eq_true_eq, Option.mem_toList, mem_nextElem wf (hw a ha), mem_nextElem wf (hw b hb)] at he hf
        refine (next_order wf (hw a ha) (hw b hb) (helem hb hf.1.1) hab he.1.1 hf.1.1).2 ?_
        intro h3
        exact hno ⟨a, ha, b, hb, e, f, h3, he.1.1, hf.1.1, he.1.2, hf.1.2, he.2, hf.2⟩

/-- C18 for `~ ss`, exactly: from a set in document order the matching later siblings come, each once; in document order exactly unless
some member `b` with a matching later sibling lies below `z`, which is another member or a later sibling of one, and `z` has a matching
later sibling. -/
theorem C18_find_later_exact (wf : TreeWF h r) (ev : Metas h r) {ss : List Sim} (hok : CmpdOk h r env true .any .list ss) {S : List Nat}
    (hS : Nodes h r S) (hs : DocSorted h r S) : ∃ res, find h env S [[(.nextAll, ss)]] = .ok res ∧ res.Nodup ∧
      (DocSorted h r res ↔ ¬ ∃ a ∈ S, ∃ b ∈ S, ∃ z e f, (z = a ∨ LaterSib h r a z) ∧ Below h z b ∧ LaterSib h r z e ∧ LaterSib h r b f ∧
        h.isElem e = true ∧ h.isElem f = true ∧ cmpdSat h r env ss e ∧ cmpdSat h r env ss f) := by
  have hw := hS.within
  have hsib := docSorted_sibAsc wf hw hs
  obtain ⟨res, hr, hmem⟩ := C17_find_any_order_later wf ev hok hS
  by_cases hne : S = []
  · subst hne
    obtain rfl := Except.ok.inj hr
    exact ⟨[], rfl, List.nodup_nil, by simp [DocSorted]⟩
  have hr' := hr
  rw [find_one_step hne] at hr'
  obtain ⟨hhead, hD, _⟩ := cmpdOk_good (c := .nextAll) (c0 := .nextAll) wf ev (by simp) hok
  obtain ⟨⟨cs, k1, _, hres⟩, _⟩ := select_decides (fun _ _ _ => True.intro) (fun _ _ _ => True.intro) wf hD (oc := none)
    (Or.inr ⟨rfl, hhead⟩) hS hne (SibAsc.firstAsc hsib []) (by simp) (by simp) (fun _ _ => True.intro) hr'
  replace k1 := k1.resolve_right (by simp)
  have hnd : res.Nodup := by rw [hres]; exact List.Nodup.filter _ (SibAsc.nodup (nextAll_sibAsc wf hw k1))
  refine ⟨res, hr, hnd, ?_⟩
  simp only [cands] at k1
  have hsub := uniqueFirst_sub wf hw
  let g : Nat → List Nat := fun x => match h.nextElems x with | .ok o => o | .error _ => []
  have hcs : cs = (uniqueSiblingFirst h S).flatMap g := by
    refine flatMapR_inv k1 ?_
    intro x _ y hy
    simp only [g, hy]
  have hg : ∀ x, Within h r x → ∀ e, e ∈ g x ↔ LaterSib h r x e ∧ h.isElem e = true := by
    intro x hx e
    obtain ⟨l', h1, h2, _⟩ := nextElems_ok wf hx
    simp only [g, h1]
    exact h2 e
  have hfe := uniqueSiblingFirst_eq wf hw
  have hapart : (uniqueSiblingFirst h S).Pairwise fun a b => h.parent a ≠ h.parent b := by rw [hfe]; exact firstBy_pairwise _ _
  have hfs : (uniqueSiblingFirst h S).Sublist S := by rw [hfe]; exact firstBy_sublist _ _
  have hds : DocSorted h r (uniqueSiblingFirst h S) := List.Pairwise.sublist hfs hs
  -- the first sibling in the set
  have hfirst : ∀ a ∈ S, ∃ a' ∈ uniqueSiblingFirst h S, h.parent a' = h.parent a ∧ h.index a' ≤ h.index a := by
    intro a ha
    obtain ⟨a', h1, h2, h3⟩ := firstAsc_cover ha (SibAsc.firstAsc hsib [])
    rw [← hfe] at h1
    exact ⟨a', h1, h2, h3⟩
  rw [hres, hcs, List.filter_flatMap]
  unfold DocSorted
  rw [List.pairwise_flatMap]
  constructor
  · rintro ⟨_, h2⟩ ⟨a, ha, b, hb, z, e, f, hz, h3, h4, h4', h5, h6, h7, h8⟩
    obtain ⟨a', ha', pa, ia⟩ := hfirst a ha
    obtain ⟨b', hb', pb, ib⟩ := hfirst b hb
    have haw := hw a' (hsub a' ha')
    have hbw := hw b' (hsub b' hb')
    obtain ⟨z1, e1, ⟨p, zp, ep⟩, zi⟩ := (laterSib_index wf).1 h4
    obtain ⟨b1, f1, ⟨q, bq, fq⟩, bi⟩ := (laterSib_index wf).1 h4'
    have hza : h.parent a = some p ∧ h.index a ≤ h.index z := by
      rcases hz with rfl | hz
      · exact ⟨zp, Nat.le_refl _⟩
      · obtain ⟨_, _, ⟨p', h9, h10⟩, h11⟩ := (laterSib_index wf).1 hz
        rw [zp] at h10
        exact ⟨h9.trans h10.symm, Nat.le_of_lt h11⟩
    have hqw := (parent_some wf b1 bq).1
    have hbq := List.mem_of_getElem? (parent_some wf b1 bq).2
    have hzq : Within h z q := below_of_kid wf z1 hqw hbq h3
    have hzb : Below h z b' := below_of_within_child hzq (List.mem_of_getElem? (parent_some wf hbw (pb.trans bq)).2)
    have hzf : Below h z f := below_of_within_child hzq (List.mem_of_getElem? (parent_some wf f1 fq).2)
    obtain ⟨hpw, ika⟩ := parent_some wf haw (pa.trans hza.1)
    have ikz := (parent_some wf z1 zp).2
    have ike := (parent_some wf e1 ep).2
    have hab : Before h r a' b' := by
      rcases Nat.lt_or_eq_of_le (Nat.le_trans ia hza.2) with hlt | heq
      · exact Or.inr ⟨p, _, _, a', z, hpw, hlt, ika, ikz, .self, hzb.within⟩
      · rw [heq, ikz] at ika
        obtain rfl := Option.some.inj ika
        exact Or.inl hzb
    have hcase := pairwise_mem_before wf (fun x hx => hw x (hsub x hx)) hds ha' hb' hab h2
    have hbef := hcase e (by
      rw [List.mem_filter, hg a' haw]
      exact ⟨⟨(laterSib_index wf).2 ⟨haw, e1, ⟨p, pa.trans hza.1, ep⟩, by have := hza.2; omega⟩, h5⟩, by simpa using h7⟩) f (by
      rw [List.mem_filter, hg b' hbw]
      exact ⟨⟨(laterSib_index wf).2 ⟨hbw, f1, ⟨q, pb.trans bq, fq⟩, by omega⟩, h6⟩, by simpa using h8⟩)
    exact before_asymm wf e1 f1 hbef (Or.inr ⟨p, _, _, z, e, hpw, zi, ikz, ike, hzf.within, .self⟩)
  · intro hno
    refine ⟨fun a ha => ?_, List.Pairwise.imp_of_mem ?_ (List.Pairwise.and hds hapart)⟩
    · refine List.Pairwise.sublist List.filter_sublist ?_
      obtain ⟨l', h1, _, h3⟩ := nextElems_ok wf (hw a (hsub a ha))
      simp only [g, h1]
      rcases h3 with rfl | ⟨p, hp, _, hsl⟩
      · exact .nil
      · exact sublist_kids_docSorted hp hsl
    · rintro a b ha hb ⟨hab, hpar⟩ e he f hf
      have haw := hw a (hsub a ha)
      have hbw := hw b (hsub b hb)
      simp only [List.mem_filter, decide_eq_true_eq, hg a haw, hg b hbw] at he hf
      obtain ⟨_, e1, ⟨p, ap, ep⟩, ai⟩ := (laterSib_index wf).1 he.1.1
      obtain ⟨_, f1, ⟨q, bq, fq⟩, bi⟩ := (laterSib_index wf).1 hf.1.1
      obtain ⟨hpw, ika⟩ := parent_some wf haw ap
      have ike := (parent_some wf e1 ep).2
      obtain ⟨hqw, ikb⟩ := parent_some wf hbw bq
      have ikf := (parent_some wf f1 fq).2
      rcases hab with hbel | ⟨p', i', j', x, y, hp', hlt, hx, hy, hax, hby⟩
      · exact absurd ⟨a, hsub a ha, b, hsub b hb, a, e, f, Or.inl rfl, hbel, he.1.1, hf.1.1, he.1.2, hf.1.2, he.2, hf.2⟩ hno
      · have lx := wf.link p' i' x hp' hx
        have ly := wf.link p' j' y hp' hy
        have hxw : Within h r x := .step hp' (List.mem_of_getElem? hx)
        have hyw : Within h r y := .step hp' (List.mem_of_getElem? hy)
        have hfy : Below h y f ∨ ∃ j2, j' < j2 ∧ (h.kids p')[j2]? = some f := by
          rcases within_cases hby with rfl | hbel
          · right
            obtain rfl := Option.some.inj (bq.symm.trans ly.1)
            exact ⟨_, by omega, ikf⟩
          · exact Or.inl (below_of_within_child (below_of_kid wf hyw hqw (List.mem_of_getElem? ikb) hbel) (List.mem_of_getElem? ikf))
        rcases within_cases hax with rfl | hbel
        · obtain rfl := Option.some.inj (ap.symm.trans lx.1)
          rcases within_cases hby with rfl | hbel
          · exact absurd (lx.1.trans ly.1.symm) hpar
          · have hfy' : Below h y f :=
              below_of_within_child (below_of_kid wf hyw hqw (List.mem_of_getElem? ikb) hbel) (List.mem_of_getElem? ikf)
            rcases Nat.lt_trichotomy (h.index e) j' with hlt' | heq | hgt
            · exact Or.inr ⟨p, _, _, e, y, hp', hlt', ike, hy, .self, hfy'.within⟩
            · rw [heq, hy] at ike
              obtain rfl := Option.some.inj ike
              exact Or.inl hfy'
            · refine absurd ⟨x, hsub x ha, b, hsub b hb, y, e, f, Or.inr ?_, hbel, ?_, hf.1.1, he.1.2, hf.1.2, he.2, hf.2⟩ hno
              · exact ⟨p, i', j', hp', hlt, hx, hy⟩
              · exact ⟨p, j', _, hp', hgt, hy, ike⟩
        · have hex : Within h x e := .step (below_of_kid wf hxw hpw (List.mem_of_getElem? ika) hbel) (List.mem_of_getElem? ike)
          rcases hfy with hfy | ⟨j2, h2, h3⟩
          · exact Or.inr ⟨p', i', j', x, y, hp', hlt, hx, hy, hex, hfy.within⟩
          · exact Or.inr ⟨p', i', j2, x, f, hp', by omega, hx, h3, hex, .self⟩

/-- The children of the nested elements 1 and 2 of `nest` do not come in document order: 2 lies in 1, and the child 6 of 1 is behind it.
Those of 2 and 6 do. -/
example : CmpdOk nest 0 env0 true .any .child [ty "div"] ∧ DocSorted nest 0 [1, 2] ∧ DocSorted nest 0 [2, 6] ∧
    find nest env0 [1, 2] [[(.children, [ty "div"])]] = .ok [2, 6, 3] ∧ find nest env0 [2, 6] [[(.children, [ty "div"])]] = .ok [3] ∧
    (∃ a ∈ [1, 2], ∃ b ∈ [1, 2], ∃ c ∈ nest.kids a, ∃ e ∈ nest.kids a, ∃ f ∈ nest.kids b, Within nest c b ∧ nest.index c < nest.index e ∧
      nest.isElem e = true ∧ nest.isElem f = true) := by
  refine ⟨basic_cmpdOk (by simp) (by decide) _ _, sorted_of_klt nest_wf ?_ (by decide), sorted_of_klt nest_wf ?_ (by decide), by decide, by decide,
    1, by simp, 2, by simp, 2, by decide, 6, by decide, 3, by decide, .self, by decide, by decide, by decide⟩
  · intro x hx
    simp only [List.mem_cons, List.not_mem_nil, or_false] at hx
    rcases hx with rfl | rfl
    · exact wfCheck_within [0] (by decide) rfl
    · exact wfCheck_within [0, 1] (by decide) rfl
  · intro x hx
    simp only [List.mem_cons, List.not_mem_nil, or_false] at hx
    rcases hx with rfl | rfl
    · exact wfCheck_within [0, 1] (by decide) rfl
    · exact wfCheck_within [0, 1] (by decide) rfl

/-- Next and later siblings out of order: in `demo`, 6 lies below 1. -/
example : DocSorted demo 0 [1, 6] ∧ find demo env0 [1, 6] [[(.next, [.all])]] = .ok [8, 7] ∧
    find demo env0 [1, 6] [[(.nextAll, [.all])]] = .ok [8, 7] ∧ find demo env0 [2, 6] [[(.nextAll, [.all])]] = .ok [5, 7] := by
  refine ⟨sorted_of_klt demo_wf ?_ (by decide), by decide, by decide, by decide⟩
  intro x hx
  simp only [List.mem_cons, List.not_mem_nil, or_false] at hx
  rcases hx with rfl | rfl
  · exact wfCheck_within [0] (by decide) rfl
  · exact wfCheck_within [0, 1, 5] (by decide) rfl

end Visdom
