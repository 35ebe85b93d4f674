import Verif.Proofs.Lists
/-!
# Descendants, ancestors and topmost elements
-/
namespace Visdom
open Spec

/-- The element descendants in depth first order. -/
def descFuel (h : Heap) : Nat → Nat → List Nat
  | 0, _ => []
  | n + 1, x => (h.children x).flatMap fun c => c :: descFuel h n c

/-- Sorted in document order, no member below another. -/
def AntiSorted (h : Heap) (r : Nat) (l : List Nat) : Prop := l.Pairwise fun a b => Before h r a b ∧ ¬ Below h a b

variable {h : Heap} {r : Nat}

theorem AntiSorted.docSorted {l : List Nat} (hs : AntiSorted h r l) : DocSorted h r l := List.Pairwise.imp And.left hs

theorem kids_positions (x : Nat) : (h.kids x).Pairwise fun a b => ∃ i j : Nat, i < j ∧ (h.kids x)[i]? = some a ∧ (h.kids x)[j]? = some b := by
  rw [List.pairwise_iff_getElem]
  intro i j hi hj hlt
  exact ⟨i, j, hlt, List.getElem?_eq_getElem hi, List.getElem?_eq_getElem hj⟩

theorem children_positions (x : Nat) :
    (h.children x).Pairwise fun a b => ∃ i j : Nat, i < j ∧ (h.kids x)[i]? = some a ∧ (h.kids x)[j]? = some b :=
  List.Pairwise.sublist List.filter_sublist (kids_positions x)

theorem Spec.Below.snoc {x p c : Nat} (hb : Within h x p) (hc : c ∈ h.kids p) : Below h x c := by
  rcases within_cases hb with rfl | hb
  · exact Below.of_child hc
  · obtain ⟨d, hd, hw⟩ := hb
    exact ⟨d, hd, .step hw hc⟩

theorem Spec.Below.last {x e : Nat} (hb : Below h x e) : ∃ p, Within h x p ∧ e ∈ h.kids p := by
  obtain ⟨c, hc, hw⟩ := hb
  cases hw with
  | self => exact ⟨x, .self, hc⟩
  | step hp he => exact ⟨_, Within.head hc hp, he⟩

variable (wf : TreeWF h r)
include wf

theorem elem_of_kid {p c : Nat} (hp : Within h r p) (hc : c ∈ h.kids p) (hne : p ≠ r) : h.isElem p = true := by
  by_contra hno
  have h1 : (h.node p).kind ≠ .root := fun e => hne (wf.onlyRoot p hp e)
  have h2 : (h.node p).kind ≠ .tag := by
    intro e; apply hno; unfold Heap.isElem; rw [e]; rfl
  rw [wf.leaf p hp h1 h2] at hc
  cases hc

theorem isRoot_iff {p : Nat} (hp : Within h r p) : h.isRoot p = true ↔ p = r := by
  unfold Heap.isRoot
  constructor
  · intro e; exact wf.onlyRoot p hp (by simpa using e)
  · rintro rfl; rw [wf.rootKind]; rfl

/-- Two branches of a node share nothing. -/
theorem branches_apart {p i j a b x : Nat} (hp : Within h r p) (hij : i < j) (ha : (h.kids p)[i]? = some a)
    (hb : (h.kids p)[j]? = some b) (h1 : Within h a x) (h2 : Within h b x) : False := by
  have hx : Within h r x := (Within.step hp (List.mem_of_getElem? ha)).trans h1
  exact before_irrefl wf hx (Or.inr ⟨p, i, j, a, b, hp, hij, ha, hb, h1, h2⟩)

theorem mem_descFuel {n x : Nat} {π : List Nat} (hx : At h r π x) (hn : h.size ≤ π.length + n) (e : Nat) :
    e ∈ descFuel h n x ↔ Below h x e ∧ h.isElem e = true := by
  induction n generalizing x π with
  | zero => have := path_length wf hx; omega
  | succ n ih =>
    simp only [descFuel, List.mem_flatMap, List.mem_cons, mem_children]
    have hxw := hx.within
    constructor
    · rintro ⟨c, ⟨hc, hce⟩, rfl | he⟩
      · exact ⟨Below.of_child hc, hce⟩
      · obtain ⟨i, hi⟩ := List.getElem?_of_mem hc
        have := (ih (.step hx hi) (by simp; omega)).1 he
        exact ⟨(Below.of_child hc).trans this.1, this.2⟩
    · rintro ⟨⟨c, hc, hw⟩, he⟩
      obtain ⟨i, hi⟩ := List.getElem?_of_mem hc
      rcases within_cases hw with rfl | hb
      · exact ⟨c, ⟨hc, he⟩, Or.inl rfl⟩
      · have hcr := child_ne_root wf hxw hc
        have hce : h.isElem c = true := by
          obtain ⟨d, hd, _⟩ := hb
          exact elem_of_kid wf (.step hxw hc) hd hcr
        exact ⟨c, ⟨hc, hce⟩, Or.inr ((ih (.step hx hi) (by simp; omega)).2 ⟨hb, he⟩)⟩

theorem descFuel_sorted {n x : Nat} {π : List Nat} (hx : At h r π x) (hn : h.size ≤ π.length + n) :
    DocSorted h r (descFuel h n x) := by
  induction n generalizing x π with
  | zero => exact .nil
  | succ n ih =>
    unfold DocSorted
    simp only [descFuel]
    rw [List.pairwise_flatMap]
    have hxw := hx.within
    constructor
    · intro c hc
      obtain ⟨hc, hce⟩ := mem_children.1 hc
      obtain ⟨i, hi⟩ := List.getElem?_of_mem hc
      refine List.pairwise_cons.2 ⟨?_, ih (.step hx hi) (by simp; omega)⟩
      intro e he
      exact Or.inl ((mem_descFuel wf (.step hx hi) (by simp; omega) e).1 he).1
    · refine List.Pairwise.imp_of_mem ?_ (children_positions x)
      rintro a b ha hb ⟨i, j, hij, hia, hjb⟩ y hy z hz
      have hin : ∀ c k : Nat, (h.kids x)[k]? = some c → ∀ y ∈ c :: descFuel h n c, Within h c y := by
        intro c k hk y hy
        rcases List.mem_cons.1 hy with rfl | hy
        · exact .self
        · exact ((mem_descFuel wf (.step hx hk) (by simp; omega) y).1 hy).1.within
      exact Or.inr ⟨x, i, j, a, b, hxw, hij, hia, hjb, hin a i hia y hy, hin b j hjb z hz⟩

theorem mem_desc {x : Nat} (hx : Within h r x) (e : Nat) :
    e ∈ descFuel h h.fuel x ↔ Below h x e ∧ h.isElem e = true := by
  obtain ⟨π, hπ⟩ := hx.path
  exact mem_descFuel wf hπ (by unfold Heap.fuel; omega) e

theorem desc_sorted {x : Nat} (hx : Within h r x) : DocSorted h r (descFuel h h.fuel x) := by
  obtain ⟨π, hπ⟩ := hx.path
  exact descFuel_sorted wf hπ (by unfold Heap.fuel; omega)

theorem ancestorsFuel_ok {n x : Nat} {π : List Nat} (hx : At h r π x) (hn : π.length < n) :
    ∃ l, ancestorsFuel h n x = .ok l ∧ ∀ e, e ∈ l ↔ Within h r e ∧ Below h e x ∧ h.isElem e = true := by
  induction n generalizing x π with
  | zero => omega
  | succ n ih =>
    by_cases hne : x = r
    · subst hne
      refine ⟨[], by simp [ancestorsFuel, wf.rootParent], ?_⟩
      intro e
      constructor
      · intro he; cases he
      · rintro ⟨h1, h2, h3⟩
        obtain ⟨p, hp, hc⟩ := h2.last
        exact absurd rfl (child_ne_root wf (h1.trans hp) hc)
    · obtain ⟨p, hpar, hpw, hidx⟩ := parent_inv wf hx.within hne
      obtain ⟨ρ, hρ⟩ := hpw.path
      have hπ : π = ρ ++ [h.index x] := path_unique wf hx (.step hρ hidx)
      have hbel : ∀ e, Within h r e → (Below h e x ↔ e = p ∨ Below h e p) := by
        intro e he
        constructor
        · intro hb
          obtain ⟨q, hq, hc⟩ := hb.last
          have := parent_of_child wf (he.trans hq) hc
          rw [hpar] at this
          obtain rfl : p = q := by simpa using this
          exact within_cases hq
        · rintro (rfl | hb)
          · exact Below.of_child (List.mem_of_getElem? hidx)
          · exact Below.snoc hb.within (List.mem_of_getElem? hidx)
      by_cases hpr : p = r
      · refine ⟨[], by simp [ancestorsFuel, hpar, (isRoot_iff wf hpw).2 hpr], ?_⟩
        intro e
        constructor
        · intro he; cases he
        · rintro ⟨h1, h2, h3⟩
          exfalso
          rcases (hbel e h1).1 h2 with rfl | hb
          · exact elem_ne_root wf h3 hpr
          · rw [hpr] at hb
            obtain ⟨q, hq, hc⟩ := hb.last
            exact absurd rfl (child_ne_root wf (h1.trans hq) hc)
      · obtain ⟨l, hl, hm⟩ := ih hρ (by rw [hπ] at hn; simp at hn; omega)
        have hnr : h.isRoot p = false := by
          rw [Bool.eq_false_iff]; intro e; exact hpr ((isRoot_iff wf hpw).1 e)
        refine ⟨l ++ [p], by simp [ancestorsFuel, hpar, hnr, hl], ?_⟩
        intro e
        rw [List.mem_append, List.mem_singleton, hm]
        constructor
        · rintro (⟨h1, h2, h3⟩ | rfl)
          · exact ⟨h1, (hbel e h1).2 (Or.inr h2), h3⟩
          · exact ⟨hpw, (hbel e hpw).2 (Or.inl rfl), elem_of_kid wf hpw (List.mem_of_getElem? hidx) hpr⟩
        · rintro ⟨h1, h2, h3⟩
          rcases (hbel e h1).1 h2 with rfl | hb
          · exact Or.inr rfl
          · exact Or.inl ⟨h1, hb, h3⟩

theorem ancestors_ok {x : Nat} (hx : Within h r x) :
    ∃ l, ancestorsFuel h h.fuel x = .ok l ∧ ∀ e, e ∈ l ↔ Within h r e ∧ Below h e x ∧ h.isElem e = true := by
  obtain ⟨π, hπ⟩ := hx.path
  exact ancestorsFuel_ok wf hπ (by have := path_length wf hπ; unfold Heap.fuel; omega)

/-- Whatever the order: every element is one of the kept ones or below one. -/
theorem uniqueParentsFrom_cover {top : Nat} {l u : List Nat} (ht : Within h r top) (hl : ∀ x ∈ l, Within h r x)
    (hu : uniqueParentsFrom h top l = .ok u) :
    (∀ x ∈ u, x ∈ l) ∧ ∀ x ∈ l, ∃ t ∈ top :: u, Within h t x := by
  induction l generalizing top u with
  | nil =>
    simp only [uniqueParentsFrom, Except.ok.injEq] at hu
    simp [← hu]
  | cons a l ih =>
    have ha := hl a List.mem_cons_self
    have hl' : ∀ x ∈ l, Within h r x := fun x hx => hl x (List.mem_cons_of_mem _ hx)
    simp only [uniqueParentsFrom] at hu
    have hrel := C13_relation_is_tree_relation wf ha ht
    split at hu
    · cases hrec : uniqueParentsFrom h a l with
      | error e => rw [hrec] at hu; cases hu
      | ok v =>
        rw [hrec] at hu
        simp only [Except.map, Except.ok.injEq] at hu
        subst hu
        obtain ⟨h1, h2⟩ := ih ha hl' hrec
        refine ⟨?_, ?_⟩
        · intro x hx
          rcases List.mem_cons.1 hx with rfl | hx
          · exact List.mem_cons_self
          · exact List.mem_cons_of_mem _ (h1 x hx)
        · intro x hx
          rcases List.mem_cons.1 hx with rfl | hx
          · exact ⟨x, by simp, .self⟩
          · obtain ⟨t, ht, hw⟩ := h2 x hx
            exact ⟨t, List.mem_cons_of_mem _ ht, hw⟩
    · rename_i hd
      obtain ⟨h1, h2⟩ := ih ht hl' hu
      refine ⟨fun x hx => List.mem_cons_of_mem _ (h1 x hx), ?_⟩
      intro x hx
      rcases List.mem_cons.1 hx with rfl | hx
      · exact ⟨top, List.mem_cons_self, ((hrel.2.1.1 hd)).within⟩
      · exact h2 x hx
    · cases hu

theorem uniqueParents_cover {l u : List Nat} (hl : ∀ x ∈ l, Within h r x) (hu : uniqueParents h l = .ok u) :
    (∀ x ∈ u, x ∈ l) ∧ ∀ x ∈ l, ∃ t ∈ u, Within h t x := by
  cases l with
  | nil => simp only [uniqueParents, Except.ok.injEq] at hu; simp [← hu]
  | cons a l =>
    simp only [uniqueParents] at hu
    cases hrec : uniqueParentsFrom h a l with
    | error e => rw [hrec] at hu; cases hu
    | ok v =>
      rw [hrec] at hu
      simp only [Except.map, Except.ok.injEq] at hu
      subst hu
      obtain ⟨h1, h2⟩ := uniqueParentsFrom_cover wf (hl a List.mem_cons_self)
        (fun x hx => hl x (List.mem_cons_of_mem _ hx)) hrec
      refine ⟨?_, ?_⟩
      · intro x hx
        rcases List.mem_cons.1 hx with rfl | hx
        · exact List.mem_cons_self
        · exact List.mem_cons_of_mem _ (h1 x hx)
      · intro x hx
        rcases List.mem_cons.1 hx with rfl | hx
        · exact ⟨x, List.mem_cons_self, .self⟩
        · exact h2 x hx

/-- `a` lies in an earlier branch than `b`. -/
theorem before_not_below {a b : Nat} : (Before h r a b ∧ ¬ Below h a b) ↔
    ∃ p i j A B : Nat, Within h r p ∧ i < j ∧ (h.kids p)[i]? = some A ∧ (h.kids p)[j]? = some B ∧
      Within h A a ∧ Within h B b := by
  constructor
  · rintro ⟨h1 | h1, h2⟩
    · exact absurd h1 h2
    · exact h1
  · rintro ⟨p, i, j, A, B, hp, hij, hA, hB, h1, h2⟩
    refine ⟨Or.inr ⟨p, i, j, A, B, hp, hij, hA, hB, h1, h2⟩, ?_⟩
    intro hb
    exact branches_apart wf hp hij hA hB (h1.trans hb.within) h2

theorem apart_extend {a b a' b' : Nat} (hab : Before h r a b ∧ ¬ Below h a b) (ha : Within h a a')
    (hb : Within h b b') : Before h r a' b' ∧ ¬ Below h a' b' := by
  rw [before_not_below wf] at hab ⊢
  obtain ⟨p, i, j, A, B, hp, hij, hA, hB, h1, h2⟩ := hab
  exact ⟨p, i, j, A, B, hp, hij, hA, hB, h1.trans ha, h2.trans hb⟩

/-- On a list in document order `unique_parents` succeeds and keeps a sorted antichain. -/
theorem uniqueParentsFrom_sorted {top : Nat} {l : List Nat} (ht : Within h r top) (hl : ∀ x ∈ l, Within h r x)
    (hs : DocSorted h r (top :: l)) :
    ∃ u, uniqueParentsFrom h top l = .ok u ∧ AntiSorted h r (top :: u) ∧ u.Sublist l := by
  induction l generalizing top with
  | nil => exact ⟨[], rfl, List.pairwise_singleton _ _, List.Sublist.refl _⟩
  | cons a l ih =>
    have ha := hl a List.mem_cons_self
    have hl' : ∀ x ∈ l, Within h r x := fun x hx => hl x (List.mem_cons_of_mem _ hx)
    obtain ⟨htop, hs2⟩ := List.pairwise_cons.1 hs
    have hta := htop a List.mem_cons_self
    have hrel := C13_relation_is_tree_relation wf ha ht
    have hne : a ≠ top := by rintro rfl; exact before_irrefl wf ha hta
    have hnb : ¬ Below h a top := fun hb => before_asymm wf ht ha hta (Or.inl hb)
    by_cases hb : Below h top a
    · have hd := hrel.2.1.2 hb
      have hs' : DocSorted h r (top :: l) :=
        List.pairwise_cons.2 ⟨fun x hx => htop x (List.mem_cons_of_mem _ hx), (List.pairwise_cons.1 hs2).2⟩
      obtain ⟨u, h1, h2, h3⟩ := ih ht hl' hs'
      exact ⟨u, by simp only [uniqueParentsFrom, hd]; exact h1, h2, h3.cons _⟩
    · have ho := hrel.2.2.2.2 ⟨hne, hnb, hb⟩
      obtain ⟨u, h1, h2, h3⟩ := ih ha hl' hs2
      refine ⟨a :: u, by simp only [uniqueParentsFrom, ho, h1, Except.map], ?_, h3.cons_cons _⟩
      refine List.pairwise_cons.2 ⟨?_, h2⟩
      intro x hx
      rcases List.mem_cons.1 hx with rfl | hx
      · exact ⟨hta, hb⟩
      · have hax := (List.pairwise_cons.1 h2).1 x hx
        have hxw := hl' x (h3.subset hx)
        refine ⟨htop x (List.mem_cons_of_mem _ (h3.subset hx)), ?_⟩
        intro hbx
        -- `top` before `a` before `x`, `top` not above `a`, so `top` is not above `x`
        obtain ⟨p, i, j, A, B, hp, hij, hA, hB, hwA, hwB⟩ := (before_not_below wf).1 ⟨hta, hb⟩
        -- `x` is within `A`, hence before everything in `B`
        have hxA : Within h A x := hwA.trans hbx.within
        exact before_asymm wf hxw ha (Or.inr ⟨p, i, j, A, B, hp, hij, hA, hB, hxA, hwB⟩) hax.1

theorem uniqueParents_sorted {l : List Nat} (hl : ∀ x ∈ l, Within h r x) (hs : DocSorted h r l) :
    ∃ u, uniqueParents h l = .ok u ∧ AntiSorted h r u ∧ u.Sublist l := by
  cases l with
  | nil => exact ⟨[], rfl, .nil, List.Sublist.refl _⟩
  | cons a l =>
    obtain ⟨u, h1, h2, h3⟩ := uniqueParentsFrom_sorted wf (hl a List.mem_cons_self)
      (fun x hx => hl x (List.mem_cons_of_mem _ hx)) hs
    exact ⟨a :: u, by simp only [uniqueParents, h1, Except.map], h2, h3.cons_cons _⟩

/-- The descendants of a sorted antichain, one after the other, are in document order. -/
theorem flatMap_desc_sorted {u : List Nat} (hu : ∀ x ∈ u, Within h r x) (hs : AntiSorted h r u) :
    DocSorted h r (u.flatMap (descFuel h h.fuel)) := by
  unfold DocSorted
  rw [List.pairwise_flatMap]
  refine ⟨fun x hx => desc_sorted wf (hu x hx), ?_⟩
  refine List.Pairwise.imp_of_mem ?_ hs
  intro a b ha hb hab x hx y hy
  exact (apart_extend wf hab ((mem_desc wf (hu a ha) x).1 hx).1.within ((mem_desc wf (hu b hb) y).1 hy).1.within).1

/-- The children of a sorted antichain are a sorted antichain. -/
theorem flatMap_children_anti {u : List Nat} (hu : ∀ x ∈ u, Within h r x) (hs : AntiSorted h r u) :
    AntiSorted h r (u.flatMap h.children) := by
  unfold AntiSorted
  rw [List.pairwise_flatMap]
  constructor
  · intro x hx
    refine List.Pairwise.imp ?_ (children_positions x)
    rintro a b ⟨i, j, hij, hi, hj⟩
    exact (before_not_below wf).2 ⟨x, i, j, a, b, hu x hx, hij, hi, hj, .self, .self⟩
  · refine List.Pairwise.imp_of_mem ?_ hs
    intro a b ha hb hab x hx y hy
    exact apart_extend wf hab (.step .self (mem_children.1 hx).1) (.step .self (mem_children.1 hy).1)

theorem children_sibAsc {x : Nat} (hx : Within h r x) : SibAsc h (h.children x) := by
  refine List.Pairwise.imp ?_ (children_positions x)
  rintro a b ⟨i, j, hij, hi, hj⟩ _
  rw [(wf.link _ _ _ hx hi).2, (wf.link _ _ _ hx hj).2]
  exact hij

theorem sublist_kids_sibAsc {p : Nat} {l : List Nat} (hp : Within h r p) (hl : l.Sublist (h.kids p)) : SibAsc h l := by
  refine List.Pairwise.sublist hl (List.Pairwise.imp ?_ (kids_positions p))
  rintro a b ⟨i, j, hij, hi, hj⟩ _
  rw [(wf.link _ _ _ hp hi).2, (wf.link _ _ _ hp hj).2]
  exact hij

omit wf in
theorem children_docSorted {x : Nat} (hx : Within h r x) : DocSorted h r (h.children x) := by
  refine List.Pairwise.imp ?_ (children_positions x)
  rintro a b ⟨i, j, hij, hi, hj⟩
  exact Or.inr ⟨x, i, j, a, b, hx, hij, hi, hj, .self, .self⟩

omit wf in
theorem sublist_kids_docSorted {p : Nat} {l : List Nat} (hp : Within h r p) (hl : l.Sublist (h.kids p)) : DocSorted h r l := by
  refine List.Pairwise.sublist hl (List.Pairwise.imp ?_ (kids_positions p))
  rintro a b ⟨i, j, hij, hi, hj⟩
  exact Or.inr ⟨p, i, j, a, b, hp, hij, hi, hj, .self, .self⟩

/-- Blocks of siblings with different parents. -/
theorem flatMap_sibAsc {G : Nat → List Nat} {key : Nat → Option Nat} {L : List Nat}
    (h1 : ∀ a ∈ L, SibAsc h (G a)) (h2 : ∀ a ∈ L, ∀ x ∈ G a, h.parent x = key a)
    (h3 : L.Pairwise fun a b => key a ≠ key b) : SibAsc h (L.flatMap G) := by
  unfold SibAsc
  rw [List.pairwise_flatMap]
  refine ⟨h1, ?_⟩
  refine List.Pairwise.imp_of_mem ?_ h3
  intro a b ha hb hab x hx y hy hp
  rw [h2 a ha x hx, h2 b hb y hy] at hp
  exact absurd hp hab

omit wf in
theorem not_root_elem {x : Nat} (hx : h.isElem x = true) (wf : TreeWF h r) : x ≠ r := elem_ne_root wf hx

end Visdom
