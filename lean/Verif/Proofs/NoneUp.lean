import Verif.Proofs.CandsMem
/-!
# Lists in which no member is at or above an earlier one

Such lists need not be in document order, but `unique_parents` does not panic on them.
-/
namespace Visdom
open Spec

variable {h : Heap} {r : Nat}

theorem NoneUp.sublist {l l' : List Nat} (hl : NoneUp h l) (hs : l'.Sublist l) : NoneUp h l' := List.Pairwise.sublist hs hl

section
variable (wf : TreeWF h r)
include wf

theorem before_not_within {a b : Nat} (ha : Within h r a) (hb : Within h r b) (hab : Before h r a b) : ¬ Within h b a := by
  intro hw
  rcases within_cases hw with rfl | hbel
  · exact before_irrefl wf ha hab
  · exact before_asymm wf ha hb hab (Or.inl hbel)

theorem docSorted_noneUp {l : List Nat} (hl : ∀ x ∈ l, Within h r x) (hs : DocSorted h r l) : NoneUp h l :=
  List.Pairwise.imp_of_mem (fun ha hb hab => before_not_within wf (hl _ ha) (hl _ hb) hab) hs

/-- The parent of something below `x` is in `x`. -/
theorem below_of_kid {x c p : Nat} (hx : Within h r x) (hp : Within h r p) (hc : c ∈ h.kids p) (hb : Below h x c) : Within h x p := by
  obtain ⟨q, hq, hqc⟩ := hb.last
  have h1 := parent_of_child wf (hx.trans hq) hqc
  have h2 := parent_of_child wf hp hc
  rw [h1] at h2
  obtain rfl : q = p := by simpa using h2
  exact hq

theorem children_noneUp {l : List Nat} (hl : ∀ x ∈ l, Within h r x) (hn : NoneUp h l) : NoneUp h (l.flatMap h.children) := by
  unfold NoneUp
  rw [List.pairwise_flatMap]
  refine ⟨fun x hx => ?_, List.Pairwise.imp_of_mem ?_ hn⟩
  · have hs := children_sibAsc wf (hl x hx)
    refine List.Pairwise.imp_of_mem ?_ hs
    intro a b ha hb hab hw
    have ka := (mem_children.1 ha).1
    have kb := (mem_children.1 hb).1
    have pa := parent_of_child wf (hl x hx) ka
    have pb := parent_of_child wf (hl x hx) kb
    have hidx := hab (pa.trans pb.symm)
    rcases within_cases hw with rfl | hbel
    · exact absurd hidx (Nat.lt_irrefl _)
    · have hxb := below_of_kid wf (.step (hl x hx) kb) (hl x hx) ka hbel
      exact before_irrefl wf (hl x hx) (Or.inl ⟨b, kb, hxb⟩)
  · intro a b ha hb hab c hc d hd hw
    have kc := (mem_children.1 hc).1
    have kd := (mem_children.1 hd).1
    refine hab ?_
    rcases within_cases hw with rfl | hbel
    · have := parent_of_child wf (hl a ha) kc
      rw [parent_of_child wf (hl b hb) kd] at this
      obtain rfl : b = a := by simpa using this
      exact .self
    · exact (Within.step .self kd).trans (below_of_kid wf (.step (hl b hb) kd) (hl a ha) kc hbel)

/-- A later sibling of the second is not above a later sibling of the first. -/
theorem laterSib_not_below {a b e f : Nat} (hab : Before h r a b) (he : LaterSib h r a e) (hf : LaterSib h r b f) : ¬ Below h f e := by
  intro hb
  have haw := (laterSib_within he).1
  have hbw := (laterSib_within hf).1
  have hfw := (laterSib_within hf).2
  obtain ⟨p, i, j, hp, _, hi, hj⟩ := he
  obtain ⟨q, k, m, hq, hkm, hk, hm⟩ := hf
  have h1 := below_of_kid wf hfw hp (List.mem_of_getElem? hj) hb
  have h2 : Within h f a := .step h1 (List.mem_of_getElem? hi)
  exact before_asymm wf haw hbw hab (Or.inr ⟨q, k, m, b, f, hq, hkm, hk, hm, .self, h2⟩)

theorem next_noneUp {l : List Nat} (hl : Nodes h r l) (hs : DocSorted h r l) : NoneUp h (l.filterMap h.nextElem) := by
  have hsib := filterMap_next_sibAsc wf hl (docSorted_sibAsc wf hl.within hs)
  have hn := hsib.nodup
  have : (l.filterMap h.nextElem).Pairwise fun e f => ¬ Below h f e := by
    rw [List.pairwise_filterMap]
    refine List.Pairwise.imp_of_mem ?_ hs
    intro a b ha hb hab e he f hf
    exact laterSib_not_below wf hab (nextSib_later ((mem_nextElem wf (hl a ha).1).1 he).1)
      (nextSib_later ((mem_nextElem wf (hl b hb).1).1 hf).1)
  refine List.Pairwise.imp ?_ (List.Pairwise.and this hn)
  rintro e f ⟨h1, h2⟩ hw
  rcases within_cases hw with rfl | hb
  · exact h2 rfl
  · exact h1 hb

theorem nextAll_noneUp {l cs : List Nat} (hl : ∀ x ∈ l, Within h r x) (hs : DocSorted h r l) (hc : cands h .nextAll l = .ok cs) :
    NoneUp h cs := by
  have hn := (nextAll_sibAsc wf hl hc).nodup
  have hsub : (uniqueSiblingFirst h l).Sublist l := by rw [uniqueSiblingFirst_eq wf hl]; exact firstBy_sublist _ _
  have he : cs = (uniqueSiblingFirst h l).flatMap (fun x => match h.nextElems x with | .ok o => o | .error _ => []) := by
    simp only [cands] at hc
    refine flatMapR_inv hc ?_
    intro x _ y hy
    rw [hy]
  have hmem : ∀ x ∈ uniqueSiblingFirst h l, ∀ e, e ∈ (match h.nextElems x with | .ok o => o | .error _ => []) → LaterSib h r x e := by
    intro x hx e hex
    obtain ⟨l', h1, h2, _⟩ := nextElems_ok wf (hl x (hsub.subset hx))
    rw [h1] at hex
    exact ((h2 e).1 hex).1
  have : cs.Pairwise fun e f => ¬ Below h f e := by
    rw [he, List.pairwise_flatMap]
    refine ⟨fun x hx => ?_, List.Pairwise.imp_of_mem ?_ (List.Pairwise.sublist hsub hs)⟩
    · refine List.Pairwise.imp_of_mem (R := fun _ _ => True) ?_ (List.pairwise_of_forall (fun _ _ => trivial))
      intro e f hex hfx _ hb
      have h1 := hmem x hx e hex
      have h2 := hmem x hx f hfx
      obtain ⟨p, i, j, hp, _, hi, hj⟩ := h1
      obtain ⟨q, k, m, hq, hkm, hk, hm⟩ := h2
      have e1 := (wf.link _ _ _ hp hi).1
      rw [(wf.link _ _ _ hq hk).1] at e1
      obtain rfl : q = p := by simpa using e1
      have := below_of_kid wf (.step hq (List.mem_of_getElem? hm)) hp (List.mem_of_getElem? hj) hb
      exact before_irrefl wf hq (Or.inl ⟨f, List.mem_of_getElem? hm, this⟩)
    · intro a b ha hb hab e hea f hfb
      exact laterSib_not_below wf hab (hmem a ha e hea) (hmem b hb f hfb)
  refine List.Pairwise.imp ?_ (List.Pairwise.and this hn)
  rintro e f ⟨h1, h2⟩ hw
  rcases within_cases hw with rfl | hb
  · exact h2 rfl
  · exact h1 hb

theorem uniqueParentsFrom_noneUp {top : Nat} {l : List Nat} (ht : Within h r top) (hl : ∀ x ∈ l, Within h r x)
    (hn : NoneUp h (top :: l)) : ∃ u, uniqueParentsFrom h top l = .ok u := by
  induction l generalizing top with
  | nil => exact ⟨[], rfl⟩
  | cons a l ih =>
    have ha := hl a List.mem_cons_self
    have hl' : ∀ x ∈ l, Within h r x := fun x hx => hl x (List.mem_cons_of_mem _ hx)
    obtain ⟨htop, hn2⟩ := List.pairwise_cons.1 hn
    have hta := htop a List.mem_cons_self
    have hrel := C13_relation_is_tree_relation wf ha ht
    by_cases hb : Below h top a
    · obtain ⟨u, hu⟩ := ih ht hl' (List.pairwise_cons.2 ⟨fun x hx => htop x (List.mem_cons_of_mem _ hx), (List.pairwise_cons.1 hn2).2⟩)
      exact ⟨u, by simp only [uniqueParentsFrom, hrel.2.1.2 hb]; exact hu⟩
    · have ho := hrel.2.2.2.2 ⟨fun e => hta (e ▸ .self), fun hb' => hta hb'.within, hb⟩
      obtain ⟨u, hu⟩ := ih ha hl' hn2
      exact ⟨a :: u, by simp only [uniqueParentsFrom, ho, hu, Except.map]⟩

/-- `unique_parents` does not panic when no element is at or above an earlier one. -/
theorem uniqueParents_noneUp {l : List Nat} (hl : ∀ x ∈ l, Within h r x) (hn : NoneUp h l) : ∃ u, uniqueParents h l = .ok u := by
  cases l with
  | nil => exact ⟨[], rfl⟩
  | cons a l =>
    obtain ⟨u, hu⟩ := uniqueParentsFrom_noneUp wf (hl a List.mem_cons_self) (fun x hx => hl x (List.mem_cons_of_mem _ hx)) hn
    exact ⟨a :: u, by simp only [uniqueParents, hu, Except.map]⟩

theorem childrenAll_noneUp {l : List Nat} (hl : ∀ x ∈ l, Within h r x) (hn : NoneUp h l) : ∃ cs, cands h .childrenAll l = .ok cs := by
  simp only [cands, overTops]
  split
  · obtain ⟨u, hu⟩ := uniqueParents_noneUp wf hl hn
    rw [hu]
    exact ⟨_, flatMapR_ok fun _ _ => rfl⟩
  · exact ⟨_, flatMapR_ok fun _ _ => rfl⟩

end
end Visdom
