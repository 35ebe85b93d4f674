import Verif.Spec.Forest
import Verif.Model.Mutate
import Verif.Proofs.Tree
import Mathlib.Order.WellFounded
/-!
# Replacing a part of one list of children keeps the forest well formed
-/
namespace Visdom
open Spec

section
variable {h h' : Heap} {D : Nat → Prop}

theorem Spec.Above.trans {a b c : Nat} (h1 : Above h a b) (h2 : Above h b c) : Above h a c := by
  induction h2 with
  | parent hp => exact .step h1 hp
  | step _ hp ih => exact .step ih hp

theorem above_cases {a x p : Nat} (h1 : Above h a x) (hp : h.parent x = some p) : a = p ∨ Above h a p := by
  cases h1 with
  | parent h2 => rw [hp] at h2; cases h2; exact .inl rfl
  | step h2 h3 => rw [hp] at h3; cases h3; exact .inr h2

theorem Spec.HeapOk.not_above_self (ok : HeapOk h D) (x : Nat) : ¬ Above h x x := by
  intro hx
  -- `Above` is contained in the transitive closure of a well founded relation
  have h1 : ∀ a y, Above h a y → Relation.TransGen (fun p x => h.parent x = some p) a y := by
    intro a y hy
    induction hy with
    | parent hp => exact .single hp
    | step _ hp ih => exact .tail ih hp
  exact (WellFounded.irrefl ok.ground.transGen).irrefl x (h1 x x hx)

theorem Spec.HeapOk.kid_index_unique (ok : HeapOk h D) {p q i j c : Nat} (hp : ¬ D p) (hq : ¬ D q)
    (h1 : (h.kids p)[i]? = some c) (h2 : (h.kids q)[j]? = some c) : p = q ∧ i = j := by
  obtain ⟨a1, a2⟩ := ok.link p i c hp h1
  obtain ⟨b1, b2⟩ := ok.link q j c hq h2
  rw [a1] at b1
  cases b1
  exact ⟨rfl, a2.symm.trans b2⟩

theorem Spec.HeapOk.parent_ne (ok : HeapOk h D) {x p : Nat} (hp : h.parent x = some p) : x ≠ p := by
  rintro rfl
  exact (WellFounded.irrefl ok.ground).irrefl x hp

theorem Spec.HeapOk.kid_parent (ok : HeapOk h D) {p c : Nat} (hp : ¬ D p) (hc : c ∈ h.kids p) : h.parent c = some p := by
  obtain ⟨i, hi⟩ := List.getElem?_of_mem hc
  exact (ok.link p i c hp hi).1

theorem Spec.HeapOk.kid_unique (ok : HeapOk h D) {p q c : Nat} (hp : ¬ D p) (hq : ¬ D q)
    (h1 : c ∈ h.kids p) (h2 : c ∈ h.kids q) : p = q := by
  have := ok.kid_parent hp h1
  rw [ok.kid_parent hq h2] at this
  cases this
  rfl

theorem Spec.HeapOk.kids_nodup (ok : HeapOk h D) {p : Nat} (hp : ¬ D p) : (h.kids p).Nodup := by
  rw [List.nodup_iff_injective_getElem]
  intro i j hij
  have h1 : (h.kids p)[i.1]? = some (h.kids p)[i.1] := List.getElem?_eq_getElem i.2
  have h2 : (h.kids p)[j.1]? = some (h.kids p)[j.1] := List.getElem?_eq_getElem j.2
  simp only at hij
  rw [← hij] at h2
  exact Fin.ext (ok.kid_index_unique hp hp h1 h2).2

/-- Parent links are changed to `p` for the nodes `N`, none of which is `p` or above it: still no infinite chain. -/
theorem ground_reparent (wf : WellFounded fun p x => h.parent x = some p) {p : Nat} {N : List Nat}
    (hpar : ∀ y, h'.parent y = if y ∈ N then some p else h.parent y)
    (hN : ∀ n ∈ N, n ≠ p ∧ ¬ Above h n p) : WellFounded fun p x => h'.parent x = some p := by
  have clean : ∀ x, x ∉ N → (∀ n ∈ N, ¬ Above h n x) → Acc (fun p x => h'.parent x = some p) x := by
    intro x
    induction x using wf.induction with
    | _ x ih =>
      intro h1 h2
      refine ⟨x, fun q hq => ?_⟩
      rw [hpar, if_neg h1] at hq
      exact ih q hq (fun h3 => h2 q h3 (.parent hq)) (fun n hn h3 => h2 n hn (.step h3 hq))
  have hp : Acc (fun p x => h'.parent x = some p) p :=
    clean p (fun h1 => (hN p h1).1 rfl) (fun n hn => (hN n hn).2)
  refine ⟨fun x => ?_⟩
  induction x using wf.induction with
  | _ x ih =>
    refine ⟨x, fun q hq => ?_⟩
    rw [hpar] at hq
    split at hq
    · cases hq; exact hp
    · exact ih q hq

/-- What is required of the nodes `N` to be put among the children of `p`. -/
structure Placeable (h : Heap) (D : Nat → Prop) (p : Nat) (N : List Nat) : Prop where
  free : ∀ n ∈ N, ∀ q, ¬ D q → n ∉ h.kids q
  kind : ∀ n ∈ N, (h.node n).kind ≠ .root
  bound : ∀ n ∈ N, n < h.size
  above : ∀ n ∈ N, n ≠ p ∧ ¬ Above h n p

theorem Spec.Spliced.ok {p : Nat} {A M N B : List Nat} (s : Spliced h h' p A M N B) (ok : HeapOk h D) (hp : ¬ D p)
    (hb : p < h.size) (hk : (h.node p).kind = .root ∨ (h.node p).kind = .tag) (hN : Placeable h D p N) : HeapOk h' D := by
  have hAB : ∀ c, c ∈ A ∨ c ∈ B → c ∈ h.kids p := by
    intro c hc
    rw [s.old]
    simp only [List.mem_append]
    tauto
  refine ⟨?_, ?_, ?_, ?_, ?_, ?_, ?_⟩
  · intro q i c hq hc
    by_cases e : q = p
    · subst e
      rw [s.new] at hc
      refine ⟨?_, s.index i c hc⟩
      rw [s.parent]
      split
      · rfl
      · rename_i hn
        have := List.mem_of_getElem? hc
        simp only [List.mem_append] at this
        exact ok.kid_parent hp (hAB c (by tauto))
    · rw [s.other q e] at hc
      have hm := List.mem_of_getElem? hc
      have hnN : c ∉ N := fun h1 => hN.free c h1 q hq hm
      have hnot : c ∉ A ++ N ++ B := by
        simp only [List.mem_append]
        rintro ((h1 | h1) | h1)
        · exact e (ok.kid_unique hq hp hm (hAB c (.inl h1)))
        · exact hnN h1
        · exact e (ok.kid_unique hq hp hm (hAB c (.inr h1)))
      rw [s.parent, if_neg hnN, s.indexOther c hnot]
      exact ok.link q i c hq hc
  · intro q c hq hc
    rw [(s.data c).1]
    by_cases e : q = p
    · subst e
      rw [s.new] at hc
      simp only [List.mem_append] at hc
      rcases hc with (h1 | h1) | h1
      · exact ok.kid q c hq (hAB c (.inl h1))
      · exact hN.kind c h1
      · exact ok.kid q c hq (hAB c (.inr h1))
    · rw [s.other q e] at hc
      exact ok.kid q c hq hc
  · intro x hx
    rw [(s.data x).1] at hx
    rw [s.parent, if_neg (fun h1 => hN.kind x h1 hx)]
    exact ok.top x hx
  · intro x h1 h2
    rw [(s.data x).1] at h1 h2
    have e : x ≠ p := by
      rintro rfl
      rcases hk with hk | hk
      · exact h1 hk
      · exact h2 hk
    rw [s.other x e]
    exact ok.leaf x h1 h2
  · intro x q hq
    rw [s.size]
    rw [s.parent] at hq
    split at hq
    · rename_i hx
      cases hq
      exact ⟨hN.bound x hx, hb⟩
    · exact ok.bound x q hq
  · exact ground_reparent ok.ground s.parent hN.above
  · intro x hx
    rw [(s.data x).1, s.size]
    exact ok.dead x hx

/-- The new nodes are in place. -/
theorem Spec.Spliced.attached_new {p : Nat} {A M N B : List Nat} (s : Spliced h h' p A M N B) (hp : ¬ D p) {n : Nat}
    (hn : n ∈ N) : Attached h' D n := by
  intro q hq
  rw [s.parent, if_pos hn] at hq
  cases hq
  refine ⟨hp, ?_⟩
  obtain ⟨i, hi⟩ := List.getElem?_of_mem (show n ∈ A ++ N ++ B by simp [hn])
  rw [s.new, s.index i n hi, hi]

/-- The nodes that stay are still in place. -/
theorem Spec.Spliced.attached_old {p : Nat} {A M N B : List Nat} (s : Spliced h h' p A M N B) (ok : HeapOk h D) (hp : ¬ D p)
    {y : Nat} (hy : Attached h D y) (hM : y ∉ M) (hN : Placeable h D p N) : Attached h' D y := by
  by_cases hyN : y ∈ N
  · exact s.attached_new hp hyN
  intro q hq
  rw [s.parent, if_neg hyN] at hq
  obtain ⟨h1, h2⟩ := hy q hq
  refine ⟨h1, ?_⟩
  by_cases e : q = p
  · subst e
    have hm := List.mem_of_getElem? h2
    rw [s.old] at hm
    simp only [List.mem_append] at hm
    obtain ⟨i, hi⟩ := List.getElem?_of_mem (show y ∈ A ++ N ++ B by simp only [List.mem_append]; tauto)
    rw [s.new, s.index i y hi, hi]
  · have hm := List.mem_of_getElem? h2
    have hnot : y ∉ A ++ N ++ B := by
      intro h3
      simp only [List.mem_append] at h3
      have : y ∈ h.kids p := by
        rw [s.old]; simp only [List.mem_append]; tauto
      exact e (ok.kid_unique h1 hp hm this)
    rw [s.other q e, s.indexOther y hnot, h2]

end

/-- A document in such a heap is a well formed tree. -/
theorem Spec.HeapOk.tree {h : Heap} {D : Nat → Prop} (ok : HeapOk h D) {r : Nat} (hr : (h.node r).kind = .root) (hD : ¬ D r)
    (hb : r < h.size) : TreeWF h r := by
  have live : ∀ x, Within h r x → ¬ D x ∧ ((h.node x).kind = .root → x = r) ∧ x < h.size := by
    intro x hx
    induction hx with
    | self => exact ⟨hD, fun _ => rfl, hb⟩
    | step _ hc ih =>
      have := ok.kid _ _ ih.1 hc
      exact ⟨fun h1 => this (ok.dead _ h1).1, fun h1 => absurd h1 this, (ok.bound _ _ (ok.kid_parent ih.1 hc)).1⟩
  exact ⟨ok.top r hr, hr, fun x hx => (live x hx).2.1, fun x _ h1 h2 => ok.leaf x h1 h2,
    fun p i c hp hc => ok.link p i c (live p hp).1 hc, fun x hx => (live x hx).2.2⟩

end Visdom
