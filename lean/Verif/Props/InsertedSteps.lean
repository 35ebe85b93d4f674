import Verif.Props.SiblingMethods
import Verif.Props.InsertMany
/-!
# C108: an inserted element is reached by the steps from where it was put
-/
namespace Visdom
open Spec

section
variable {h : Heap} {D : Nat → Prop} {e : Ext}

/-- The previous one of an element whose parent has the element children `as`, `x`, `bs`. -/
theorem neighbour_prev {t x : Nat} {as bs : List Nat} (ok : HeapOk h D) (ht : ¬ D t) (hc : h.children t = as ++ x :: bs) : h.prevElem x = .ok as.getLast? := by
  have hp := (neighbours ok ht hc).2.1
  have hx : x ∈ h.kids t := (List.mem_filter.1 (show x ∈ h.children t by rw [hc]; simp)).1
  have hpar := ok.kid_parent ht hx
  unfold Heap.prevElems at hp
  unfold Heap.prevElem
  simp only [hpar] at hp ⊢
  split at hp
  · cases hp
  · rename_i hn
    rw [if_neg hn, ← Except.ok.inj hp, List.getLast?_eq_head?_reverse, ← List.filter_reverse, List.head?_filter]

/-- **C108, beside**: an element put before another one (`before`) has that one as `next`, and is its `prev`; put after it (`after`) it is its `next` and has it as `prev`. -/
theorem C108_beside (ok : HeapOk h D) {t p n : Nat} (i : Insertable e h D t [n]) (hp : h.parent t = some p) (ht : h.isElem t = true) (hn : h.isElem n = true) (env : Env) :
    (∃ h', insertAll e .beforeBegin [n] h [t] = .ok h' ∧ nextQ h' env [n] none = .ok [t] ∧ prevQ h' env [t] none = .ok [n]) ∧
      ∃ h', insertAll e .afterEnd [n] h [t] = .ok h' ∧ nextQ h' env [t] none = .ok [n] ∧ prevQ h' env [n] none = .ok [t] := by
  have hD := (i.target.1 p hp).1
  have key : ∀ {h' : Heap} {A B : List Nat} {a b : Nat}, SameData h h' → HeapOk h' D → h.isElem a = true → h.isElem b = true → h'.kids p = A ++ a :: b :: B →
      nextQ h' env [a] none = .ok [b] ∧ prevQ h' env [b] none = .ok [a] := by
    intro h' A B a b sd ok' ha hb hk
    have hc : h'.children p = A.filter h'.isElem ++ a :: b :: B.filter h'.isElem := by
      unfold Heap.children
      rw [hk, List.filter_append, List.filter_cons_of_pos (by rw [isElem_data sd]; exact ha), List.filter_cons_of_pos (by rw [isElem_data sd]; exact hb)]
    have hc' : h'.children p = (A.filter h'.isElem ++ [a]) ++ b :: B.filter h'.isElem := by rw [hc]; simp
    constructor
    · rw [next_one, (neighbours ok' hD hc).2.2]; rfl
    · rw [prev_one, neighbour_prev ok' hD hc']; simp [Except.map]
  constructor
  · obtain ⟨h', A, B, s1, s2, s3, s4, s5, s6⟩ := insertLoop_beside .beforeBegin (.inl rfl) t p [n] h ok i hp
    exact ⟨h', by simp only [insertAll, List.reverse_singleton, s1], key s5 s6 hn ht (by simpa using s3)⟩
  · obtain ⟨h', A, B, s1, s2, s3, s4, s5, s6⟩ := insertLoop_beside .afterEnd (.inr rfl) t p [n] h ok i hp
    exact ⟨h', by simp only [insertAll, List.reverse_singleton, s1], key s5 s6 ht hn (by simpa using s3)⟩

/-- **C108, inside**: an element appended to another one (`append`) is the last of its `children`, without a `next`, and with the other children as `prev_all`; prepended to
it (`prepend`) it is the first, without a `prev`, and with the others as `next_all`; both times its `parent` is that element. -/
theorem C108_inside (ok : HeapOk h D) {t n : Nat} (i : Insertable e h D t [n]) (hal : e.allow (h.tagNames t) n = true) (ht : h.isElem t = true) (hn : h.isElem n = true)
    (env : Env) :
    (∃ h', insertAll e .beforeEnd [n] h [t] = .ok h' ∧ childrenQ h' env [t] none = .ok ((h.children t).filter (· ≠ n) ++ [n]) ∧ nextQ h' env [n] none = .ok [] ∧
      prevAllQ h' env [n] none = .ok ((h.children t).filter (· ≠ n)) ∧ parentQ h' env [n] none = .ok [t]) ∧
      ∃ h', insertAll e .afterBegin [n] h [t] = .ok h' ∧ childrenQ h' env [t] none = .ok (n :: (h.children t).filter (· ≠ n)) ∧ prevQ h' env [n] none = .ok [] ∧
        nextAllQ h' env [n] none = .ok ((h.children t).filter (· ≠ n)) ∧ parentQ h' env [n] none = .ok [t] := by
  have hk : (h.node t).kind = .tag := by simpa [Heap.isElem] using ht
  have hD : ¬ D t := fun d => by have := (ok.dead t d).1; rw [hk] at this; cases this
  have hfl : ∀ h', SameData h h' → ((h.kids t).filter (· ∉ [n])).filter h'.isElem = (h.children t).filter (· ≠ n) := by
    intro h' sd
    unfold Heap.children
    rw [List.filter_filter, List.filter_filter]
    refine List.filter_congr fun c _ => ?_
    rw [isElem_data sd, Bool.and_comm]
    simp
  have hpar : ∀ h', SameData h h' → HeapOk h' D → n ∈ h'.kids t → parentQ h' env [n] none = .ok [t] := by
    intro h' sd ok' hm
    have hroot : h'.isRoot t = false := by simp [Heap.isRoot, (sd t).1, hk]
    simp only [parentQ, Option.map_none]
    rw [parent_one]
    simp [parentsOf, ok'.kid_parent hD hm, hroot]
  have hal' : ∀ m ∈ [n], e.allow (h.tagNames t) m = true := fun m hm => by rw [List.mem_singleton.1 hm]; exact hal
  constructor
  · obtain ⟨h', s1, s2, s3, s4, s5⟩ := insertLoop_inside .beforeEnd (.inr rfl) t [n] h ok i hal'
    rw [if_pos rfl] at s2
    have hc : h'.children t = (h.children t).filter (· ≠ n) ++ n :: [] := by
      rw [← hfl h' s4]
      unfold Heap.children
      rw [s2, List.filter_append, List.filter_cons_of_pos (by rw [isElem_data s4]; exact hn), List.filter_nil]
    obtain ⟨k1, k2, k3⟩ := neighbours s5 hD hc
    exact ⟨h', by simp only [insertAll, List.reverse_singleton, s1], (children_one h' env t).trans (congrArg _ hc), by rw [next_one, k3]; rfl,
      (prevAll_one h' env n).trans k2, hpar h' s4 s5 (by rw [s2]; simp)⟩
  · obtain ⟨h', s1, s2, s3, s4, s5⟩ := insertLoop_inside .afterBegin (.inl rfl) t [n] h ok i hal'
    rw [if_neg (by decide), List.reverse_singleton] at s2
    have hc : h'.children t = [] ++ n :: (h.children t).filter (· ≠ n) := by
      rw [← hfl h' s4]
      unfold Heap.children
      rw [s2, List.filter_append, List.filter_cons_of_pos (by rw [isElem_data s4]; exact hn), List.filter_nil]
      rfl
    obtain ⟨k1, k2, k3⟩ := neighbours s5 hD hc
    exact ⟨h', by simp only [insertAll, List.reverse_singleton, s1], (children_one h' env t).trans (congrArg _ hc), by rw [prev_one, neighbour_prev s5 hD hc]; rfl,
      (nextAll_one h' env n).trans k1, hpar h' s4 s5 (by rw [s2]; simp)⟩

end

set_option maxRecDepth 100000 in
/-- Node 9, from another parent, is put before and after node 2, which has a text behind it. -/
example : (∃ h', insertAll ext0 .beforeBegin [9] demo2 [2] = .ok h' ∧ nextQ h' env0 [9] none = .ok [2] ∧ prevQ h' env0 [2] none = .ok [9]) ∧
    ∃ h', insertAll ext0 .afterEnd [9] demo2 [2] = .ok h' ∧ nextQ h' env0 [2] none = .ok [9] ∧ prevQ h' env0 [9] none = .ok [2] :=
  C108_beside (D := noneUsed) (p := 1) demo2_ok (demo2_insertable (by decide) (by decide) (by decide)) (by decide) (by decide) (by decide) env0

set_option maxRecDepth 100000 in
/-- Node 2 becomes the last child of node 1, where it was the first. -/
example : ∃ h', insertAll ext0 .beforeEnd [2] demo2 [1] = .ok h' ∧ childrenQ h' env0 [1] none = .ok [5, 2] ∧ prevAllQ h' env0 [2] none = .ok [5] := by
  obtain ⟨⟨h', a, b, -, c, -⟩, -⟩ := C108_inside (D := noneUsed) (t := 1) (n := 2) demo2_ok (demo2_insertable (by decide) (by decide) (by decide)) (by decide) (by decide)
    (by decide) env0
  exact ⟨h', a, b.trans (by decide), c.trans (by decide)⟩

end Visdom
