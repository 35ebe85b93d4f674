import Verif.Props.InsertedSteps
/-!
# C109: the steps pass over what has been removed
-/
namespace Visdom
open Spec

section
variable {h : Heap} {D : Nat → Prop} {X : List Nat}

theorem children_removed {h' : Heap} (sd : SameData h h') {p : Nat} (hk : h'.kids p = (h.kids p).filter (· ∉ X)) : h'.children p = (h.children p).filter (· ∉ X) := by
  unfold Heap.children
  rw [hk, List.filter_filter, List.filter_filter]
  refine List.filter_congr fun c _ => ?_
  rw [isElem_data sd, Bool.and_comm]

/-- **C109, children**: after `remove` on a set of different nodes in place, `children` of a node of the document gives what it gave before without those removed. -/
theorem C109_children (ok : HeapOk h D) (hX : ∀ x ∈ X, Attached h D x) (hnd : X.Nodup) (env : Env) :
    ∃ h', removeAll h X = .ok h' ∧ ∀ p, ¬ D p → ∃ l, childrenQ h env [p] none = .ok l ∧ childrenQ h' env [p] none = .ok (l.filter (· ∉ X)) := by
  obtain ⟨h', r, k, sd, -, -⟩ := removeAll_ok X h ok hX hnd
  exact ⟨h', r, fun p hp => ⟨_, children_one h env p, by rw [children_one, children_removed sd (k p hp)]⟩⟩

/-- **C109**: after `remove` on a set of different nodes in place, each element that is a child of a node of the document and was not removed has as `next_all` and `prev_all` what it
had before without those removed, as `next` the first of the former and as `prev` the last of the latter. -/
theorem C109_steps (ok : HeapOk h D) (hX : ∀ x ∈ X, Attached h D x) (hnd : X.Nodup) (env : Env) :
    ∃ h', removeAll h X = .ok h' ∧ ∀ p y, ¬ D p → y ∈ h.kids p → h.isElem y = true → y ∉ X →
      ∃ as bs, prevAllQ h env [y] none = .ok as ∧ nextAllQ h env [y] none = .ok bs ∧
        prevAllQ h' env [y] none = .ok (as.filter (· ∉ X)) ∧ nextAllQ h' env [y] none = .ok (bs.filter (· ∉ X)) ∧
        nextQ h' env [y] none = .ok (bs.find? (· ∉ X)).toList ∧ prevQ h' env [y] none = .ok (as.reverse.find? (· ∉ X)).toList := by
  obtain ⟨h', r, k, sd, ok', -⟩ := removeAll_ok X h ok hX hnd
  refine ⟨h', r, fun p y hp hy he hyX => ?_⟩
  obtain ⟨as, bs, hc⟩ := List.append_of_mem (show y ∈ h.children p from List.mem_filter.2 ⟨hy, he⟩)
  have hc' : h'.children p = as.filter (· ∉ X) ++ y :: bs.filter (· ∉ X) := by
    rw [children_removed sd (k p hp), hc, List.filter_append, List.filter_cons_of_pos (by simpa using hyX)]
  obtain ⟨a1, a2, -⟩ := neighbours ok hp hc
  obtain ⟨b1, b2, b3⟩ := neighbours ok' hp hc'
  refine ⟨as, bs, (prevAll_one h env y).trans a2, (nextAll_one h env y).trans a1, (prevAll_one h' env y).trans b2, (nextAll_one h' env y).trans b1, ?_, ?_⟩
  · rw [next_one, b3, List.head?_filter]
  · rw [prev_one, neighbour_prev ok' hp hc', List.getLast?_eq_head?_reverse, ← List.filter_reverse, List.head?_filter]; rfl

end

/-- Different nodes are needed: with node 6 twice in the set its neighbour 7 is gone too. -/
theorem C109_fails_twice : ∃ h', removeAll demo2 [6, 6] = .ok h' ∧ childrenQ demo2 env0 [5] none = .ok [6, 7] ∧ childrenQ h' env0 [5] none = .ok [] :=
  ⟨_, rfl, (children_one _ _ _).trans (by decide), (children_one _ _ _).trans (by decide)⟩

theorem three_attached : ∀ x ∈ [3], Attached threeHeap noneUsed x := by
  intro x hx p hp
  rw [List.mem_singleton.1 hx] at hp ⊢
  cases hp
  exact ⟨id, by decide⟩

/-- Of three children the middle one is removed: the first and the last are neighbours then. -/
example : ∃ h', removeAll threeHeap [3] = .ok h' ∧ nextQ h' env0 [2] none = .ok [4] ∧ prevQ h' env0 [4] none = .ok [2] := by
  obtain ⟨h', r, k⟩ := C109_steps three_ok three_attached (by decide) env0
  obtain ⟨as, bs, -, a, -, -, b, -⟩ := k 1 2 id (by decide) (by decide) (by decide)
  obtain ⟨cs, ds, c, -, -, -, -, d⟩ := k 1 4 id (by decide) (by decide) (by decide)
  have hb : bs = [3, 4] := Except.ok.inj (a.symm.trans ((nextAll_one _ _ _).trans (by decide)))
  have hc : cs = [2, 3] := Except.ok.inj (c.symm.trans ((prevAll_one _ _ _).trans (by decide)))
  subst hb hc
  exact ⟨h', r, b.trans (by decide), d.trans (by decide)⟩

example : ∃ h', removeAll threeHeap [3] = .ok h' ∧ ∃ l, childrenQ threeHeap env0 [1] none = .ok l ∧ childrenQ h' env0 [1] none = .ok (l.filter (· ∉ [3])) := by
  obtain ⟨h', r, k⟩ := C109_children three_ok three_attached (by decide) env0
  exact ⟨h', r, k 1 id⟩

end Visdom
