import Verif.Props.Arrange
import Verif.Props.RemovedAbove
/-!
# C98, asked with `children`
-/
namespace Visdom
open Spec

section
variable {h : Heap} {D : Nat → Prop} {e : Ext}

/-- `children` of one element, in every heap. -/
theorem children_one (h : Heap) (env : Env) (x : Nat) : childrenQ h env [x] none = .ok (h.children x) := by
  simp only [childrenQ, Option.map_none, childrenSel, uniqueFirst_one, selectWithComb, findSelector, findProcs, findProc, findFirst, select, selectChain, selectByRule,
    allMatcher, Matcher.getAll, addElems, selectFirst, selectRest, flatMapR]
  cases hc : h.children x <;> simp [hc]

/-- **C98, with `children`**: `children()` of the element gives exactly the new order, whichever way it was made: one by one with `append`, or at once with `prepend`; at once
with `append` it gives the reverse. -/
theorem C98_children (ok : HeapOk h D) {t : Nat} {l : List Nat} (a : Arranges e h D t l) (env : Env) :
    (∃ h', appendEach e t h l = .ok h' ∧ childrenQ h' env [t] none = .ok l) ∧ (∃ h', insertAll e .afterBegin l h [t] = .ok h' ∧ childrenQ h' env [t] none = .ok l) ∧
      ∃ h', insertAll e .beforeEnd l h [t] = .ok h' ∧ childrenQ h' env [t] none = .ok l.reverse := by
  obtain ⟨h1, r1, k1, -⟩ := C98_each ok a
  obtain ⟨⟨h2, r2, k2, -⟩, h3, r3, k3, -⟩ := C98_once ok a
  exact ⟨⟨h1, r1, by rw [children_one, k1]⟩, ⟨h2, r2, by rw [children_one, k2]⟩, h3, r3, by rw [children_one, k3]⟩

theorem uniqueLast_one (h : Heap) (x : Nat) : uniqueSiblingLast h [x] = [x] := by
  have k : (sibStep h {} x).kept = [x] := uniqueFirst_one h x
  simp [uniqueSiblingLast, k]

/-- `next_all` of one element, in every heap. -/
theorem nextAll_one (h : Heap) (env : Env) (x : Nat) : nextAllQ h env [x] none = h.nextElems x := by
  simp only [nextAllQ, Option.map_none, nextAllSel, uniqueFirst_one, selectWithComb, findSelector, findProcs, findProc, findFirst, select, selectChain, selectByRule,
    allMatcher, Matcher.getAll, addElems, selectFirst, selectRest, flatMapR]
  rcases hc : h.nextElems x with p | _ | _ <;> simp [hc, Matcher.apply, uniqueFirst_one, flatMapR]

/-- `prev_all` of one element, in every heap. -/
theorem prevAll_one (h : Heap) (env : Env) (x : Nat) : prevAllQ h env [x] none = h.prevElems x := by
  simp only [prevAllQ, Option.map_none, prevAllSel, uniqueLast_one, selectWithComb, findSelector, findProcs, findProc, findFirst, select, selectChain, selectByRule,
    allMatcher, Matcher.getAll, addElems, selectFirst, selectRest, flatMapR]
  rcases hc : h.prevElems x with p | _ | _ <;> simp [hc, Matcher.apply, uniqueLast_one, flatMapR]

/-- `next` of one element, in every heap. -/
theorem next_one (h : Heap) (env : Env) (x : Nat) : nextQ h env [x] none = .ok (h.nextElem x).toList := by
  simp only [nextQ, Option.map_none, nextSel, selectWithComb, findSelector, findProcs, findProc, findFirst, select, selectChain, selectByRule,
    allMatcher, Matcher.getAll, addElems, selectFirst, selectRest, flatMapR]
  cases hc : h.nextElem x <;> simp [hc, Matcher.apply, flatMapR]

/-- The neighbours of an element whose parent has the element children `as`, `x`, `bs`. -/
theorem neighbours {t x : Nat} {as bs : List Nat} (ok : HeapOk h D) (ht : ¬ D t) (hc : h.children t = as ++ x :: bs) :
    h.nextElems x = .ok bs ∧ h.prevElems x = .ok as ∧ h.nextElem x = bs.head? := by
  unfold Heap.children at hc
  obtain ⟨l1, l2, e1, f1, f2⟩ := List.filter_eq_append_iff.1 hc
  obtain ⟨l3, l4, e2, n3, -, f4⟩ := List.filter_eq_cons_iff.1 f2
  have hk : h.kids t = (l1 ++ l3) ++ x :: l4 := by rw [e1, e2, List.append_assoc]
  have hi : (h.kids t)[(l1 ++ l3).length]? = some x := by rw [hk]; simp
  obtain ⟨hp, hx⟩ := ok.link t _ x ht hi
  have n3' : l3.filter h.isElem = [] := List.filter_eq_nil_iff.2 n3
  have hd : (h.kids t).drop ((l1 ++ l3).length + 1) = l4 := by
    rw [hk, ← List.drop_drop, List.drop_left, List.drop_one, List.tail_cons]
  have hta : (h.kids t).take (l1 ++ l3).length = l1 ++ l3 := by rw [hk, List.take_left]
  have hl : (h.kids t).length = (l1 ++ l3).length + (l4.length + 1) := by rw [hk]; simp only [List.length_append, List.length_cons]
  refine ⟨?_, ?_, ?_⟩
  · unfold Heap.nextElems
    simp only [hp, hx]
    rw [if_neg (by omega), hd, f4]
  · unfold Heap.prevElems
    simp only [hp, hx]
    rw [if_neg (by omega), hta, List.filter_append, n3', f1, List.append_nil]
  · unfold Heap.nextElem
    simp only [hp, hx]
    rw [hd, ← f4, List.head?_filter]

/-- **C98, the neighbours**: after the children were appended one by one in the order `l`, each of them has as `next_all` those behind it in `l`, as `prev_all` those
before it in `l`, and as `next` the one that follows it in `l`. -/
theorem C98_neighbours (ok : HeapOk h D) {t : Nat} {l : List Nat} (a : Arranges e h D t l) (env : Env) :
    ∃ h', appendEach e t h l = .ok h' ∧ ∀ as x bs, l = as ++ x :: bs →
      nextAllQ h' env [x] none = .ok bs ∧ prevAllQ h' env [x] none = .ok as ∧ nextQ h' env [x] none = .ok bs.head?.toList := by
  obtain ⟨h', r, k, -, -, -, ok'⟩ := C98_each ok a
  refine ⟨h', r, fun as x bs hl => ?_⟩
  obtain ⟨n1, n2, n3⟩ := neighbours ok' (a.live ok) (k.trans hl)
  exact ⟨(nextAll_one h' env x).trans n1, (prevAll_one h' env x).trans n2, by rw [next_one, n3]⟩

end

/-- The children of node 1 of the sample (2 and 5, with a text between them) put in the order 5, 2. -/
example : ∃ h', appendEach ext0 1 demo2 [5, 2] = .ok h' ∧ childrenQ h' env0 [1] none = .ok [5, 2] :=
  (C98_children demo2_ok demo2_arranges env0).1

example : childrenQ demo2 env0 [1] none = .ok [2, 5] := (children_one demo2 env0 1).trans (by decide)

example : ∃ h', appendEach ext0 1 demo2 [5, 2] = .ok h' ∧ nextAllQ h' env0 [5] none = .ok [2] ∧ prevAllQ h' env0 [2] none = .ok [5] ∧ nextQ h' env0 [2] none = .ok [] := by
  obtain ⟨h', r, k⟩ := C98_neighbours demo2_ok demo2_arranges env0
  exact ⟨h', r, (k [] 5 [2] rfl).1, (k [5] 2 [] rfl).2.1, (k [5] 2 [] rfl).2.2⟩

end Visdom
