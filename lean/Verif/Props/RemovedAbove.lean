import Verif.Props.Removed
import Verif.Model.Compile
import Mathlib.Data.List.Sort
/-!
# C92: what is above a removed element

`remove` leaves the link of the removed element to its parent. So `parent` and `parents` of it are for ever what they were, whatever
the set holds.
-/
namespace Visdom
open Spec
variable {h h1 : Heap} {D : Nat → Prop} {env : Env}

theorem uniqueFirst_one (h : Heap) (x : Nat) : uniqueSiblingFirst h [x] = [x] := by
  simp only [uniqueSiblingFirst, List.foldl_cons, List.foldl_nil, sibStep]
  cases h.parent x <;> simp

/-- `parent` of one element, in every heap. -/
theorem parent_one (h : Heap) (x : Nat) :
    parentSel h [x] none = .ok (parentsOf h [x]) := by
  simp only [parentSel, uniqueFirst_one, selectWithComb, findSelector, findProcs, findProc, findFirst, select, selectChain, selectByRule,
    allMatcher, Matcher.getAll, addElems, selectFirst, selectRest]
  cases hp : parentsOf h [x] <;> simp [hp, uniqueFirst_one]

/-- `parents` of one element, in every heap. -/
theorem parents_one (h : Heap) (x : Nat) :
    parentsSel h [x] none = (ancestorsFuel h h.fuel x).map fun l => sortAndUnique h (sortAndUnique h l) := by
  simp only [parentsSel, uniqueFirst_one, selectWithComb, findSelector, findProcs, findProc, findFirst, select, selectChain, selectByRule,
    allMatcher, Matcher.getAll, addElems, selectFirst, selectRest, flatMapR]
  cases hp : ancestorsFuel h h.fuel x with
  | error e => simp [Except.map, hp]
  | ok l =>
    simp only [Except.map, List.append_nil, Option.getD_none, hp]
    cases hs : sortAndUnique h l <;> simp [Except.map]

/-- Two heaps that agree on a set of nodes closed under parents: on their parents, their kinds and their positions. -/
structure AgreeUp (h h1 : Heap) (T : Nat → Prop) : Prop where
  size : h1.size = h.size
  parent : ∀ y, h1.parent y = h.parent y
  root : ∀ y, h1.isRoot y = h.isRoot y
  index : ∀ y, T y → h1.index y = h.index y
  up : ∀ y p, T y → h.parent y = some p → T p

variable {T : Nat → Prop}

theorem AgreeUp.path (a : AgreeUp h h1 T) : ∀ {n x : Nat}, T x → h1.pathFuel n x = h.pathFuel n x
  | 0, _, _ => rfl
  | n + 1, x, hx => by
    simp only [Heap.pathFuel, a.parent, a.index x hx]
    cases hp : h.parent x with
    | none => rfl
    | some p => simp only [a.path (n := n) (a.up x p hx hp)]

theorem AgreeUp.tree (a : AgreeUp h h1 T) {x : Nat} (hx : T x) : h1.treeIndexs x = h.treeIndexs x := by
  unfold Heap.treeIndexs
  rw [a.size]
  exact a.path hx

theorem AgreeUp.ancestors (a : AgreeUp h h1 T) : ∀ (n x : Nat), ancestorsFuel h1 n x = ancestorsFuel h n x
  | 0, _ => rfl
  | n + 1, x => by simp only [ancestorsFuel, a.parent, a.root, a.ancestors n]

theorem ancestors_above : ∀ {n x : Nat} {l : List Nat}, ancestorsFuel h n x = .ok l → ∀ y ∈ l, Above h y x
  | 0, _, _, hl => by cases hl
  | n + 1, x, l, hl => by
    simp only [ancestorsFuel] at hl
    split at hl
    · cases hl; simp
    · rename_i p hp
      split at hl
      · cases hl; simp
      · split at hl
        · cases hl
        · rename_i l' hl'
          cases hl
          intro y hy
          rw [List.mem_append, List.mem_singleton] at hy
          rcases hy with hy | rfl
          · exact .step (ancestors_above hl' y hy) hp
          · exact .parent hp

theorem AgreeUp.insert (a : AgreeUp h h1 T) {x : Nat} (hx : T x) : ∀ {l : List Nat}, (∀ y ∈ l, T y) →
    l.orderedInsert (fun u v => notAfter h1 u v) x = l.orderedInsert (fun u v => notAfter h u v) x
  | [], _ => rfl
  | b :: l, hl => by
    have hb := hl b List.mem_cons_self
    have e : notAfter h1 x b = notAfter h x b := by unfold notAfter; rw [a.tree hx, a.tree hb]
    simp only [List.orderedInsert, e, a.insert hx (l := l) fun y hy => hl y (List.mem_cons_of_mem _ hy)]

theorem AgreeUp.sort (a : AgreeUp h h1 T) : ∀ {l : List Nat}, (∀ y ∈ l, T y) → sortElems h1 l = sortElems h l
  | [], _ => rfl
  | x :: l, hl => by
    have hr := fun y hy => hl y (List.mem_cons_of_mem _ hy)
    have ih := a.sort (l := l) hr
    unfold sortElems at ih ⊢
    simp only [List.insertionSort, List.foldr_cons] at ih ⊢
    rw [ih]
    refine a.insert (hl x List.mem_cons_self) fun y hy => hr y ?_
    exact (List.perm_insertionSort (notAfter h) l).mem_iff.1 hy

theorem sortUnique_sub (h : Heap) {l : List Nat} {y : Nat} (hy : y ∈ sortAndUnique h l) : y ∈ l := by
  have key : ∀ (l : List Nat) (a : Nat), ∀ y ∈ dedupFrom a l, y ∈ l := by
    intro l
    induction l with
    | nil => intro a y hy; exact hy
    | cons b l ih =>
      intro a y hy
      simp only [dedupFrom] at hy
      split at hy
      · exact List.mem_cons_of_mem _ (ih _ _ hy)
      · rcases List.mem_cons.1 hy with rfl | hy
        · exact List.mem_cons_self
        · exact List.mem_cons_of_mem _ (ih _ _ hy)
  refine (List.perm_insertionSort (notAfter h) l).mem_iff.1 ?_
  unfold sortAndUnique sortElems at hy
  revert hy
  generalize List.insertionSort (notAfter h) l = m
  cases m with
  | nil => exact id
  | cons b m =>
    intro hy
    rcases List.mem_cons.1 hy with rfl | hy
    · exact List.mem_cons_self
    · exact List.mem_cons_of_mem _ (key _ _ _ hy)

theorem AgreeUp.sortUnique (a : AgreeUp h h1 T) {l : List Nat} (hl : ∀ y ∈ l, T y) : sortAndUnique h1 l = sortAndUnique h l := by
  unfold sortAndUnique
  rw [a.sort hl]

/-- C92: `parent` and `parents` of a removed element are what they were before it was removed, though it is no longer
among the children of its parent. -/
theorem C92_above (ok : HeapOk h D) {x p : Nat} {A B : List Nat} (hp : h.parent x = some p) (hD : ¬ D p) (hk : h.kids p = A ++ x :: B) :
    ∃ h1, removeAll h [x] = .ok h1 ∧ x ∉ h1.kids p ∧ parentQ h1 env [x] none = parentQ h env [x] none ∧ parentsQ h1 env [x] none = parentsQ h env [x] none := by
  have hi : (h.kids p)[A.length]? = some x := by rw [hk]; simp
  have hidx : h.index x = A.length := (ok.link p _ x hD hi).2
  have hx : Attached h D x := by
    intro q hq
    rw [hp] at hq; cases hq
    exact ⟨hD, by rw [hidx]; exact hi⟩
  obtain ⟨h1, he, s⟩ := detach_spliced ok hp hx
  have hpar : ∀ y, h1.parent y = h.parent y := fun y => by rw [s.parent]; simp
  have a : AgreeUp h h1 (fun y => Above h y x) := by
    refine ⟨s.size, hpar, fun y => by unfold Heap.isRoot; rw [(s.data y).1], fun y hy => s.indexOther y fun hm => ?_, ?_⟩
    · have hyk : y ∈ h.kids p := by
        simp only [List.mem_append, List.not_mem_nil, or_false] at hm
        rcases hm with hm | hm
        · exact List.mem_of_mem_take hm
        · exact List.mem_of_mem_drop hm
      have hyp := ok.kid_parent hD hyk
      rcases above_cases hy hp with rfl | hab
      · exact ok.not_above_self _ (.parent hyp)
      · exact ok.not_above_self p (Above.trans (.parent hyp) hab)
    · intro y q hy hq
      exact Above.trans (.parent hq) hy
  refine ⟨h1, by simp only [removeAll, he], ?_, ?_, ?_⟩
  · obtain ⟨h2, r1, r2, _⟩ := C92_removed ok hp hD hk
    simp only [removeAll, he, Except.ok.injEq] at r1
    subst r1
    rw [r2]
    intro hm
    obtain ⟨i, hi'⟩ := List.getElem?_of_mem hm
    by_cases hlt : i < A.length
    · have := (ok.link p i x hD (by rw [hk, List.getElem?_append_left hlt]; rwa [List.getElem?_append_left hlt] at hi')).2
      omega
    · rw [List.getElem?_append_right (by omega)] at hi'
      have := (ok.link p (i + 1) x hD (by
        rw [hk, List.getElem?_append_right (by omega), show i + 1 - A.length = (i - A.length) + 1 by omega, List.getElem?_cons_succ]
        exact hi')).2
      omega
  · simp only [parentQ, Option.map_none, parent_one]
    simp only [parentsOf, hpar, a.root]
  · simp only [parentsQ, Option.map_none, parents_one]
    have hfuel : h1.fuel = h.fuel := by unfold Heap.fuel; rw [s.size]
    rw [hfuel, a.ancestors]
    cases hl : ancestorsFuel h h.fuel x with
    | error e => rfl
    | ok l =>
      have hT := ancestors_above hl
      have hT' : ∀ y ∈ sortAndUnique h l, Above h y x := fun y hy => hT y (sortUnique_sub h hy)
      simp only [Except.map, a.sortUnique hT, a.sortUnique hT']

/-- `<p>` of the sample document, removed: it still has its two ancestors, and a search from them does not find it. -/
example : ∃ h1, removeAll demo2 [6] = .ok h1 ∧ 6 ∉ h1.kids 5 ∧ parentQ h1 env0 [6] none = .ok [5] ∧ parentsQ h1 env0 [6] none = .ok [1, 5] := by
  obtain ⟨h1, r1, r2, r3, r4⟩ := C92_above (env := env0) demo2_ok (x := 6) (p := 5) (A := []) (B := [7]) (by decide) id (by decide)
  exact ⟨h1, r1, r2, r3.trans (by decide), r4.trans (by decide)⟩

end Visdom
