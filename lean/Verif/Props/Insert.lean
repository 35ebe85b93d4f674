import Verif.Props.History
import Verif.Proofs.Insert
/-!
# C35, C36, C37, C38: insertions
-/
namespace Visdom
open Spec

section
variable {h : Heap} {D : Nat → Prop} {e : Ext}

/-- C35, the part that holds, inside: `append` and `prepend` of a node that is in place, or of a fragment, take the node (the
children of the fragment) out of the old list and put it at the end or at the start of the list of the target; every other
list only loses the moved nodes. The nodes that may not stand inside the target are dropped. Missing: nodes that are not in place,
fragments used before; and a dropped node has lost its old place (`C35_fails_refused`). -/
theorem C35_inside_partial (ok : HeapOk h D) {pos : InsertPosition} {t n : Nat} (u : Usable e h D (.insert pos t n))
    (ha : Accepted e h t n) (hpos : pos = .afterBegin ∨ pos = .beforeEnd) : ∃ h', h.insertAdjacent e pos t n = .ok h' ∧
      h'.kids t = (if pos = .beforeEnd then (h.kids t).filter (· ∉ moved h n) ++ (moved h n).filter (e.allow (h.tagNames t))
        else (moved h n).filter (e.allow (h.tagNames t)) ++ (h.kids t).filter (· ∉ moved h n)) ∧
      (∀ q, ¬ D q → q ≠ t → (q ≠ n ∨ (h.node n).kind ≠ .root) → h'.kids q = (h.kids q).filter (· ∉ moved h n)) ∧
      SameData h h' ∧ LinksRight h' (fun x => Used e h D x (.insert pos t n)) := by
  obtain ⟨h', h1, h2, h3, _, h4⟩ := insert_inside ok u ha hpos
  obtain ⟨h5, st⟩ := insert_step ok u
  have : h5 = h' := by
    have := st.run
    simp only [Op.run, h1, Except.ok.injEq] at this
    exact this.symm
  subst this
  exact ⟨h5, h1, h2, h3, h4, st.ok.right⟩

/-- C35, the part that holds, beside: `before` and `after` put the node (the children of the fragment) immediately before or after
the target. Missing: nodes that are not in place, fragments used before; targets without parent (`C35_fails_lost`). -/
theorem C35_beside_partial (ok : HeapOk h D) {pos : InsertPosition} {t n p : Nat} (u : Usable e h D (.insert pos t n))
    (ha : Accepted e h t n) (hpos : pos = .beforeBegin ∨ pos = .afterEnd) (hpar : h.parent t = some p) :
    ∃ h' A B, h.insertAdjacent e pos t n = .ok h' ∧ (h.kids p).filter (· ∉ moved h n) = A ++ t :: B ∧
      h'.kids p = (if pos = .afterEnd then A ++ t :: (moved h n ++ B) else A ++ (moved h n ++ t :: B)) ∧
      (∀ q, ¬ D q → q ≠ p → (q ≠ n ∨ (h.node n).kind ≠ .root) → h'.kids q = (h.kids q).filter (· ∉ moved h n)) ∧
      SameData h h' ∧ LinksRight h' (fun x => Used e h D x (.insert pos t n)) := by
  obtain ⟨h', A, B, h1, h2, h3, h4, _, h5⟩ := insert_beside ok u ha (by rcases hpos with rfl | rfl <;> simp) hpar
  obtain ⟨h6, st⟩ := insert_step ok u
  have : h6 = h' := by
    have := st.run
    simp only [Op.run, h1, Except.ok.injEq] at this
    exact this.symm
  subst this
  exact ⟨h6, A, B, h1, h2, h3, h4, h5, st.ok.right⟩

/-- C37: an insertion that makes no sense - into the own subtree, into something that is not an element, of a document - leaves
everything as it is. -/
theorem C37_refused (ok : HeapOk h D) (pos : InsertPosition) {t n : Nat} (ha : ¬ Accepted e h t n) :
    h.insertAdjacent e pos t n = .ok h := by
  simp only [Heap.insertAdjacent, (Accepted.validate (e := e) ok).2 ha]

/-- C37, the part that holds: no insertion makes a cycle, even with nodes that are not in place. Missing: fragments used before
(`C37_fails_fragment`), and `replace_with` (`C37_fails_replace`). -/
theorem C37_acyclic_partial {h' : Heap} (ok : HeapOk h D) (pos : InsertPosition) {t n : Nat} (hn : ¬ D n)
    (hr : h.insertAdjacent e pos t n = .ok h') (x : Nat) : ¬ Above h' x x := by
  rcases insertAdjacent_parent hr with rfl | ⟨hv, N, q, hN, hq, hpar⟩
  · exact ok.not_above_self x
  · have ha : Accepted e h t n := by
      by_contra ha
      rw [(Accepted.validate (e := e) ok).2 ha] at hv
      cases hv
    have hab : ∀ m ∈ N, m ≠ t ∧ ¬ Above h m t := by
      rcases hN with ⟨hN, _⟩ | hN
      · intro m hm
        have hp := ok.kid_parent hn (hN m hm)
        exact ⟨by rintro rfl; exact ha.2.2.2 (.parent hp), fun h1 => ha.2.2.2 (Above.trans (.parent hp) h1)⟩
      · intro m hm
        rw [hN m hm]
        exact ⟨Ne.symm ha.2.2.1, ha.2.2.2⟩
    have hg : WellFounded fun p x => h'.parent x = some p := by
      refine ground_reparent ok.ground hpar fun m hm => ?_
      rcases hq with rfl | rfl | hq
      · simp at hm
      · exact hab m hm
      · exact ⟨by rintro rfl; exact (hab m hm).2 (.parent hq), fun h1 => (hab m hm).2 (.step h1 hq)⟩
    intro hx
    have h1 : ∀ a y, Above h' a y → Relation.TransGen (fun p x => h'.parent x = some p) a y := by
      intro a y hy
      induction hy with
      | parent hp => exact .single hp
      | step _ hp ih => exact .tail ih hp
    exact (WellFounded.irrefl hg.transGen).irrefl x (h1 x x hx)

end

/-! ### Examples -/

theorem demo2_accepted {t n : Nat} (hv : demo2.validate ext0 t n = .ok true) : Accepted ext0 demo2 t n := (validate_sound hv).1 rfl

set_option maxRecDepth 100000 in
/-- `div(5).append(p(2))`, moving `p` from its list. -/
example : ∃ h', demo2.insertAdjacent ext0 .beforeEnd 5 2 = .ok h' ∧ h'.kids 5 = [6, 7, 2] ∧ h'.kids 1 = [4, 5] := by
  obtain ⟨h', h1, h2, h3, _⟩ := C35_inside_partial (e := ext0) demo2_ok (pos := .beforeEnd) (t := 5) (n := 2)
    (noneUsed_eq ▸ usableB_sound (by decide)) (demo2_accepted (by decide)) (.inr rfl)
  exact ⟨h', h1, h2.trans (by decide), (h3 1 id (by decide) (.inl (by decide))).trans (by decide)⟩

set_option maxRecDepth 100000 in
/-- `div(5).after(fragment)`. -/
example : ∃ h', demo2.insertAdjacent ext0 .afterEnd 2 10 = .ok h' ∧ h'.kids 1 = [2, 11, 12, 4, 5] := by
  obtain ⟨h', A, B, h1, h2, h3, _⟩ := C35_beside_partial (e := ext0) demo2_ok (pos := .afterEnd) (t := 2) (n := 10) (p := 1)
    (noneUsed_eq ▸ usableB_sound (by decide)) (demo2_accepted (by decide)) (.inr rfl) (by decide)
  refine ⟨h', h1, ?_⟩
  have h4 : (demo2.kids 1).filter (· ∉ moved demo2 10) = [] ++ 2 :: [4, 5] := by decide
  rw [h4] at h2
  have hAB : A = [] ∧ B = [4, 5] := by
    cases A with
    | nil => simp at h2; exact ⟨rfl, h2.symm⟩
    | cons a A =>
      simp only [List.nil_append, List.cons_append, List.cons.injEq] at h2
      have : (2 : Nat) ∈ [4, 5] := by rw [h2.2]; simp
      simp at this
  rw [h3, hAB.1, hAB.2]
  decide

/-- C35 does not hold in full: a node that may not stand inside the target is taken from its old place all the same. -/
theorem C35_fails_refused : ∃ (h h' : Heap), HeapOk h noneUsed ∧ Accepted ext0 h 3 2 ∧ h.insertAdjacent ext0 .beforeEnd 3 2 = .ok h' ∧
    h.kids 1 = [2, 3] ∧ h'.kids 1 = [3] ∧ h'.kids 3 = [] :=
  ⟨heapOf [rootN [1], el "div" 0 0 [2, 3], el "p" 1 0, el "br" 1 1], _, okCheck_sound (by decide),
    (validate_sound (b := true) rfl).1 rfl, rfl, by decide, by decide, by decide⟩

/-- C35 does not hold in full: a node inserted beside an element without parent is in no list afterwards. -/
theorem C35_fails_lost : ∃ (h h' : Heap), HeapOk h noneUsed ∧ Accepted ext0 h 3 2 ∧ h.insertAdjacent ext0 .afterEnd 3 2 = .ok h' ∧
    h.kids 1 = [2] ∧ ∀ q < h'.size, 2 ∉ h'.kids q :=
  ⟨heapOf [rootN [1], el "div" 0 0 [2], el "p" 1 0, { kind := .tag, name := "div".toList, childs := some [] }], _,
    okCheck_sound (by decide), (validate_sound (b := true) rfl).1 rfl, rfl, by decide, by decide⟩

example : demo2.insertAdjacent ext0 .beforeEnd 6 1 = .ok demo2 :=
  C37_refused demo2_ok _ (fun h1 => h1.2.2.2 (.step (p := 5) (.parent rfl) rfl))

example (x : Nat) : ∃ h', demo2.insertAdjacent ext0 .beforeEnd 9 1 = .ok h' ∧ ¬ Above h' x x :=
  ⟨_, rfl, C37_acyclic_partial (D := noneUsed) (e := ext0) demo2_ok .beforeEnd (t := 9) (n := 1) id rfl x⟩

/-- C37 does not hold for a fragment that is used again: its nodes are put below themselves, or the call panics. -/
theorem C37_fails_fragment :
    (∃ h', runAll ext0 demo2 [.insert .beforeEnd 8 10, .insert .beforeEnd 13 10] = .ok h' ∧ Above h' 12 12) ∧
    runAll ext0 demo2 [.insert .beforeEnd 8 10, .insert .beforeEnd 12 10] = .error .borrow :=
  ⟨⟨_, rfl, .step (p := 13) (.parent rfl) rfl⟩, rfl⟩

/-- A document with an empty `div`, and a fragment with an empty `p`. -/
def loopHeap : Heap := heapOf [rootN [1], el "div" 0 0, { rootN [3] with root := some 2 }, el "p" 2 0]

/-- C37 does not hold for a fragment that is used again: `p.empty()` for the `p` in `f`, `div.append(f)`, then `p.append(f)`
makes `p` its own parent, without a report. After that `remove` and `replace_with` panic, and every insertion at `p` loops
for ever on its way up. -/
theorem C37_fails_self : ∃ h', HeapOk loopHeap noneUsed ∧
    runAll ext0 loopHeap [.setText 3 [], .insert .beforeEnd 1 2, .insert .beforeEnd 3 2] = .ok h' ∧ h'.parent 3 = some 3 ∧ h'.kids 3 = [3] ∧
    h'.kids 1 = [3] ∧ Op.run ext0 h' (.remove 3) = .error .borrow ∧ Op.run ext0 h' (.replace 3 1) = .error .borrow ∧
    ∀ k, h'.hasAncestor k 3 1 = .error .diverge := by
  obtain ⟨h', hr⟩ : ∃ h', runAll ext0 loopHeap [.setText 3 [], .insert .beforeEnd 1 2, .insert .beforeEnd 3 2] = .ok h' := ⟨_, rfl⟩
  have e := hr
  cases hr
  refine ⟨_, okCheck_sound (by decide), e, rfl, rfl, rfl, rfl, rfl, fun k => ?_⟩
  induction k with
  | zero => rfl
  | succ k ih => exact ih

/-- C37 does not hold for `replace_with`: with an ancestor further up there is a cycle, with the parent or with itself a panic. -/
theorem C37_fails_replace : (∃ h', Op.run ext0 demo2 (.replace 6 1) = .ok h' ∧ Above h' 1 1) ∧
    Op.run ext0 demo2 (.replace 6 5) = .error .borrow ∧ Op.run ext0 demo2 (.replace 6 6) = .error .borrow :=
  ⟨⟨_, rfl, .step (p := 5) (.parent rfl) rfl⟩, rfl, rfl⟩

end Visdom
