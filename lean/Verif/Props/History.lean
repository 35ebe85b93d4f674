import Verif.Proofs.HistoryCheck
/-!
# C33, C34: the links stay right; remove
-/
namespace Visdom
open Spec

/-- The links of a heap are right, apart from the lists of the fragments in `D`: every child knows its parent and its position, no
node occurs twice, there is no cycle, and every document and fragment is a well formed tree. -/
structure LinksRight (h : Heap) (D : Nat → Prop) : Prop where
  child : ∀ (p i c : Nat), ¬ D p → (h.kids p)[i]? = some c → h.parent c = some p ∧ h.index c = i
  once : ∀ (p q i j c : Nat), ¬ D p → ¬ D q → (h.kids p)[i]? = some c → (h.kids q)[j]? = some c → p = q ∧ i = j
  acyclic : ∀ x, ¬ Above h x x
  tree : ∀ r, (h.node r).kind = .root → ¬ D r → r < h.size → TreeWF h r

theorem Spec.HeapOk.right {h : Heap} {D : Nat → Prop} (ok : HeapOk h D) : LinksRight h D :=
  ⟨ok.link, fun _ _ _ _ _ hp hq => ok.kid_index_unique hp hq, ok.not_above_self, fun _ hr hD hb => ok.tree hr hD hb⟩

/-- C33, the part that holds: whatever is done, in any order and for any length, no call panics and all links are right, as long
as every call is given nodes that are in place, and no fragment twice. Missing: histories that use a node after it has been
removed, replaced or dropped, or a fragment twice (`C33_fails`, `C33_fails_cycle`). The parser's results are assumed to be
well formed (`ParseOk`). -/
theorem C33_history_partial {e : Ext} (P : ParseOk e) {h : Heap} {D : Nat → Prop} (ok : HeapOk h D) (ops : List Op)
    (hh : History e h D ops) : ∃ h', runAll e h ops = .ok h' ∧ LinksRight h' (UsedAll e h D ops) := by
  obtain ⟨h', h1, h2⟩ := history_ok P ops h D ok hh
  exact ⟨h', h1, h2.right⟩

/-- Moves, a fragment, texts, removals, parsed html; on a tree of 14 nodes. -/
def sampleHistory : List Op :=
  [.insert .beforeEnd 8 2, .insert .afterBegin 5 10, .remove 7, .setText 2 "x".toList, .setHtml 9 "y".toList,
   .insert .afterEnd 11 9, .replace 4 12, .load "z".toList, .insert .beforeBegin 8 13, .removeText 14, .insert .beforeEnd 13 1]

set_option maxRecDepth 100000 in
example : ∃ h', runAll ext0 demo2 sampleHistory = .ok h' ∧ LinksRight h' (UsedAll ext0 demo2 noneUsed sampleHistory) :=
  C33_history_partial ext0_parse demo2_ok _ (noneUsed_eq ▸ histB_sound _ _ _ (by decide))

/-- C33: a node that is in place stays in place, unless the call takes it out; so handles can be used again. -/
theorem C33_handles_stay {e : Ext} (P : ParseOk e) {h h' : Heap} {D : Nat → Prop} (ok : HeapOk h D) (op : Op)
    (u : Usable e h D op) (hr : op.run e h = .ok h') {y : Nat} (hb : y < h.size) (hy : Attached h D y) (hl : ¬ Lost e h y op) :
    Attached h' (fun x => Used e h D x op) y := by
  obtain ⟨h2, st⟩ := op_step ok P op u
  rw [st.run] at hr
  cases hr
  exact st.attached y hb hy hl

example : ∃ h', Op.run ext0 demo2 (.insert .beforeEnd 8 2) = .ok h' ∧ Attached h' (fun x => Used ext0 demo2 noneUsed x (.insert .beforeEnd 8 2)) 5 := by
  have u : Usable ext0 demo2 noneUsed (.insert .beforeEnd 8 2) := noneUsed_eq ▸ usableB_sound (by decide)
  obtain ⟨h', st⟩ := op_step demo2_ok ext0_parse _ u
  refine ⟨h', st.run, C33_handles_stay ext0_parse demo2_ok _ u st.run (by decide) (noneUsed_eq ▸ attachedB_sound (by decide)) ?_⟩
  simp only [Lost, moved, not_and]
  intro _ h1
  revert h1
  decide

/-- C33 does not hold in full: a fragment appended to two elements is in both. -/
theorem C33_fails : ∃ h', runAll ext0 demo2 [.insert .beforeEnd 8 10, .insert .beforeEnd 5 10] = .ok h' ∧
    11 ∈ h'.kids 8 ∧ 11 ∈ h'.kids 5 ∧ h'.parent 11 = some 5 :=
  ⟨_, rfl, by decide, by decide, by decide⟩

/-- C33 does not hold in full: an element replaced with one of its ancestors hangs below itself. -/
theorem C33_fails_cycle : ∃ h', runAll ext0 demo2 [.replace 6 1] = .ok h' ∧ Above h' 1 1 := by
  refine ⟨_, rfl, .step (p := 5) (.parent ?_) ?_⟩ <;> decide

/-- What `remove` of distinct nodes in place does to the lists of children. -/
theorem removeAll_ok {D : Nat → Prop} : ∀ (X : List Nat) (h : Heap), HeapOk h D → (∀ x ∈ X, Attached h D x) → X.Nodup →
    ∃ h', removeAll h X = .ok h' ∧ (∀ q, ¬ D q → h'.kids q = (h.kids q).filter (· ∉ X)) ∧ SameData h h' ∧ HeapOk h' D ∧
      h'.size = h.size := by
  intro X
  induction X with
  | nil => intro h ok _ _; exact ⟨h, rfl, by simp, .refl h, ok, rfl⟩
  | cons x X ih =>
    intro h ok hX hnd
    rw [List.nodup_cons] at hnd
    obtain ⟨h1, he, d⟩ := detach_detached ok (hX x (by simp))
    obtain ⟨h', h2, h3, h4, h5, h6⟩ := ih h1 d.ok (fun y hy => d.attached y (by rintro rfl; exact hnd.1 hy) (hX y (by simp [hy]))) hnd.2
    refine ⟨h', by simp only [removeAll, he]; exact h2, fun q hq => ?_, d.data.trans h4, h5, h6.trans d.size⟩
    rw [h3 q hq, d.kids q hq, List.filter_filter]
    congr 1
    funext a
    simp only [List.mem_cons, not_or, Bool.decide_and, ne_eq]
    rw [Bool.and_comm]

/-- C34, the part that holds: `remove` of a set of elements that are in place takes exactly them out of the lists of their
parents, in every list, and changes no name, attribute or content. Missing: nodes that are not in place (`C34_fails`). -/
theorem C34_remove_partial {h : Heap} {D : Nat → Prop} (ok : HeapOk h D) (X : List Nat) (hX : ∀ x ∈ X, Attached h D x)
    (hnd : X.Nodup) : ∃ h', removeAll h X = .ok h' ∧ (∀ q, ¬ D q → h'.kids q = (h.kids q).filter (· ∉ X)) ∧ SameData h h' ∧
      LinksRight h' D := by
  obtain ⟨h', h1, h2, h3, h4, _⟩ := removeAll_ok X h ok hX hnd
  exact ⟨h', h1, h2, h3, h4.right⟩

example : ∃ h', removeAll demo2 [2, 5, 6, 9] = .ok h' ∧ (∀ q, ¬ noneUsed q → h'.kids q = (demo2.kids q).filter (· ∉ [2, 5, 6, 9])) ∧
    SameData demo2 h' ∧ LinksRight h' noneUsed :=
  C34_remove_partial demo2_ok _ (noneUsed_eq ▸ by
    have : ([2, 5, 6, 9].all (attachedB demo2 [])) = true := by decide
    exact fun x hx => attachedB_sound (List.all_eq_true.1 this x hx)) (by decide)

/-- C34 does not hold in full: the first child removed twice takes its sibling with it; removed twice, an only child or a last child
panics. -/
theorem C34_fails : (∃ h', removeAll demo2 [2, 2] = .ok h' ∧ demo2.kids 1 = [2, 4, 5] ∧ h'.kids 1 = [5]) ∧
    removeAll demo2 [9, 9] = .error .overflow ∧ removeAll demo2 [7, 7] = .error .outOfBounds :=
  ⟨⟨_, rfl, by decide, by decide⟩, rfl, rfl⟩

end Visdom
