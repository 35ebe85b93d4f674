import Verif.Props.Back
import Verif.Props.Markup
/-!
# C75: the HTML after moves there and back
-/
namespace Visdom
open Spec

section
variable {rd : Render} {e : Ext} {h h' : Heap} {D : Nat → Prop}

/-- Heaps with the same lists of children and the same data write the same HTML. -/
theorem html_restored (ok : HeapOk h D) (hsz : h'.size = h.size) (hk : ∀ q, ¬ D q → h'.kids q = h.kids q) (hs : SameData h h') {q : Nat} (hq : q < h.size)
    (hD : ¬ D q) : innerHtml rd e h' q = innerHtml rd e h q ∧ outerHtml rd e h' q = outerHtml rd e h q :=
  C72_same (heapOk_finite_of ok hq hD) (by omega) (sameTree_of fun y hy => ⟨SameData.text hs y, hk y (within_live ok hD hy)⟩)

/-- C75: after a move to any place and back every `html` and `outer_html` is what it was before. -/
theorem C75_html_back_partial (ok : HeapOk h D) {pos pos' : InsertPosition} {t t' n : Nat} (u : Usable e h D (.insert pos t n))
    (ha : Accepted e h t n) (hk : (h.node n).kind ≠ .root) (w : Welcome e h pos t [n])
    (ht' : Attached h D t' ∧ t' < h.size) (ha' : Accepted e h t' n) (w' : Welcome e h pos' t' [n]) (st : Stands h D t' n pos') :
    ∃ h1 h2, h.insertAdjacent e pos t n = .ok h1 ∧ h1.insertAdjacent e pos' t' n = .ok h2 ∧
      ∀ q < h.size, ¬ D q → innerHtml rd e h2 q = innerHtml rd e h q ∧ outerHtml rd e h2 q = outerHtml rd e h q := by
  obtain ⟨h1, h2, r1, r2, hkids, hs, _⟩ := C75_there_and_back_partial ok u ha hk w ht' ha' w' st
  refine ⟨h1, h2, r1, r2, fun q hq hD => html_restored ok ?_ hkids hs hq hD⟩
  rw [(data_insertAdjacent r2).size, (data_insertAdjacent r1).size]

/-- C75: after a new node has been inserted anywhere and removed again every `html` and `outer_html` is what it was before. -/
theorem C75_html_removed_partial (ok : HeapOk h D) {pos : InsertPosition} {t n : Nat} (u : Usable e h D (.insert pos t n))
    (ha : Accepted e h t n) (hk : (h.node n).kind ≠ .root) (w : Welcome e h pos t [n]) (hn : h.parent n = none) :
    ∃ h1 h2, h.insertAdjacent e pos t n = .ok h1 ∧ removeAll h1 [n] = .ok h2 ∧
      ∀ q < h.size, ¬ D q → innerHtml rd e h2 q = innerHtml rd e h q ∧ outerHtml rd e h2 q = outerHtml rd e h q := by
  obtain ⟨h1, h2, r1, r2, hkids, hs, _⟩ := C75_insert_remove_partial ok u ha hk w hn
  refine ⟨h1, h2, r1, r2, fun q hq hD => html_restored ok ?_ hkids hs hq hD⟩
  have hd : h1.detach n = .ok h2 := by
    simp only [removeAll] at r2
    cases hc : h1.detach n with
    | error p => rw [hc] at r2; cases r2
    | ok h3 => rw [hc] at r2; simpa using r2
  rw [(data_detach hd).size, (data_insertAdjacent r1).size]

end

/-! ### Examples -/

set_option maxRecDepth 100000 in
/-- `p(2).append(b(3))`, then `p(2).after(b(3))`; in between the HTML is another one. -/
example : ∃ h1 h2, spare.insertAdjacent ext0 .beforeEnd 2 3 = .ok h1 ∧ h1.insertAdjacent ext0 .afterEnd 2 3 = .ok h2 ∧
    (∀ q < spare.size, ¬ noneUsed q → innerHtml rd0 ext0 h2 q = innerHtml rd0 ext0 spare q ∧ outerHtml rd0 ext0 h2 q = outerHtml rd0 ext0 spare q) ∧
    innerHtml rd0 ext0 spare 1 = .ok "<p></p><b></b><i></i>".toList ∧ innerHtml rd0 ext0 h1 1 = .ok "<p><b></b></p><i></i>".toList := by
  obtain ⟨h1, h2, r1, r2, r3⟩ := C75_html_back_partial (rd := rd0) (e := ext0) spare_ok (pos := .beforeEnd) (pos' := .afterEnd) (t := 2) (t' := 2) (n := 3)
    (spare_usable (by decide)) (spare_accepted (by decide)) (by decide) (by unfold Welcome; decide) ⟨spare_attached (by decide), by decide⟩
    (spare_accepted (by decide)) (by unfold Welcome; decide) ⟨1, [], [4], id, by decide⟩
  refine ⟨h1, h2, r1, r2, r3, by decide, ?_⟩
  have : h1 = (match spare.insertAdjacent ext0 .beforeEnd 2 3 with | .ok h => h | .error _ => spare) := by rw [r1]
  rw [this]; decide

set_option maxRecDepth 100000 in
/-- The new element before `b(3)`, and removed again. -/
example : ∃ h1 h2, spare.insertAdjacent ext0 .beforeBegin 3 5 = .ok h1 ∧ removeAll h1 [5] = .ok h2 ∧
    ∀ q < spare.size, ¬ noneUsed q → innerHtml rd0 ext0 h2 q = innerHtml rd0 ext0 spare q ∧ outerHtml rd0 ext0 h2 q = outerHtml rd0 ext0 spare q :=
  C75_html_removed_partial (rd := rd0) (e := ext0) spare_ok (spare_usable (by decide)) (spare_accepted (by decide)) (by decide) (by unfold Welcome; decide) rfl

end Visdom
