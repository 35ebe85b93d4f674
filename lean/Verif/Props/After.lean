import Verif.Proofs.Kept
import Verif.Proofs.HistoryCheck
import Verif.Props.Find
import Verif.Props.Filter
/-!
# C54: queries see the tree as it is after the mutations
-/
namespace Visdom
open Spec

/-- C54: no history of calls, not even with handles that are out of place, changes the kind, the name, the attributes or the root
link of a node that was there before. -/
theorem C54_nodes_kept {e : Ext} (P : ParseOk e) {h h' : Heap} {ops : List Op} (hr : runAll e h ops = .ok h') :
    h.size ≤ h'.size ∧ ∀ x, x < h.size → SameNode h h' x :=
  ⟨(runAll_same P ops h h' hr).1, (runAll_same P ops h h' hr).2.1⟩

/-- A document `[div(1)[ p(2) ]]` and a fragment with root 3: `[b(4) class=x]`; every node knows its root. -/
def twoTrees : Heap := heapOf
  [ rootN [1], el "div" 0 0 [2], el "p" 1 0, { rootN [4] with root := some 3 }, { el "b" 3 0 [] with root := some 3 } ]

theorem twoTrees_ok : HeapOk twoTrees noneUsed := okCheck_sound (by decide)

/-- The fragment is appended, the paragraph gets a text. -/
def twoOps : List Op := [.insert .beforeEnd 1 3, .setText 2 "t".toList, .load "u".toList]

theorem twoOps_ok : History ext0 twoTrees noneUsed twoOps := noneUsed_eq ▸ histB_sound _ _ _ (by decide)

/-- The heap afterwards. -/
def twoAfter : Heap := match runAll ext0 twoTrees twoOps with | .ok h => h | .error _ => twoTrees

theorem twoRun : runAll ext0 twoTrees twoOps = .ok twoAfter := rfl

example : SameNode twoTrees twoAfter 4 ∧ twoAfter.parent 4 = some 1 :=
  ⟨(C54_nodes_kept ext0_parse twoRun).2 4 (by decide), by decide⟩

theorem ext0_tables : ParseTables ext0 := by
  intro h s h' r hp t x hx he
  simp only [ext0, parse0] at hp
  split at hp
  · cases hp
    simp only [Heap.isElem] at he hx ⊢
    split at he
    · simp at he
    · rename_i hne
      rw [if_neg hne]
      exact t x (by omega) (by simpa [Heap.isElem] using he)
  · cases hp
    simp only [Heap.isElem] at he hx ⊢
    split at he
    · simp at he
    · split at he
      · simp at he
      · rename_i h1 h2
        rw [if_neg h1, if_neg h2]
        exact t x (by omega) (by simpa [Heap.isElem] using he)

/-- What queries rely on is there after every history of usable calls: the tree is well formed and its attribute tables are
consistent. -/
theorem history_ready {e : Ext} (P : ParseOk e) (T : ParseTables e) {h : Heap} {D : Nat → Prop} (ok : HeapOk h D) (t : Tables h)
    {ops : List Op} (hh : History e h D ops) {r : Nat} (hk : (h.node r).kind = .root) (hb : r < h.size)
    (hu : ¬ UsedAll e h D ops r) : ∃ h', runAll e h ops = .ok h' ∧ TreeWF h' r ∧ Metas h' r := by
  obtain ⟨h', hr, ok'⟩ := history_ok P ops h D ok hh
  obtain ⟨a1, a2, a3⟩ := runAll_same P ops h h' hr
  have wf : TreeWF h' r := ok'.tree (by rw [(a2 r hb).1]; exact hk) hu (Nat.lt_of_lt_of_le hb a1)
  exact ⟨h', hr, wf, fun x hx he => a3 T t x (wf.bound x hx) he⟩

/-- C54: after any history of usable calls, `find` sees exactly the new tree: with types, classes, attributes and simple pseudo
classes joined by combinators, from any set in document order, it returns exactly the elements that match now. The root links do
not matter. -/
theorem C54_find_after {e : Ext} (P : ParseOk e) (T : ParseTables e) {h : Heap} {D : Nat → Prop} (ok : HeapOk h D) (t : Tables h)
    {ops : List Op} (hh : History e h D ops) {r : Nat} (hk : (h.node r).kind = .root) (hb : r < h.size)
    (hu : ¬ UsedAll e h D ops r) {cx : Complex} (hc : Basic cx) :
    ∃ h', runAll e h ops = .ok h' ∧ ∀ (env : Env) (S res : List Nat), Nodes h' r S → DocSorted h' r S →
      find h' env S [cx] = .ok res → ∀ x, x ∈ res ↔ Sel h' r (· ∈ S) (steps h' r env cx) x := by
  obtain ⟨h', hr, wf, ev⟩ := history_ready P T ok t hh hk hb hu
  exact ⟨h', hr, fun env S res hS hs hf => C17_find_basic wf ev hc hS hs hf⟩

open scoped Classical in
/-- C54: likewise `filter`, for selectors of one compound. -/
theorem C54_filter_after {e : Ext} (P : ParseOk e) (T : ParseTables e) {h : Heap} {D : Nat → Prop} (ok : HeapOk h D) (t : Tables h)
    {ops : List Op} (hh : History e h D ops) {r : Nat} (hk : (h.node r).kind = .root) (hb : r < h.size)
    (hu : ¬ UsedAll e h D ops r) {cx : Complex} (hc : BasicTest cx) (hl : cx.length ≤ 1) :
    ∃ h', runAll e h ops = .ok h' ∧ ∀ (env : Env) (X : List Nat), Elems h' r X →
      filterQ h' env X [cx] = .ok (X.filter fun x => decide (Sel h' r (· = r) (steps h' r env cx) x)) := by
  obtain ⟨h', hr, wf, ev⟩ := history_ready P T ok t hh hk hb hu
  exact ⟨h', hr, fun env X hX => C22_filter_basic wf ev hc (fun h2 => by omega) hX⟩

open scoped Classical in
/-- C54, the part that holds for selectors of several compounds: `filter` is right as long as only nodes of the document itself have
been moved, so that all nodes of the new tree know the root. Missing: nodes that came from a fragment or from another document
(`C54_fails_root`). -/
theorem C54_filter_after_partial {e : Ext} (P : ParseOk e) (T : ParseTables e) {h : Heap} {D : Nat → Prop} (ok : HeapOk h D)
    (t : Tables h) {ops : List Op} (hh : History e h D ops) {r : Nat} (hk : (h.node r).kind = .root) (hb : r < h.size)
    (hu : ¬ UsedAll e h D ops r) {cx : Complex} (hc : BasicTest cx) :
    ∃ h', runAll e h ops = .ok h' ∧ ((∀ x, Within h' r x → x < h.size ∧ (h.node x).root = some r) → ∀ (env : Env) (X : List Nat), Elems h' r X →
      filterQ h' env X [cx] = .ok (X.filter fun x => decide (Sel h' r (· = r) (steps h' r env cx) x))) := by
  obtain ⟨h', hr, wf, ev⟩ := history_ready P T ok t hh hk hb hu
  refine ⟨h', hr, fun hroot env X hX => C22_filter_basic wf ev hc (fun _ x hx => ?_) hX⟩
  rw [((runAll_same P ops h h' hr).2.1 x (hroot x hx).1).2.2.2]
  exact (hroot x hx).2

theorem twoTrees_tables : Tables twoTrees := by
  have : ∀ x, x < 5 → metaCheck (twoTrees.node x).attrs = true := by decide
  exact fun x hx _ => metaCheck_sound (this x hx)

theorem two_unused : ¬ UsedAll ext0 twoTrees noneUsed twoOps 0 := by
  rintro (h | ⟨h, -⟩)
  · exact h
  · cases h

/-- `div b`. -/
def divB : Complex := [(.childrenAll, [ty "div"]), (.childrenAll, [ty "b"])]

example : (∀ x, x ∈ [4] ↔ Sel twoAfter 0 (· ∈ [0]) (steps twoAfter 0 env0 divB) x) ∧ find twoAfter env0 [0] [divB] = .ok [4] ∧
    find twoTrees env0 [0] [divB] = .ok [] := by
  obtain ⟨h', hr, hf⟩ := C54_find_after ext0_parse ext0_tables twoTrees_ok twoTrees_tables twoOps_ok (r := 0) (by decide) (by decide)
    two_unused (cx := divB) ⟨by decide, by decide⟩
  rw [twoRun] at hr
  cases hr
  refine ⟨hf env0 [0] [4] (fun x hx => ?_) (docSorted_single 0) (by decide), by decide, by decide⟩
  rw [List.mem_singleton.1 hx]
  exact ⟨.self, .inr rfl⟩

/-- `filter("b")` on the node that was appended. -/
example : filterQ twoAfter env0 [4, 2] [[(.childrenAll, [ty "b"])]] = .ok [4] ∧ BasicTest [(.childrenAll, [ty "b"])] ∧
    BasicTest divB := ⟨by decide, ⟨⟨by decide, by decide⟩, by simp⟩, ⟨⟨by decide, by decide⟩, by simp [divB]⟩⟩

/-- `filter("div p")` after a move within the document. -/
example : ∃ h', runAll ext0 demo2 [.insert .beforeEnd 8 2] = .ok h' ∧ (∀ x, Within h' 0 x → x < demo2.size ∧ (demo2.node x).root = some 0) ∧
    filterQ h' env0 [6, 2] [[(.childrenAll, [ty "div"]), (.childrenAll, [ty "p"])]] = .ok [6] ∧
    filterQ demo2 env0 [6, 2] [[(.childrenAll, [ty "div"]), (.childrenAll, [ty "p"])]] = .ok [6, 2] := by
  have hh : History ext0 demo2 noneUsed [.insert .beforeEnd 8 2] := noneUsed_eq ▸ histB_sound _ _ _ (by decide)
  have t : Tables demo2 := by
    have : ∀ x, x < 14 → metaCheck (demo2.node x).attrs = true := by decide
    exact fun x hx _ => metaCheck_sound (this x hx)
  obtain ⟨h', hr, wf, -⟩ := history_ready ext0_parse ext0_tables demo2_ok t hh (r := 0) (by decide) (by decide) (by
    rintro (h | ⟨h, -⟩)
    · exact h
    · cases h)
  refine ⟨h', hr, fun x hx => ?_, ?_⟩
  · have h1 := wf.bound x hx
    cases hr
    have : ∀ x, x < 14 → (demo2.node x).root = some 0 := by decide
    exact ⟨h1, this x h1⟩
  · cases hr
    exact ⟨by decide, by decide⟩

/-- C54 does not hold in full: a node appended from a fragment still has the fragment's root link, and `filter("div b")` does not
find its ancestors, though the selector matches it and `find("div b")` finds it. -/
theorem C54_fails_root : runAll ext0 twoTrees twoOps = .ok twoAfter ∧ find twoAfter env0 [0] [divB] = .ok [4] ∧
    Sel twoAfter 0 (· = 0) (steps twoAfter 0 env0 divB) 4 ∧ filterQ twoAfter env0 [4] [divB] = .ok [] := by
  obtain ⟨h', hr, hf⟩ := C54_find_after ext0_parse ext0_tables twoTrees_ok twoTrees_tables twoOps_ok (r := 0) (by decide) (by decide)
    two_unused (cx := divB) ⟨by decide, by decide⟩
  rw [twoRun] at hr
  cases hr
  have := (hf env0 [0] [4] (fun x hx => by rw [List.mem_singleton.1 hx]; exact ⟨.self, .inr rfl⟩) (docSorted_single 0) (by decide) 4).1 (by simp)
  refine ⟨twoRun, by decide, ?_, by decide⟩
  simpa only [List.mem_singleton] using this

end Visdom
