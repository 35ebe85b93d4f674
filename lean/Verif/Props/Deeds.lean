import Verif.Proofs.Deeds
import Verif.Props.After
import Verif.Props.SetAttrs
/-!
# C54 for histories that mix changes of the tree with changes of attributes
-/
namespace Visdom
open Spec

/-- The calls that cannot panic on elements: `set_attr`, `remove_attr` and `add_class`. -/
def Spec.AttrCall.safe : AttrCall → Bool
  | .setAttr .. | .removeAttr .. | .addClass .. => true
  | _ => false

/-- C54: a usable change of the tree never panics, and `set_attr`, `remove_attr` and `add_class` on elements do not either; so a mixed history
can always go on. -/
theorem C54_mixed_goes_on {e : Ext} {a : AttrExt} (P : ParseOk e) {h : Heap} {D : Nat → Prop} (ok : HeapOk h D) (t : Tables h) :
    (∀ op, Usable e h D op → ∃ h1, op.run e h = .ok h1) ∧
      ∀ c : AttrCall, c.safe = true → (∀ x ∈ c.nodes, x < h.size ∧ h.isElem x = true) → ∃ h1, c.run a h = .ok h1 := by
  refine ⟨fun op hu => ?_, fun c hs hx => ?_⟩
  · obtain ⟨h1, hr, -⟩ := history_ok P [op] h D ok ⟨hu, fun _ _ => trivial⟩
    cases hop : op.run e h with
    | error x => simp only [runAll, hop] at hr; cases hr
    | ok g => exact ⟨g, rfl⟩
  · have all : ∀ (reads : Bool) (f : Meta → R Meta) (X : List Nat), (∀ m, MetaWF m → ∃ m', f m = .ok m' ∧ MetaWF m') →
        (∀ x ∈ X, x < h.size ∧ h.isElem x = true) → ∃ h1, Heap.changeAll reads f h X = .ok h1 := by
      intro reads f X hf hX
      obtain ⟨h1, r, -⟩ := changeAll_spec (reads := reads) (f := f) (Q := fun _ => True) (P := fun _ _ => True)
        (fun m wf _ => (hf m wf).imp fun m' q => ⟨q.1, q.2, trivial⟩) X h (fun x hx => ⟨(hX x hx).2, t x (hX x hx).1 (hX x hx).2, trivial⟩)
        (.inr ⟨fun _ _ _ _ => trivial, fun _ _ _ _ _ => trivial⟩)
      exact ⟨h1, r⟩
    have set : ∀ n v m, MetaWF m → ∃ m', setAttribute a m n v = .ok m' ∧ MetaWF m' := fun n v m wf =>
      (setAttribute_spec a wf n v).imp fun m' q => ⟨q.1, q.2.1⟩
    cases c with
    | setAttr X n v => exact all _ _ X (set n v) hx
    | removeAttr X n => exact all _ _ X (fun m wf => (removeAttribute_spec wf n).imp fun m' q => ⟨q.1, q.2.1⟩) hx
    | addClass X s =>
      simp only [AttrCall.run, Heap.addClass]
      split
      · exact ⟨h, rfl⟩
      · refine all _ _ X (fun m wf => ?_) hx
        unfold addClassOne
        obtain ⟨v, hv⟩ : ∃ v, classValue m = .ok v := ⟨_, classValue_view wf⟩
        rw [hv]
        cases v
        · exact set _ _ m wf
        · exact set _ _ m wf
    | removeClass X s => cases hs
    | toggleClass X s => cases hs

/-- C54: after any mixture of usable changes of the tree and of calls of attribute and class methods, on any nodes, `find` sees exactly the new
tree with the new attributes. -/
theorem C54_find_mixed {e : Ext} {a : AttrExt} (P : ParseOk e) (T : ParseTables e) {h h' : Heap} {D D' : Nat → Prop} (ok : HeapOk h D)
    (t : Tables h) {ds : List Deed} (hd : Deeds e a h D ds h' D') {r : Nat} (hk : (h.node r).kind = .root) (hb : r < h.size) (hu : ¬ D' r)
    {cx : Complex} (hc : Basic cx) {env : Env} {S res : List Nat} (hS : Nodes h' r S) (hs : DocSorted h' r S)
    (hf : find h' env S [cx] = .ok res) : ∀ x, x ∈ res ↔ Sel h' r (· ∈ S) (steps h' r env cx) x := by
  obtain ⟨ok', t', hsz, hsame⟩ := deeds_ready P T hd ok t
  have wf : TreeWF h' r := ok'.tree (by rw [(hsame r hb).1]; exact hk) hu (Nat.lt_of_lt_of_le hb hsz)
  exact C17_find_basic wf (fun x hx he => t' x (wf.bound x hx) he) hc hS hs hf

open scoped Classical in
/-- C54: likewise `filter`, for selectors of one compound. -/
theorem C54_filter_mixed {e : Ext} {a : AttrExt} (P : ParseOk e) (T : ParseTables e) {h h' : Heap} {D D' : Nat → Prop} (ok : HeapOk h D)
    (t : Tables h) {ds : List Deed} (hd : Deeds e a h D ds h' D') {r : Nat} (hk : (h.node r).kind = .root) (hb : r < h.size) (hu : ¬ D' r)
    {cx : Complex} (hc : BasicTest cx) (hl : cx.length ≤ 1) {env : Env} {X : List Nat} (hX : Elems h' r X) :
    filterQ h' env X [cx] = .ok (X.filter fun x => decide (Sel h' r (· = r) (steps h' r env cx) x)) := by
  obtain ⟨ok', t', hsz, hsame⟩ := deeds_ready P T hd ok t
  have wf : TreeWF h' r := ok'.tree (by rw [(hsame r hb).1]; exact hk) hu (Nat.lt_of_lt_of_le hb hsz)
  exact C22_filter_basic wf (fun x hx he => t' x (wf.bound x hx) he) hc (fun h2 => by omega) hX

/-- C54: the invariants behind it hold after every mixed history: links and positions are consistent, the attribute tables are consistent, and no
old node has changed its kind, its name or its root link. -/
theorem C54_mixed_ready {e : Ext} {a : AttrExt} (P : ParseOk e) (T : ParseTables e) {h h' : Heap} {D D' : Nat → Prop} (ok : HeapOk h D)
    (t : Tables h) {ds : List Deed} (hd : Deeds e a h D ds h' D') : HeapOk h' D' ∧ Tables h' ∧ h.size ≤ h'.size ∧
      ∀ x, x < h.size → (h'.node x).kind = (h.node x).kind ∧ (h'.node x).name = (h.node x).name ∧ (h'.node x).root = (h.node x).root :=
  deeds_ready P T hd ok t

/-- The fragment is appended, its element gets a class, the paragraph is moved into it and loses its text, a class is toggled. -/
def mixedDeeds : List Deed := [.tree (.insert .beforeEnd 1 3), .attrs (.addClass [4, 2] "on".toList), .tree (.insert .afterBegin 4 2),
  .attrs (.toggleClass [1, 2] "on off".toList), .attrs (.setAttr [1, 4] "id".toList (some "k".toList)), .attrs (.removeAttr [4] "id".toList)]

/-- The end of a mixed history, computed. -/
def deedB (e : Ext) (a : AttrExt) (h : Heap) (U : List Nat) : List Deed → Option (Heap × List Nat)
  | [] => some (h, U)
  | .tree op :: ds =>
    if usableB e h U op then
      match op.run e h, usedB e h U op with
      | .ok h1, some U1 => deedB e a h1 U1 ds
      | _, _ => none
    else none
  | .attrs c :: ds =>
    match c.run a h with
    | .ok h1 => deedB e a h1 U ds
    | .error _ => none

theorem deedB_sound {e : Ext} {a : AttrExt} : ∀ (ds : List Deed) (h : Heap) (U : List Nat) (h' : Heap) (U' : List Nat),
    deedB e a h U ds = some (h', U') → Deeds e a h (· ∈ U) ds h' (· ∈ U')
  | [], h, U, h', U', hd => by cases hd; exact .nil
  | .tree op :: ds, h, U, h', U', hd => by
    simp only [deedB] at hd
    split at hd
    · rename_i hu
      split at hd
      · rename_i h1 U1 hr hU
        refine .tree (usableB_sound hu) hr ?_
        rw [usedB_sound hU]
        exact deedB_sound ds h1 U1 h' U' hd
      · cases hd
    · cases hd
  | .attrs c :: ds, h, U, h', U', hd => by
    simp only [deedB] at hd
    split at hd
    · rename_i h1 hr
      exact .attrs hr (deedB_sound ds h1 U h' U' hd)
    · cases hd

/-- The heap after `mixedDeeds`. -/
def mixedAfter : Heap := ((deedB ext0 quoteEnc twoTrees [] mixedDeeds).map (·.1)).getD twoTrees

theorem mixedRun : Deeds ext0 quoteEnc twoTrees noneUsed mixedDeeds mixedAfter (· ∈ [3]) :=
  noneUsed_eq ▸ deedB_sound mixedDeeds twoTrees [] mixedAfter [3] rfl

set_option maxRecDepth 100000 in
example : (∀ x, x ∈ [1, 4] ↔ Sel mixedAfter 0 (· ∈ [0]) (steps mixedAfter 0 env0 [(.childrenAll, [.cls "on".toList])]) x) ∧
    mixedAfter.kids 4 = [2] ∧ mixedAfter.parent 4 = some 1 ∧ HeapOk mixedAfter (· ∈ [3]) := by
  refine ⟨fun x => C54_find_mixed ext0_parse ext0_tables twoTrees_ok twoTrees_tables mixedRun (r := 0) (by decide) (by decide) (by decide)
      (cx := [(.childrenAll, [.cls "on".toList])]) ⟨by decide, by decide⟩ (S := [0])
      (fun x hx => by rw [List.mem_singleton.1 hx]; exact ⟨.self, .inr (by decide)⟩) (docSorted_single 0) (by decide) x, by decide, by decide,
    (C54_mixed_ready ext0_parse ext0_tables twoTrees_ok twoTrees_tables mixedRun).1⟩

end Visdom
