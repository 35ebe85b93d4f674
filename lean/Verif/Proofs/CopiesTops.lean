import Verif.Proofs.CopiesText
import Verif.Props.Commute
/-!
# Documents and fragments keep their position field
-/
namespace Visdom
open Spec
variable {h h1 h2 : Heap} {D : Nat → Prop} {e : Ext}

/-- The positions of documents and fragments are as before. -/
def TopsKept (h h' : Heap) : Prop := ∀ z, (h.node z).kind = .root → h'.index z = h.index z

theorem TopsKept.refl (h : Heap) : TopsKept h h := fun _ _ => rfl

theorem TopsKept.trans (a : TopsKept h h1) (d : SameData h h1) (b : TopsKept h1 h2) : TopsKept h h2 := fun z hz =>
  (b z ((d z).1.trans hz)).trans (a z hz)

theorem tops_resetIndex {s : Nat} {l : List Nat} (hl : ∀ x ∈ l, (h.node x).kind ≠ .root) {z : Nat} (hz : (h.node z).kind = .root) :
    (h.resetIndex s l).index z = h.index z :=
  (resetIndex_fields l h s).2.2.2.2.1 z fun h1 => hl z h1 hz

theorem setParent_index (p : Nat) (l : List Nat) : ∀ (h : Heap) (z : Nat), (h.setParent p l).index z = h.index z := by
  induction l with
  | nil => exact fun _ _ => rfl
  | cons x l ih =>
    intro h z
    rw [Heap.setParent, ih]
    simp only [Heap.index, upd_node]
    split <;> rfl

theorem setParent_kind (p : Nat) (l : List Nat) (z : Nat) : ((h.setParent p l).node z).kind = (h.node z).kind := ((data_setParent p l).same z).1
theorem resetIndex_kind (s : Nat) (l : List Nat) (z : Nat) : ((h.resetIndex s l).node z).kind = (h.node z).kind := ((data_resetIndex s l).same z).1
theorem setChilds_kind (x : Nat) (cs : Option (List Nat)) (z : Nat) : ((h.setChilds x cs).node z).kind = (h.node z).kind := ((data_setChilds x cs).same z).1

theorem kids_childs {p : Nat} {cs : List Nat} (hc : (h.node p).childs = some cs) : h.kids p = cs := by rw [Heap.kids, hc]; rfl

theorem tops_removeChild {p x : Nat} (hp : ∀ c ∈ h.kids p, (h.node c).kind ≠ .root) (he : h.removeChild p x = .ok h1) : TopsKept h h1 := by
  unfold Heap.removeChild at he
  split at he
  · split at he
    · cases he; exact .refl _
    · rename_i cs hcs
      rw [kids_childs hcs] at hp
      repeat' split at he
      all_goals cases he
      · intro z _; rw [setChilds_index]
      · intro z hz
        rw [setChilds_index]
        exact tops_resetIndex (fun c hc => hp c (List.mem_of_mem_drop hc)) hz
  · cases he; exact .refl _

theorem tops_detach (ok : HeapOk h D) {x : Nat} (hx : Attached h D x) (he : h.detach x = .ok h1) : TopsKept h h1 := by
  unfold Heap.detach at he
  split at he
  · cases he; exact .refl _
  · rename_i p hp
    exact tops_removeChild (fun c hc => ok.kid p c (hx p hp).1 hc) he

theorem tops_insertInside {b : Bool} {t : Nat} {l : List Nat} (ht : ∀ c ∈ h.kids t, (h.node c).kind ≠ .root) (hl : ∀ c ∈ l, (h.node c).kind ≠ .root)
    (he : h.insertInside b t l = .ok h1) : TopsKept h h1 := by
  unfold Heap.insertInside at he
  dsimp only at he
  have hl' : ∀ c ∈ l, ((h.setParent t l).node c).kind ≠ .root := fun c hc => by rw [setParent_kind]; exact hl c hc
  split at he
  · rename_i cs hcs
    have hk : h.kids t = cs := by rw [Heap.kids, ← (setParent_fields t l h).2.1 t, hcs]; rfl
    rw [hk] at ht
    repeat' split at he
    all_goals cases he
    all_goals intro z hz
    · rw [setChilds_index, tops_resetIndex hl' (by rw [setParent_kind]; exact hz), setParent_index]
    · rw [setChilds_index, tops_resetIndex (fun c hc => by rw [resetIndex_kind, setParent_kind]; exact ht c hc) (by rw [resetIndex_kind, setParent_kind]; exact hz),
        tops_resetIndex hl' (by rw [setParent_kind]; exact hz), setParent_index]
  · cases he
    intro z hz
    rw [setChilds_index, tops_resetIndex hl' (by rw [setParent_kind]; exact hz), setParent_index]

theorem tops_insertBeside {b : Bool} {t : Nat} {l : List Nat} (ht : ∀ p, h.parent t = some p → ∀ c ∈ h.kids p, (h.node c).kind ≠ .root)
    (hl : ∀ c ∈ l, (h.node c).kind ≠ .root) (he : h.insertBeside b t l = .ok h1) : TopsKept h h1 := by
  unfold Heap.insertBeside at he
  dsimp only at he
  generalize (if b = true then h.index t + 1 else h.index t) = i at he
  have t0 : TopsKept h (h.resetIndex i l) := fun z hz => tops_resetIndex hl hz
  split at he
  · cases he; exact t0
  · rename_i p hp
    rw [(resetIndex_fields l h i).2.2.1 t] at hp
    split at he
    · cases he
    split at he
    · cases he; exact t0
    · rename_i cs hcs
      have hk : h.kids p = cs := by rw [Heap.kids, ← (resetIndex_fields l h i).2.1 p, hcs]; rfl
      have ht := ht p hp
      rw [hk] at ht
      split at he
      · cases he
      · have hn : ∀ c ∈ (if i < cs.length then cs.drop i else []), (h.node c).kind ≠ .root := fun c hc => by
          split at hc
          · exact ht c (List.mem_of_mem_drop hc)
          · cases hc
        generalize (if i < cs.length then cs.drop i else []) = nexts at he hn
        generalize (if i < cs.length then cs.take i else cs) = prevs at he
        split at he <;> cases he
        · intro z hz
          rw [setChilds_index, setParent_index, t0 z hz]
        · intro z hz
          rw [setChilds_index, tops_resetIndex (fun c hc => by rw [setChilds_kind, setParent_kind, resetIndex_kind]; exact hn c hc)
            (by rw [setChilds_kind, setParent_kind, resetIndex_kind]; exact hz), setChilds_index, setParent_index, t0 z hz]

theorem tops_placeNodes {pos : InsertPosition} {t : Nat} {l : List Nat} (ht : ∀ c ∈ h.kids t, (h.node c).kind ≠ .root)
    (hp : ∀ p, h.parent t = some p → ∀ c ∈ h.kids p, (h.node c).kind ≠ .root)
    (hl : ∀ c ∈ l, (h.node c).kind ≠ .root) (he : h.placeNodes e pos t l = .ok h1) : TopsKept h h1 := by
  unfold Heap.placeNodes at he
  dsimp only at he
  split at he
  · cases he
  · rename_i M hM
    have hl' : ∀ c ∈ M, (h.node c).kind ≠ .root := by
      split at hM
      · obtain ⟨b, hb⟩ := removeNotAllowed_eq (e.allow (h.tagNames t)) l
        rw [hb.1] at hM
        cases hM
        exact fun c hc => hl c (List.mem_filter.1 hc).1
      · cases hM; exact hl
    split at he
    · cases he; exact .refl _
    · split at he
      · exact tops_insertInside ht hl' he
      · exact tops_insertBeside hp hl' he

/-- An insertion of a node that is not a fragment. -/
theorem tops_insert (ok : HeapOk h D) {pos : InsertPosition} {t n : Nat} (u : Usable e h D (.insert pos t n)) (ha : Accepted e h t n)
    (hk : (h.node n).kind ≠ .root) (he : h.insertAdjacent e pos t n = .ok h1) : TopsKept h h1 := by
  unfold Heap.insertAdjacent at he
  split at he
  · cases he
  · cases he; exact .refl _
  · split at he
    · cases he
    · rename_i g N hg
      have htk : h.takeNodes e n = (h.detach n).map fun g => (g, [n]) := by
        unfold Heap.takeNodes
        rw [if_neg (by simp [Heap.isFragment, Heap.isRoot, hk])]
      obtain ⟨g', r1, d⟩ := detach_detached ok u.2.1
      rw [htk, r1] at hg
      cases hg
      have td := tops_detach ok u.2.1 r1
      have hat := d.attached t ha.2.2.1 u.1
      refine td.trans d.data (tops_placeNodes (fun c hc => d.ok.kid t c (tag_live d.ok ((d.data t).1.trans ha.1)) hc)
        (fun p hp c hc => d.ok.kid p c (hat p hp).1 hc) (fun c hc => ?_) he)
      simp only [List.mem_singleton] at hc
      subst hc
      rw [(d.data c).1]
      exact hk

theorem tops_removeAll (X : List Nat) : ∀ {h h1 : Heap}, HeapOk h D → (∀ x ∈ X, Attached h D x) → X.Nodup → removeAll h X = .ok h1 → TopsKept h h1 := by
  induction X with
  | nil => intro h h1 _ _ _ he; cases he; exact .refl _
  | cons x X ih =>
    intro h h1 ok hX hnd he
    obtain ⟨g, r1, d⟩ := detach_detached ok (hX x (by simp))
    simp only [removeAll, r1] at he
    rw [List.nodup_cons] at hnd
    exact (tops_detach ok (hX x (by simp)) r1).trans d.data (ih d.ok (fun y hy => d.attached y (fun h2 => hnd.1 (h2 ▸ hy)) (hX y (by simp [hy]))) hnd.2 he)

end Visdom
