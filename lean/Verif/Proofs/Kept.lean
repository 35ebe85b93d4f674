import Verif.Proofs.Steps
import Verif.Spec.After
/-!
# Mutations keep names, attributes and root links
-/
namespace Visdom
open Spec

/-- Only links and contents have changed. -/
structure NodesKept (h h' : Heap) : Prop where
  size : h'.size = h.size
  same : ∀ x, SameNode h h' x

section
variable {h h1 h2 : Heap} {e : Ext}

theorem Spec.SameNode.refl (h : Heap) (x : Nat) : SameNode h h x := ⟨rfl, rfl, rfl, rfl⟩

theorem Spec.SameNode.trans {x : Nat} (a : SameNode h h1 x) (b : SameNode h1 h2 x) : SameNode h h2 x := by
  obtain ⟨a1, a2, a3, a4⟩ := a
  obtain ⟨b1, b2, b3, b4⟩ := b
  exact ⟨b1.trans a1, b2.trans a2, b3.trans a3, b4.trans a4⟩

theorem NodesKept.refl (h : Heap) : NodesKept h h := ⟨rfl, fun _ => .refl _ _⟩

theorem NodesKept.trans (a : NodesKept h h1) (b : NodesKept h1 h2) : NodesKept h h2 :=
  ⟨b.size.trans a.size, fun x => (a.same x).trans (b.same x)⟩

theorem Spec.SameData.kept (d : SameData h h1) (hs : h1.size = h.size) : NodesKept h h1 :=
  ⟨hs, fun x => ⟨(d x).1, (d x).2.1, (d x).2.2.1, (d x).2.2.2.2⟩⟩

theorem kept_resetIndex (s : Nat) (l : List Nat) : NodesKept h (h.resetIndex s l) :=
  (resetIndex_fields l h s).2.2.2.1.kept (resetIndex_fields l h s).1

theorem kept_setParent (p : Nat) (l : List Nat) : NodesKept h (h.setParent p l) :=
  (setParent_fields p l h).2.2.2.1.kept (setParent_fields p l h).1

theorem kept_setChilds (x : Nat) (cs : Option (List Nat)) : NodesKept h (h.setChilds x cs) := (setChilds_data h x cs).kept rfl

theorem kept_content (x : Nat) (c : Option (List Char)) : NodesKept h (h.upd x fun n => { n with content := c }) := by
  refine ⟨rfl, fun y => ?_⟩
  simp only [SameNode, upd_node]
  split <;> exact ⟨rfl, rfl, rfl, rfl⟩

theorem kept_removeChild {p x : Nat} (he : h.removeChild p x = .ok h1) : NodesKept h h1 := by
  unfold Heap.removeChild at he
  repeat' split at he
  all_goals cases he
  · exact .refl _
  · exact kept_setChilds _ _
  · exact (kept_resetIndex _ _).trans (kept_setChilds _ _)
  · exact .refl _

theorem kept_detach {x : Nat} (he : h.detach x = .ok h1) : NodesKept h h1 := by
  unfold Heap.detach at he
  split at he
  · cases he; exact .refl _
  · exact kept_removeChild he

theorem kept_takeNodes {n : Nat} {l : List Nat} (he : h.takeNodes e n = .ok (h1, l)) : NodesKept h h1 := by
  unfold Heap.takeNodes at he
  split at he
  · cases he; exact .refl _
  · cases hd : h.detach n with
    | error x => rw [hd] at he; cases he
    | ok g => rw [hd] at he; cases he; exact kept_detach hd

theorem kept_insertBeside {b : Bool} {t : Nat} {l : List Nat} (he : h.insertBeside b t l = .ok h1) : NodesKept h h1 := by
  unfold Heap.insertBeside at he
  dsimp only at he
  generalize (if b = true then h.index t + 1 else h.index t) = i at he
  split at he
  · cases he; exact kept_resetIndex _ _
  · split at he
    · cases he
    split at he
    · cases he; exact kept_resetIndex _ _
    · split at he
      · cases he
      · rename_i cs _ _
        generalize (if i < cs.length then cs.drop i else []) = nexts at he
        generalize (if i < cs.length then cs.take i else cs) = prevs at he
        split at he <;> cases he
        · exact (kept_resetIndex _ _).trans ((kept_setParent _ _).trans (kept_setChilds _ _))
        · exact (kept_resetIndex _ _).trans ((kept_setParent _ _).trans ((kept_setChilds _ _).trans
            ((kept_resetIndex _ _).trans (kept_setChilds _ _))))

theorem kept_insertInside {b : Bool} {t : Nat} {l : List Nat} (he : h.insertInside b t l = .ok h1) : NodesKept h h1 := by
  unfold Heap.insertInside at he
  dsimp only at he
  split at he
  · split at he
    · cases he
    · split at he
      · cases he; exact (kept_setParent _ _).trans ((kept_resetIndex _ _).trans (kept_setChilds _ _))
      · split at he <;> cases he
        exact (kept_setParent _ _).trans ((kept_resetIndex _ _).trans ((kept_resetIndex _ _).trans (kept_setChilds _ _)))
  · cases he; exact (kept_setParent _ _).trans ((kept_resetIndex _ _).trans (kept_setChilds _ _))

theorem kept_placeNodes {pos : InsertPosition} {t : Nat} {l : List Nat} (he : h.placeNodes e pos t l = .ok h1) : NodesKept h h1 := by
  unfold Heap.placeNodes at he
  dsimp only at he
  split at he
  · cases he
  · split at he
    · cases he; exact .refl _
    · split at he
      · exact kept_insertInside he
      · exact kept_insertBeside he

theorem kept_insertAdjacent {pos : InsertPosition} {t n : Nat} (he : h.insertAdjacent e pos t n = .ok h1) : NodesKept h h1 := by
  unfold Heap.insertAdjacent at he
  split at he
  · cases he
  · cases he; exact .refl _
  · split at he
    · cases he
    · rename_i hd; exact (kept_takeNodes hd).trans (kept_placeNodes he)

theorem kept_replaceWith {t n k : Nat} (he : h.replaceWith e t n = .ok (h1, k)) : NodesKept h h1 := by
  unfold Heap.replaceWith at he
  dsimp only [Except.map] at he
  split at he
  · cases he
  · rename_i g l hd
    refine (kept_takeNodes hd).trans ?_
    split at he
    · cases he; exact .refl _
    · split at he
      · cases he
      · rename_i g1 hres
        cases he
        repeat' split at hres
        all_goals cases hres
        · exact .refl _
        · exact .refl _
        · exact (kept_resetIndex _ _).trans ((kept_resetIndex _ _).trans ((kept_setParent _ _).trans (kept_setChilds _ _)))

theorem kept_removeText {x : Nat} (he : h.removeText x = .ok h1) : NodesKept h h1 := by
  unfold Heap.removeText at he
  dsimp only at he
  repeat' split at he
  all_goals cases he
  · exact .refl _
  · exact .refl _
  · exact (kept_setChilds _ _).trans (kept_resetIndex _ _)

theorem kept_appendText {x : Nat} {s : List Char} (he : h.appendText x s = .ok h1) : NodesKept h h1 := by
  unfold Heap.appendText at he
  split at he
  · cases he; exact kept_content _ _
  · cases he

theorem kept_prependText {x : Nat} {s : List Char} (he : h.prependText x s = .ok h1) : NodesKept h h1 := by
  unfold Heap.prependText at he
  split at he
  · cases he; exact kept_content _ _
  · cases he

/-- Only links and contents have changed, and text nodes have been added. -/
structure Grown (h h' : Heap) : Prop where
  size : h.size ≤ h'.size
  same : ∀ x, x < h.size → SameNode h h' x
  new : ∀ x, h.size ≤ x → x < h'.size → h'.isElem x = false

theorem NodesKept.grown (k : NodesKept h h1) : Grown h h1 :=
  ⟨Nat.le_of_eq k.size.symm, fun x _ => k.same x, fun x a b => by rw [k.size] at b; omega⟩

theorem grown_setText (x : Nat) (s : List Char) : Grown h (h.setText e x s) := by
  unfold Heap.setText
  split
  · split
    · exact (kept_content _ _).grown
    · split
      · exact (kept_setChilds _ _).grown
      · refine ⟨Nat.le_succ _, fun y hy => ?_, fun y a b => ?_⟩
        · have k := (kept_setChilds (h := (h.alloc { kind := .text, content := some (e.encode s), parent := some x }).1) x
            (some [h.size])).same y
          refine SameNode.trans ?_ k
          simp only [SameNode, Heap.alloc, if_neg (Nat.ne_of_lt hy), and_self]
        · have k := (kept_setChilds (h := (h.alloc { kind := .text, content := some (e.encode s), parent := some x }).1) x
            (some [h.size])).same y
          have b' : y < h.size + 1 := b
          obtain rfl : y = h.size := by omega
          have : ((h.alloc { kind := .text, content := some (e.encode s), parent := some x }).1.node h.size).kind = .text := by
            simp [Heap.alloc]
          show decide _ = false
          simp only [Heap.alloc] at k
          exact decide_eq_false (by simp only [Heap.alloc]; rw [k.1]; simp)
  · split
    · exact (NodesKept.refl _).grown
    · exact (kept_content _ _).grown
  · split
    · exact (NodesKept.refl _).grown
    · exact (kept_content _ _).grown
  · split
    · exact (NodesKept.refl _).grown
    · exact (kept_content _ _).grown
  · exact (NodesKept.refl _).grown

theorem kept_setHtml {x : Nat} {s : List Char} (he : h.setHtml e x s = .ok h1) :
    NodesKept h h1 ∨ ∃ g r, e.parse h s = .ok (g, r) ∧ NodesKept g h1 := by
  unfold Heap.setHtml at he
  dsimp only at he
  split at he
  · cases he; exact .inl (.refl _)
  · split at he
    · cases he
    · split at he
      · cases he; exact .inl (kept_content _ _)
      · split at he
        · cases he
        · rename_i g r hp
          refine .inr ⟨g, r, hp, ?_⟩
          split at he
          · cases he; exact kept_setChilds _ _
          · split at he
            · cases he
            · rename_i nodes notAllowed _
              split at he
              · cases he
                refine NodesKept.trans ?_ (kept_setChilds _ _)
                split
                · exact (kept_setChilds _ _).trans ((kept_setParent _ _).trans (kept_resetIndex _ _))
                · exact (kept_setChilds _ _).trans (kept_setParent _ _)
              · split at he
                · cases he; exact (kept_setChilds _ _).trans (kept_setParent _ _)
                · split at he
                  · cases he
                  · split at he
                    · cases he
                    split at he
                    · cases he
                    · cases he
                      refine NodesKept.trans ?_ ((kept_resetIndex _ _).trans (kept_setChilds _ _))
                      split
                      · exact (kept_setChilds _ _).trans ((kept_setParent _ _).trans (kept_resetIndex _ _))
                      · exact (kept_setChilds _ _).trans (kept_setParent _ _)

/-- Every call leaves the nodes alone, apart from links and contents, and adds only what the parser makes and text nodes. -/
theorem grown_run {op : Op} (he : op.run e h = .ok h1) :
    Grown h h1 ∨ ∃ s g r, e.parse h s = .ok (g, r) ∧ Grown g h1 := by
  cases op with
  | remove x => exact .inl (kept_detach he).grown
  | removeText x => exact .inl (kept_removeText he).grown
  | insert pos t n => exact .inl (kept_insertAdjacent he).grown
  | replace t n =>
    simp only [Op.run] at he
    cases hd : h.replaceWith e t n with
    | error x => rw [hd] at he; cases he
    | ok p => rw [hd] at he; cases he; exact .inl (kept_replaceWith (k := p.2) hd).grown
  | setText x s => cases he; exact .inl (grown_setText _ _)
  | appendText x s => exact .inl (kept_appendText he).grown
  | prependText x s => exact .inl (kept_prependText he).grown
  | setHtml x s =>
    rcases kept_setHtml he with k | ⟨g, r, hp, k⟩
    · exact .inl k.grown
    · exact .inr ⟨s, g, r, hp, k.grown⟩
  | load s =>
    simp only [Op.run] at he
    cases hd : e.parse h s with
    | error x => rw [hd] at he; cases he
    | ok p => rw [hd] at he; cases he; exact .inr ⟨s, p.1, p.2, hd, (NodesKept.refl _).grown⟩

theorem isElem_same {x : Nat} (s : SameNode h h1 x) : h1.isElem x = h.isElem x := by
  simp only [Heap.isElem, s.1]

theorem Grown.tables (g : Grown h h1) (t : Tables h) : Tables h1 := by
  intro x hx he
  rcases Nat.lt_or_ge x h.size with hl | hl
  · rw [(g.same x hl).2.2.1]
    exact t x hl (by rw [← isElem_same (g.same x hl)]; exact he)
  · rw [g.new x hl hx] at he; cases he

theorem runAll_same (P : ParseOk e) (ops : List Op) : ∀ h h', runAll e h ops = .ok h' →
    h.size ≤ h'.size ∧ (∀ x, x < h.size → SameNode h h' x) ∧ (ParseTables e → Tables h → Tables h') := by
  induction ops with
  | nil => intro h h' he; cases he; exact ⟨Nat.le_refl _, fun x _ => .refl _ _, fun _ t => t⟩
  | cons op ops ih =>
    intro h h' he
    simp only [runAll] at he
    split at he
    · cases he
    · rename_i g hg
      obtain ⟨a1, a2, a3⟩ := ih g h' he
      have key : h.size ≤ g.size ∧ (∀ x, x < h.size → SameNode h g x) ∧ (ParseTables e → Tables h → Tables g) := by
        rcases grown_run hg with k | ⟨s, g0, r, hp, k⟩
        · exact ⟨k.size, k.same, fun _ t => k.tables t⟩
        · obtain ⟨p1, p2, -⟩ := P h s g0 r hp
          refine ⟨Nat.le_trans p1 k.size, fun x hx => ?_, fun pt t => k.tables (pt h s g0 r hp t)⟩
          refine SameNode.trans ?_ (k.same x (Nat.lt_of_lt_of_le hx p1))
          simp only [SameNode, p2 x hx, and_self]
      exact ⟨Nat.le_trans key.1 a1, fun x hx => (key.2.1 x hx).trans (a2 x (Nat.lt_of_lt_of_le hx key.1)),
        fun pt t => a3 pt (key.2.2 pt t)⟩

end
end Visdom
