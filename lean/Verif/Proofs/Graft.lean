import Verif.Spec.Place
import Verif.Proofs.Html
/-!
# A parser for examples that makes a given tree

Used to show that what is required of a parser can be met by parsers that make any trees.
-/
namespace Visdom
open Spec

/-- A node moved up by `n` places in the heap. -/
def shiftNode (n : Nat) (nd : Node) : Node :=
  { nd with childs := nd.childs.map (·.map (· + n)), parent := nd.parent.map (· + n), root := nd.root.map (· + n) }

/-- The second heap put behind the first one. -/
def graft (h g : Heap) : Heap := ⟨h.size + g.size, fun y => if y < h.size then h.node y else shiftNode h.size (g.node (y - h.size))⟩

/-- rphtml's functions for examples: the parser makes the tree with root 0 of the heap that belongs to the text. -/
def extOf (table : List Char → Heap) : Ext :=
  { isDoc := fun _ x => x == 0, allow := fun name _ => name != "br".toList, contentTag := fun name => name == "textarea".toList, encode := id,
    parse := fun h s => .ok (graft h (table s), h.size) }

section
variable {h g : Heap} {D : Nat → Prop}

theorem graft_old {y : Nat} (hy : y < h.size) : (graft h g).node y = h.node y := if_pos hy
theorem graft_new (y : Nat) : (graft h g).node (y + h.size) = shiftNode h.size (g.node y) := by
  have : ¬ y + h.size < h.size := by omega
  show (if y + h.size < h.size then _ else _) = _
  rw [if_neg this, Nat.add_sub_cancel]

theorem graft_kids_old {y : Nat} (hy : y < h.size) : (graft h g).kids y = h.kids y := by unfold Heap.kids; rw [graft_old hy]
theorem graft_kids_new (y : Nat) : (graft h g).kids (y + h.size) = (g.kids y).map (· + h.size) := by
  unfold Heap.kids; rw [graft_new]
  show ((g.node y).childs.map _).getD [] = _
  cases (g.node y).childs <;> rfl
theorem graft_parent_old {y : Nat} (hy : y < h.size) : (graft h g).parent y = h.parent y := by unfold Heap.parent; rw [graft_old hy]
theorem graft_parent_new (y : Nat) : (graft h g).parent (y + h.size) = (g.parent y).map (· + h.size) := by
  unfold Heap.parent; rw [graft_new]; rfl

theorem graft_ok (ok : HeapOk h D) (ok' : HeapOk g noneUsed) : HeapOk (graft h g) D := by
  have split : ∀ y, y < h.size ∨ ∃ z, y = z + h.size := fun y => by
    by_cases hy : y < h.size
    · exact .inl hy
    · exact .inr ⟨y - h.size, by omega⟩
  have hD : ∀ z, ¬ D (z + h.size) := fun z hz => by have := (ok.dead _ hz).2; omega
  have kidb : ∀ p c, ¬ D p → c ∈ h.kids p → c < h.size := fun p c hp hc => by
    obtain ⟨i, hi⟩ := List.getElem?_of_mem hc
    exact (ok.bound c p (ok.link p i c hp hi).1).1
  refine ⟨?_, ?_, ?_, ?_, ?_, ?_, ?_⟩
  · intro p i c hp hc
    rcases split p with h1 | ⟨q, rfl⟩
    · rw [graft_kids_old h1] at hc
      obtain ⟨l1, l2⟩ := ok.link p i c hp hc
      have hb := (ok.bound c p l1).1
      refine ⟨by rw [graft_parent_old hb]; exact l1, ?_⟩
      unfold Heap.index at l2 ⊢; rw [graft_old hb]; exact l2
    · rw [graft_kids_new, List.getElem?_map] at hc
      obtain ⟨d, hd, rfl⟩ := Option.map_eq_some_iff.1 hc
      obtain ⟨l1, l2⟩ := ok'.link q i d (fun hn => hn) hd
      refine ⟨by rw [graft_parent_new, l1]; rfl, ?_⟩
      unfold Heap.index at l2 ⊢; rw [graft_new]; exact l2
  · intro p c hp hc
    rcases split p with h1 | ⟨q, rfl⟩
    · rw [graft_kids_old h1] at hc
      rw [graft_old (kidb p c hp hc)]
      exact ok.kid p c hp hc
    · rw [graft_kids_new] at hc
      obtain ⟨d, hd, rfl⟩ := List.mem_map.1 hc
      rw [graft_new]
      exact ok'.kid q d (fun hn => hn) hd
  · intro x hx
    rcases split x with h1 | ⟨q, rfl⟩
    · rw [graft_old h1] at hx; rw [graft_parent_old h1]; exact ok.top x hx
    · rw [graft_new] at hx; rw [graft_parent_new, ok'.top q hx]; rfl
  · intro x h2 h3
    rcases split x with h1 | ⟨q, rfl⟩
    · rw [graft_old h1] at h2 h3; rw [graft_kids_old h1]; exact ok.leaf x h2 h3
    · rw [graft_new] at h2 h3; rw [graft_kids_new, ok'.leaf q h2 h3]; rfl
  · intro x p hp
    show x < h.size + g.size ∧ p < h.size + g.size
    rcases split x with h1 | ⟨q, rfl⟩
    · rw [graft_parent_old h1] at hp
      have := (ok.bound x p hp).2
      omega
    · rw [graft_parent_new] at hp
      obtain ⟨d, hd, rfl⟩ := Option.map_eq_some_iff.1 hp
      have := ok'.bound q d hd
      omega
  · have a1 : ∀ x, x < h.size → Acc (fun p x => (graft h g).parent x = some p) x := by
      intro x
      induction x using ok.ground.induction with
      | _ x ih =>
        intro hx
        refine .intro x fun p hp => ?_
        rw [graft_parent_old hx] at hp
        exact ih p hp (ok.bound x p hp).2
    have a2 : ∀ z, Acc (fun p x => (graft h g).parent x = some p) (z + h.size) := by
      intro z
      induction z using ok'.ground.induction with
      | _ z ih =>
        refine .intro _ fun p hp => ?_
        rw [graft_parent_new] at hp
        obtain ⟨d, hd, rfl⟩ := Option.map_eq_some_iff.1 hp
        exact ih d hd
    refine ⟨fun x => ?_⟩
    rcases split x with h1 | ⟨q, rfl⟩
    · exact a1 x h1
    · exact a2 q
  · intro x hx
    obtain ⟨d1, d2⟩ := ok.dead x hx
    refine ⟨by rw [graft_old d2]; exact d1, ?_⟩
    show x < h.size + g.size
    omega

mutual
theorem graft_shape {x : Nat} {S : Shape} : ShapeOf g x S → ShapeOf (graft h g) (x + h.size) S
  | .mk hl => by
    have h1 := graft_shapes hl
    rw [← graft_kids_new] at h1
    have := ShapeOf.mk h1
    rw [graft_new] at this
    exact this
theorem graft_shapes {l : List Nat} {F : List Shape} : ShapesOf g l F → ShapesOf (graft h g) (l.map (· + h.size)) F
  | .nil => .nil
  | .cons h1 h2 => .cons (graft_shape h1) (graft_shapes h2)
end

theorem extOf_parse {table : List Char → Heap} (ht : ∀ s, HeapOk (table s) noneUsed ∧ ((table s).node 0).kind = .root ∧ 0 < (table s).size) :
    ParseOk (extOf table) := by
  intro h s h' r hp
  cases hp
  obtain ⟨t1, t2, t3⟩ := ht s
  refine ⟨Nat.le_add_right _ _, fun y hy => graft_old hy, Nat.le_refl _, ?_, ?_, fun D ok => graft_ok ok t1⟩
  · show h.size < h.size + (table s).size
    omega
  · have := graft_new (h := h) (g := table s) 0
    rw [Nat.zero_add] at this
    rw [this]; exact t2

theorem extOf_parses {table : List Char → Heap} {s : List Char} {F : List Shape} (hF : ShapesOf (table s) ((table s).kids 0) F) :
    ParsesTo (extOf table) s F fun name _ => name != "br".toList where
  total := fun h => ⟨_, rfl⟩
  shapes := fun h h' r hp => by
    cases hp
    have h1 := graft_shapes (h := h) hF
    rw [← graft_kids_new, Nat.zero_add] at h1
    exact h1
  allow := fun _ _ _ _ _ _ _ _ _ => rfl

theorem graft_within {x y : Nat} (hw : Within (graft h g) (x + h.size) y) : ∃ z, y = z + h.size ∧ Within g x z := by
  induction hw with
  | self => exact ⟨x, rfl, .self⟩
  | step _ hc ih =>
    obtain ⟨z, rfl, hz⟩ := ih
    rw [graft_kids_new] at hc
    obtain ⟨d, hd, rfl⟩ := List.mem_map.1 hc
    exact ⟨d, rfl, hz.step hd⟩

theorem extOf_plain {table : List Char → Heap} (ht : ∀ s, AsLoaded (table s) 0) : LoadsPlain (extOf table) := by
  intro h s h' r hp
  cases hp
  obtain ⟨a1, a2, a3, a4, a5, a6⟩ := ht s
  have hn := graft_new (h := h) (g := table s) 0
  rw [Nat.zero_add] at hn
  refine ⟨?_, ?_, ?_, ?_, ?_, fun x hx => ?_⟩
  · rw [hn]; exact a1
  · rw [hn]; exact a2
  · rw [hn]; exact a3
  · rw [hn]; exact a4
  · unfold Heap.index at a5 ⊢; rw [hn]; exact a5
  · rw [← Nat.zero_add h.size] at hx
    obtain ⟨z, rfl, hz⟩ := graft_within hx
    rw [graft_new]
    show ((table s).node z).root.map (· + h.size) = _
    rw [a6 z hz]
    simp

end

end Visdom
