import Verif.Spec.ForestCheck
import Verif.Proofs.Steps
/-!
# The parser of the examples meets what is required of a parser
-/
namespace Visdom
open Spec

theorem ext0_parse : ParseOk ext0 := by
  intro h s h' r hp
  simp only [ext0, parse0] at hp
  split at hp
  · cases hp
    refine ⟨Nat.le_succ _, fun y hy => ?_, Nat.le_refl _, Nat.lt_succ_self _, ?_, fun D ok => ?_⟩
    · simp only []; rw [if_neg (by omega)]
    · simp
    · exact alloc_root ok rfl (nd := { kind := .root, root := some h.size }) rfl rfl rfl rfl fun y => rfl
  · cases hp
    refine ⟨Nat.le_add_right _ _, fun y hy => ?_, Nat.le_refl _, by simp, ?_, fun D ok => ?_⟩
    · simp only []; rw [if_neg (by omega), if_neg (by omega)]
    · simp
    · -- the root, then the text node, then the list
      let h1 : Heap := { size := h.size + 1, node := fun y => if y = h.size then { kind := .root, root := some h.size } else h.node y }
      have ok1 : HeapOk h1 D := alloc_root ok rfl (nd := { kind := .root, root := some h.size }) rfl rfl rfl rfl fun y => rfl
      let nd : Node := { kind := .text, content := some s, parent := some h.size, root := some h.size }
      have hr1 : (h1.node h.size).kind = .root := by simp [h1]
      have hr : ¬ D h.size := fun h2 => by have := (ok.dead _ h2).2; omega
      obtain ⟨a1, a2, a3, a4, a5, a6, a7, a8⟩ := alloc_ok ok1 (x := h.size) (Nat.lt_succ_self _) nd rfl rfl (by simp [nd])
      have hk0 : (h1.alloc nd).1.kids h.size = [] := by
        rw [a3]; simp [h1, Heap.kids]
      have sp : Spliced (h1.alloc nd).1 ((h1.alloc nd).1.setChilds h.size (some [h.size + 1])) h.size [] [] [h.size + 1] [] := by
        refine ⟨rfl, by rw [hk0]; rfl, by rw [setChilds_kids, if_pos rfl]; rfl, fun q hq => by rw [setChilds_kids, if_neg hq],
          fun y => ?_, fun i c hc => ?_, fun y _ => by simp, setChilds_data _ _ _⟩
        · rw [setChilds_parent]
          split
          · rename_i hy
            rw [List.mem_singleton] at hy
            subst hy
            unfold Heap.parent
            have : (h1.alloc nd).1.node (h.size + 1) = nd := a6
            rw [this]
          · rfl
        · rw [setChilds_index]
          cases i with
          | zero =>
            simp only [List.nil_append, List.append_nil, List.getElem?_cons_zero, Option.some.injEq] at hc
            subst hc
            unfold Heap.index
            have : (h1.alloc nd).1.node (h.size + 1) = nd := a6
            rw [this]
          | succ i => simp at hc
      have pl : Placeable (h1.alloc nd).1 D h.size [h.size + 1] := by
        refine ⟨?_, ?_, ?_, ?_⟩ <;> simp only [List.mem_singleton, forall_eq]
        · intro q hq; rw [a3]; exact a7 q hq
        · have : (h1.alloc nd).1.node (h.size + 1) = nd := a6
          rw [this]; simp [nd]
        · rw [a4]; simp [h1]
        · exact ⟨by omega, a8⟩
      have okF := sp.ok a1 hr (by rw [a4]; simp only [h1]; omega) (.inl (by rw [a5 _ (Nat.lt_succ_self _)]; exact hr1)) pl
      have heqv : ((h1.alloc nd).1.setChilds h.size (some [h.size + 1])) = (Heap.mk (h.size + 2) fun y =>
          if y = h.size then { kind := .root, childs := some [h.size + 1], root := some h.size }
          else if y = h.size + 1 then { kind := .text, content := some s, parent := some h.size, root := some h.size }
          else h.node y) := by
        show Heap.mk _ _ = Heap.mk _ _
        congr 1
        funext y
        simp only [Heap.alloc, h1, nd]
        by_cases e1 : y = h.size
        · subst e1
          simp
        · by_cases e2 : y = h.size + 1
          · subst e2; simp
          · simp [e1, e2]
      rw [← heqv]; exact okF

end Visdom
