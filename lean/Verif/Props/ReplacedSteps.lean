import Verif.Props.RemovedSteps
import Verif.Props.Exchange
/-!
# C110: the steps from an element that has taken the place of another one
-/
namespace Visdom
open Spec

section
variable {h : Heap} {D : Nat → Prop} {e : Ext}

/-- **C110**: after `t.replace_with(n)` the element `n` has the `parent` that `t` had, as `prev_all` and `next_all` those that `t` had (without `n` itself, if it was one of
them), and `next` and `prev` are the nearest of these. -/
theorem C110_replaced (ok : HeapOk h D) {t n p : Nat} (u : Usable e h D (.replace t n)) (ht : h.isElem t = true) (hn : h.isElem n = true) (hp : h.parent t = some p) (env : Env) :
    ∃ h' as bs, replaceAll e [n] h [t] = .ok (h', [n]) ∧ prevAllQ h env [t] none = .ok as ∧ nextAllQ h env [t] none = .ok bs ∧
      prevAllQ h' env [n] none = .ok (as.filter (· ≠ n)) ∧ nextAllQ h' env [n] none = .ok (bs.filter (· ≠ n)) ∧
      nextQ h' env [n] none = .ok (bs.find? (· ≠ n)).toList ∧ prevQ h' env [n] none = .ok (as.reverse.find? (· ≠ n)).toList ∧
      parentQ h' env [n] none = parentQ h env [t] none := by
  obtain ⟨hD, hi⟩ := u.1 p hp
  have htn : t ≠ n := by obtain ⟨-, -, -, -, -, k, -⟩ := u; exact fun c => k (by simp [c])
  have hkn : (h.node n).kind ≠ .root := by
    have : (h.node n).kind = .tag := by simpa [Heap.isElem] using hn
    rw [this]; decide
  obtain ⟨h', r, k, par, sd, ok', -⟩ := replace_lists ok u hkn hD hp
  obtain ⟨as, bs, hc⟩ := List.append_of_mem (show t ∈ h.children p from List.mem_filter.2 ⟨List.mem_of_getElem? hi, ht⟩)
  have hnd : (as ++ t :: bs).Nodup := by
    rw [← hc]
    exact (ok.kids_nodup hD).filter _
  have hta : t ∉ as ++ bs := (List.nodup_middle.1 hnd).notMem
  have hself : ∀ l : List Nat, t ∉ l → (l.filter (· ≠ n)).map (fun y => if y = t then n else y) = l.filter (· ≠ n) := by
    intro l hl
    refine (List.map_congr_left fun y hy => ?_).trans (List.map_id _)
    have hyt : y ≠ t := fun c => hl (by rw [← c]; exact (List.mem_filter.1 hy).1)
    rw [if_neg hyt]; rfl
  have hc' : h'.children p = as.filter (· ≠ n) ++ n :: bs.filter (· ≠ n) := by
    have h1 : h'.children p = ((h.children p).filter (· ≠ n)).map fun y => if y = t then n else y := by
      unfold Heap.children
      rw [k p hD, List.filter_map, List.filter_filter, List.filter_filter]
      congr 1
      refine List.filter_congr fun c _ => ?_
      simp only [Function.comp]
      rw [isElem_data sd, Bool.and_comm]
      by_cases hct : c = t
      · rw [if_pos hct, hn, hct, ht]
      · rw [if_neg hct]
    rw [h1, hc, List.filter_append, List.filter_cons_of_pos (by simpa using htn), List.map_append, List.map_cons, if_pos rfl,
      hself as fun c => hta (List.mem_append_left _ c), hself bs fun c => hta (List.mem_append_right _ c)]
  obtain ⟨a1, a2, -⟩ := neighbours ok hD hc
  obtain ⟨b1, b2, b3⟩ := neighbours ok' hD hc'
  refine ⟨h', as, bs, r, (prevAll_one h env t).trans a2, (nextAll_one h env t).trans a1, (prevAll_one h' env n).trans b2, (nextAll_one h' env n).trans b1, ?_, ?_, ?_⟩
  · rw [next_one, b3, List.head?_filter]
  · rw [prev_one, neighbour_prev ok' hD hc', List.getLast?_eq_head?_reverse, ← List.filter_reverse, List.head?_filter]; rfl
  · simp only [parentQ, Option.map_none]
    rw [parent_one, parent_one]
    have hr : h'.isRoot p = h.isRoot p := by unfold Heap.isRoot; rw [(sd p).1]
    have hpn : h'.parent n = some p := by rw [par n, if_pos (by simp)]
    simp only [parentsOf, List.filterMap_cons, List.filterMap_nil, hp, hpn, Option.bind_some, hr]

end

/-- The `p` of the sample, with a text behind it, is replaced with the second `li`: the `ul`, where the `li` was, is next to it. -/
example : ∃ h', replaceAll ext0 [6] places [2] = .ok (h', [6]) ∧ nextAllQ h' env0 [6] none = .ok [4] ∧ prevQ h' env0 [6] none = .ok [] ∧ parentQ h' env0 [6] none = .ok [1] := by
  have hb := above_way (h := places) (m := 6) [1, 0] 2 (by decide) (by decide) (by decide)
  obtain ⟨h', as, bs, r, a, b, -, d, -, f, g⟩ := C110_replaced (e := ext0) (t := 2) (n := 6) (p := 1) places_ok ⟨attached_kid places_ok (p := 1) id (by decide),
    attached_kid places_ok (p := 4) id (by decide), id, by decide, fun h3 => absurd h3.1 (by decide), by decide, hb⟩ (by decide) (by decide) (by decide) env0
  have ha : as = [] := Except.ok.inj (a.symm.trans ((prevAll_one _ _ _).trans (by decide)))
  have hbs : bs = [4] := Except.ok.inj (b.symm.trans ((nextAll_one _ _ _).trans (by decide)))
  subst ha hbs
  exact ⟨h', r, d.trans (by decide), f.trans (by decide), g.trans ((parent_one _ _).trans (by decide))⟩

end Visdom
