import Verif.Props.OrderKept
import Verif.Props.FoundArranged
/-!
# C105: searches with one compound depend on nothing but the elements of the document
-/
namespace Visdom
open Spec

section
variable {h h' : Heap} {r : Nat} {D : Nat → Prop} {e : Ext} {ss : List Sim}

/-- One compound from the document: the elements of the document that satisfy it. -/
theorem one_compound (wf : TreeWF h r) (ev : Metas h r) (ho : Own [(.childrenAll, ss)]) {env : Env} {res : List Nat}
    (hf : find h env [r] [[(.childrenAll, ss)]] = .ok res) (y : Nat) : y ∈ res ↔ Within h r y ∧ h.isElem y = true ∧ cmpdSat h r env ss y := by
  rw [C17_find_basic wf ev ho.basic (nodes_root wf) (docSorted_single r) hf]
  simp only [steps, step, Sel, List.foldl_cons, List.foldl_nil, Img, Rel, List.mem_singleton, exists_eq_left, decide_eq_true_eq]
  constructor
  · rintro ⟨h1, h2, c, hc, hw⟩
    exact ⟨(Within.self.step hc).trans hw, h1, h2⟩
  · rintro ⟨h1, h2, h3⟩
    refine ⟨h2, h3, ?_⟩
    rcases within_cases h1 with rfl | h4
    · exact absurd rfl (elem_ne_root wf h2)
    · exact h4

/-- **C105**: after any history of usable calls, a search from the document with one compound of names, classes and attributes: an element that was in the document and
still is, wherever it stands now, is found if and only if it was found before. The answer holds every element once, in the order of the document as it is now. When the
same elements are in the document as before, the same ones are found. -/
theorem C105_history (P : ParseOk e) (T : ParseTables e) (ok : HeapOk h D) (t : Tables h) {ops : List Op} (hh : History e h D ops)
    (hk : (h.node r).kind = .root) (hb : r < h.size) (hD : ¬ D r) (hu : ¬ UsedAll e h D ops r) (ho : Own [(.childrenAll, ss)]) (env env' : Env) :
    ∃ h' res res', runAll e h ops = .ok h' ∧ find h env [r] [[(.childrenAll, ss)]] = .ok res ∧ find h' env' [r] [[(.childrenAll, ss)]] = .ok res' ∧
      (∀ y, Within h r y → Within h' r y → (y ∈ res' ↔ y ∈ res)) ∧ DocSorted h' r res' ∧ res'.Nodup ∧
      ((∀ y, h'.isElem y = true → (Within h' r y ↔ Within h r y)) → res'.Perm res) := by
  obtain ⟨h', hr, wf', ev'⟩ := history_ready P T ok t hh hk hb hu
  have wf := ok.tree hk hD hb
  have ev : Metas h r := fun x hx he => t x (wf.bound x hx) he
  obtain ⟨res, hf⟩ := C19_find_basic_descendants (env := env) wf ev ho.basic (by simp) (nodes_root wf) (docSorted_single r)
  obtain ⟨res', hf'⟩ := C19_find_basic_descendants (env := env') wf' ev' ho.basic (by simp) (nodes_root wf') (docSorted_single r)
  obtain ⟨o2, n2⟩ := C18_find_descendants wf' ev' (basic_findOk ho.basic (by simp)) (by simp) (nodes_root wf') (docSorted_single r) hf'
  have n1 := (C18_find_descendants wf ev (basic_findOk ho.basic (by simp)) (by simp) (nodes_root wf) (docSorted_single r) hf).2
  have m1 := one_compound wf ev ho hf
  have m2 := one_compound wf' ev' ho hf'
  have same : ∀ y, Within h r y → (h'.isElem y = h.isElem y) ∧ (cmpdSat h' r env' ss y ↔ cmpdSat h r env ss y) := fun y hy => by
    obtain ⟨k1, k2, k3, _⟩ := (runAll_same P ops h h' hr).2.1 y (wf.bound y hy)
    exact ⟨by unfold Heap.isElem; rw [k1], own_cmpd ⟨k1, k2, k3⟩ (ho.2 (.childrenAll, ss) (by simp)).2.2⟩
  have key : ∀ y, Within h r y → Within h' r y → (y ∈ res' ↔ y ∈ res) := fun y hy hy' => by
    rw [m1, m2, (same y hy).1, (same y hy).2]
    exact ⟨fun h1 => ⟨hy, h1.2⟩, fun h1 => ⟨hy', h1.2⟩⟩
  refine ⟨h', res, res', hr, hf, hf', key, o2, n2, fun hall => (List.perm_ext_iff_of_nodup n2 n1).2 fun y => ?_⟩
  constructor
  · intro h1
    have h2 := (m2 y).1 h1
    exact (key y ((hall y h2.2.1).1 h2.1) h2.1).1 h1
  · intro h1
    have h2 := (m1 y).1 h1
    exact (key y h2.1 ((hall y (by rw [(same y h2.1).1]; exact h2.2.1)).2 h2.1)).2 h1

/-- **C105, what is lost and what is new**: the second answer without the elements that were not in the document before holds the elements of the first answer that are
still in the document. -/
theorem C105_count (P : ParseOk e) (T : ParseTables e) (ok : HeapOk h D) (t : Tables h) {ops : List Op} (hh : History e h D ops)
    (hk : (h.node r).kind = .root) (hb : r < h.size) (hD : ¬ D r) (hu : ¬ UsedAll e h D ops r) (ho : Own [(.childrenAll, ss)]) (env env' : Env) :
    ∃ h' res res', runAll e h ops = .ok h' ∧ find h env [r] [[(.childrenAll, ss)]] = .ok res ∧ find h' env' [r] [[(.childrenAll, ss)]] = .ok res' ∧
      ((∀ y, h.isElem y = true → Within h r y → Within h' r y) → ∀ y ∈ res, y ∈ res') ∧
      ((∀ y, h'.isElem y = true → Within h' r y → Within h r y) → ∀ y ∈ res', y ∈ res) := by
  obtain ⟨h', res, res', hr, hf, hf', key, -⟩ := C105_history (ss := ss) P T ok t hh hk hb hD hu ho env env'
  obtain ⟨h2, hr2, wf', ev'⟩ := history_ready P T ok t hh hk hb hu
  rw [hr] at hr2; cases hr2
  have wf := ok.tree hk hD hb
  have ev : Metas h r := fun x hx he => t x (wf.bound x hx) he
  have m1 := one_compound wf ev ho hf
  have m2 := one_compound wf' ev' ho hf'
  refine ⟨h', res, res', hr, hf, hf', fun hl y hy => ?_, fun hn y hy => ?_⟩
  · have h3 := (m1 y).1 hy
    exact (key y h3.1 (hl y h3.2.1 h3.1)).2 hy
  · have h3 := (m2 y).1 hy
    exact (key y (hn y h3.2.1 h3.1) h3.1).1 hy

end
/-! ## The hypotheses are satisfiable -/

/-- The `p` goes to the end of the inner `div`, and the second child of the document goes before the first. -/
def moveOps : List Op := [.insert .beforeEnd 5 2, .insert .beforeBegin 1 8]

theorem moveOps_history : History ext0 demo2 noneUsed moveOps := noneUsed_eq ▸ histB_sound _ _ _ (by decide)

theorem moveOps_used : ¬ UsedAll ext0 demo2 noneUsed moveOps 0 := by
  rintro ((h | ⟨h, -⟩) | ⟨h, -⟩)
  · exact h
  · cases h
  · cases h

/-- `find("p")`: the `p` that was moved is found if and only if it was found before. -/
example : ∃ h' res', runAll ext0 demo2 moveOps = .ok h' ∧ find h' env0 [0] [[(.childrenAll, [ty "p"])]] = .ok res' ∧ res' = [6, 2] ∧ (2 ∈ res' ↔ 2 ∈ [2, 6]) := by
  obtain ⟨h', res, res', hr, hf, hf', k, -⟩ := C105_history (ss := [ty "p"]) ext0_parse ext0_tables demo2_ok demo2_tables' moveOps_history (r := 0) (by decide) (by decide)
    id moveOps_used ⟨by decide, by decide⟩ env0 env0
  have hh : h' = (match runAll ext0 demo2 moveOps with | .ok h => h | .error _ => demo2) := by rw [hr]
  have k1 : find demo2 env0 [0] [[(.childrenAll, [ty "p"])]] = .ok [2, 6] := by decide
  rw [k1] at hf; cases hf
  have k2 : find h' env0 [0] [[(.childrenAll, [ty "p"])]] = .ok [6, 2] := by rw [hh]; decide
  refine ⟨h', res', hr, hf', by rw [k2] at hf'; exact (Except.ok.inj hf').symm, k 2 (.step (p := 1) (.step (p := 0) .self (by decide)) (by decide)) ?_⟩
  rw [hh]
  exact .step (p := 5) (.step (p := 1) (.step (p := 0) .self (by decide)) (by decide)) (by decide)

set_option maxRecDepth 100000 in
/-- **C105 is about one compound**: `find("div p")` does not find the `p` any more when it has been moved out of the `div`, though it is in the document. -/
theorem C105_fails_two : ∃ h', runAll ext0 demo2 [.insert .afterEnd 1 2] = .ok h' ∧ 2 ∈ h'.kids 0 ∧ find demo2 env0 [0] [divP] = .ok [2, 6] ∧
    find h' env0 [0] [divP] = .ok [6] :=
  ⟨_, rfl, by decide, by decide, by decide⟩

end Visdom
