import Verif.Props.Marks
import Verif.Props.Filter
/-!
# C107: testing a set with one compound gives the same answer after any history, wherever the elements are
-/
namespace Visdom
open Spec

section
variable {h h' : Heap} {r r' : Nat} {D : Nat → Prop} {e : Ext} {ss : List Sim} {X : List Nat}

/-- One compound, as a test: an element of the tree satisfies it, whatever the tree. -/
theorem one_test (wf : TreeWF h r) {env : Env} {x : Nat} (hx : Within h r x) (he : h.isElem x = true) :
    Sel h r (· = r) (steps h r env [(.childrenAll, ss)]) x ↔ cmpdSat h r env ss x := by
  simp only [steps, step, Sel, List.foldl_cons, List.foldl_nil, Img, Rel, exists_eq_left, decide_eq_true_eq]
  constructor
  · exact fun h1 => h1.2.1
  · intro h1
    refine ⟨he, h1, ?_⟩
    rcases within_cases hx with rfl | h4
    · exact absurd rfl (elem_ne_root wf he)
    · exact h4

/-- **C107 for any two states** in which the elements of the set have the same names and attributes and stand in some document, not always in the same one. -/
theorem C107_states (wf : TreeWF h r) (ev : Metas h r) (wf' : TreeWF h' r') (ev' : Metas h' r') (hX : Elems h r X) (hX' : Elems h' r' X)
    (same : ∀ x ∈ X, (h'.node x).kind = (h.node x).kind ∧ (h'.node x).name = (h.node x).name ∧ (h'.node x).attrs = (h.node x).attrs)
    (ho : Own [(.childrenAll, ss)]) (env env' : Env) :
    (∃ F, filterQ h env X [[(.childrenAll, ss)]] = .ok F ∧ filterQ h' env' X [[(.childrenAll, ss)]] = .ok F) ∧
      (∃ N, notQ h env X [[(.childrenAll, ss)]] = .ok N ∧ notQ h' env' X [[(.childrenAll, ss)]] = .ok N) ∧
      (∃ b, isQ h env X [[(.childrenAll, ss)]] = .ok b ∧ isQ h' env' X [[(.childrenAll, ss)]] = .ok b) ∧
      ∃ b, isAllQ h env X [[(.childrenAll, ss)]] = .ok b ∧ isAllQ h' env' X [[(.childrenAll, ss)]] = .ok b := by
  have hb : BasicTest [(Comb.childrenAll, ss)] := ⟨ho.basic, fun s hs => by cases hs; rfl⟩
  have roots : ∀ {h : Heap} {r : Nat}, 2 ≤ [(Comb.childrenAll, ss)].length → Roots h r := fun h1 => absurd h1 (by simp)
  have hok : ∀ {h : Heap} {r : Nat} {env : Env}, innersOk h r env true .any [[(Comb.childrenAll, ss)]] := basicTest_innersOk (by simpa using hb) (by simpa using roots)
  have hu : ∀ {h : Heap} {r : Nat} {env : Env}, UnionOn h r env .any X [[(Comb.childrenAll, ss)]] := Or.inl (by simp)
  have key : ∀ x ∈ X, (anySat h' r' env' [[(.childrenAll, ss)]] x ↔ anySat h r env [[(.childrenAll, ss)]] x) := fun x hx => by
    simp only [anySat, or_false]
    rw [one_test wf (hX x hx).1 (hX x hx).2, one_test wf' (hX' x hx).1 (hX' x hx).2]
    exact own_cmpd (same x hx) (ho.2 (.childrenAll, ss) (by simp)).2.2
  refine ⟨⟨_, C22_filter_exact_partial wf ev hok hu hX trivial, ?_⟩, ⟨_, C23_not_exact_partial wf ev hok hu hX trivial, ?_⟩, ?_, ?_⟩
  · rw [C22_filter_exact_partial wf' ev' hok hu hX' trivial]
    exact congrArg _ (List.filter_congr fun x hx => decide_eq_decide.2 (key x hx))
  · rw [C23_not_exact_partial wf' ev' hok hu hX' trivial]
    exact congrArg _ (List.filter_congr fun x hx => decide_eq_decide.2 (not_congr (key x hx)))
  · obtain ⟨b, h1, h2⟩ := C23_is_exact_partial wf ev (q := .any) (hok (env := env)) hX trivial
    obtain ⟨b', h1', h2'⟩ := C23_is_exact_partial wf' ev' (q := .any) (hok (env := env')) hX' trivial
    refine ⟨b, h1, ?_⟩
    rw [h1', Bool.eq_iff_iff.2 (h2'.trans (Iff.trans ?_ h2.symm))]
    exact exists_congr fun x => and_congr_right fun hx => key x hx
  · obtain ⟨b, h1, h2⟩ := C23_is_all_exact_partial wf ev (q := .any) (hok (env := env)) hu hX trivial
    obtain ⟨b', h1', h2'⟩ := C23_is_all_exact_partial wf' ev' (q := .any) (hok (env := env')) hu hX' trivial
    refine ⟨b, h1, ?_⟩
    rw [h1', Bool.eq_iff_iff.2 (h2'.trans (Iff.trans ?_ h2.symm))]
    exact and_congr_right fun _ => forall₂_congr fun x hx => key x hx

/-- **C107**: after any history of usable calls, `filter`, `not`, `is` and `is_all` with one compound of names, classes and attributes answer as they did before, for every
set of elements of a document that are in it, or in another document, now. -/
theorem C107_history (P : ParseOk e) (T : ParseTables e) (ok : HeapOk h D) (t : Tables h) {ops : List Op} (hh : History e h D ops)
    (hk : (h.node r).kind = .root) (hb : r < h.size) (hD : ¬ D r) (hk' : (h.node r').kind = .root) (hb' : r' < h.size) (hu : ¬ UsedAll e h D ops r')
    (hX : Elems h r X) (ho : Own [(.childrenAll, ss)]) (env env' : Env) :
    ∃ h', runAll e h ops = .ok h' ∧ ((∀ x ∈ X, Within h' r' x) →
      (∃ F, filterQ h env X [[(.childrenAll, ss)]] = .ok F ∧ filterQ h' env' X [[(.childrenAll, ss)]] = .ok F) ∧
      (∃ N, notQ h env X [[(.childrenAll, ss)]] = .ok N ∧ notQ h' env' X [[(.childrenAll, ss)]] = .ok N) ∧
      (∃ b, isQ h env X [[(.childrenAll, ss)]] = .ok b ∧ isQ h' env' X [[(.childrenAll, ss)]] = .ok b) ∧
      ∃ b, isAllQ h env X [[(.childrenAll, ss)]] = .ok b ∧ isAllQ h' env' X [[(.childrenAll, ss)]] = .ok b) := by
  obtain ⟨h', hr, wf', ev'⟩ := history_ready P T ok t hh hk' hb' hu
  have wf := ok.tree hk hD hb
  have ev : Metas h r := fun x hx he => t x (wf.bound x hx) he
  have same : ∀ x ∈ X, (h'.node x).kind = (h.node x).kind ∧ (h'.node x).name = (h.node x).name ∧ (h'.node x).attrs = (h.node x).attrs := fun x hx => by
    obtain ⟨k1, k2, k3, _⟩ := (runAll_same P ops h h' hr).2.1 x (wf.bound x (hX x hx).1)
    exact ⟨k1, k2, k3⟩
  exact ⟨h', hr, fun hw => C107_states wf ev wf' ev' hX (fun x hx => ⟨hw x hx, by unfold Heap.isElem; rw [(same x hx).1]; exact (hX x hx).2⟩) same ho env env'⟩

end

/-! ## The hypotheses are satisfiable -/

theorem demo2_elems : Elems demo2 0 [6, 2, 8] := by
  have w1 : Within demo2 0 1 := .step (p := 0) .self (by decide)
  intro x hx
  simp only [List.mem_cons, List.not_mem_nil, or_false] at hx
  rcases hx with rfl | rfl | rfl
  · exact ⟨.step (p := 5) (.step (p := 1) w1 (by decide)) (by decide), by decide⟩
  · exact ⟨.step (p := 1) w1 (by decide), by decide⟩
  · exact ⟨.step (p := 0) .self (by decide), by decide⟩

/-- Two of three elements have been moved. -/
example : ∃ h' F, runAll ext0 demo2 moveOps = .ok h' ∧ filterQ demo2 env0 [6, 2, 8] [[(.childrenAll, [ty "p"])]] = .ok F ∧ F = [6, 2] ∧
    filterQ h' env0 [6, 2, 8] [[(.childrenAll, [ty "p"])]] = .ok F := by
  obtain ⟨h', hr, k⟩ := C107_history (ss := [ty "p"]) (r := 0) (r' := 0) (X := [6, 2, 8]) ext0_parse ext0_tables demo2_ok demo2_tables' moveOps_history (by decide) (by decide)
    id (by decide) (by decide) moveOps_used demo2_elems ⟨by decide, by decide⟩ env0 env0
  have hh : h' = (match runAll ext0 demo2 moveOps with | .ok h => h | .error _ => demo2) := by rw [hr]
  have w1 : Within h' 0 1 := .step (p := 0) .self (by rw [hh]; decide)
  have w5 : Within h' 0 5 := .step (p := 1) w1 (by rw [hh]; decide)
  obtain ⟨⟨F, f1, f2⟩, -⟩ := k (fun x hx => by
    simp only [List.mem_cons, List.not_mem_nil, or_false] at hx
    rcases hx with rfl | rfl | rfl
    · exact .step (p := 5) w5 (by rw [hh]; decide)
    · exact .step (p := 5) w5 (by rw [hh]; decide)
    · exact .step (p := 0) .self (by rw [hh]; decide))
  have hf : filterQ demo2 env0 [6, 2, 8] [[(.childrenAll, [ty "p"])]] = .ok [6, 2] := by decide
  exact ⟨h', F, hr, f1, by rw [hf] at f1; exact (Except.ok.inj f1).symm, f2⟩

set_option maxRecDepth 100000 in
/-- **C107 is about one compound**: `filter("div p")` does not keep a `p` that has been moved out of the `div`. -/
theorem C107_fails_two : ∃ h', runAll ext0 demo2 [.insert .afterEnd 1 2] = .ok h' ∧ filterQ demo2 env0 [2] [divP] = .ok [2] ∧ filterQ h' env0 [2] [divP] = .ok [] :=
  ⟨_, rfl, by decide, by decide⟩

end Visdom
