import Verif.Props.FilterKept
import Verif.Props.RemovedAbove
/-!
# C107 and C92: tests with one compound of elements that are nowhere in a document
-/
namespace Visdom
open Spec

section
variable {h h1 : Heap} {D : Nat → Prop} {env env' : Env}

/-- What looks at the element itself is the same test in two states with the same data. -/
theorem own_matcher (d : SameData h h1) {s : Sim} (hs : s.own = true) : simMatcher h1 env' s = simMatcher h env s := by
  have he : ∀ x, h1.isElem x = h.isElem x := fun x => by unfold Heap.isElem; rw [(d x).1]
  cases s <;> simp only [Sim.own, Bool.false_eq_true] at hs <;> simp only [simMatcher]
  · unfold nameMatcher
    simp only [Visdom.tagNames, he, (d _).2.1]
  · unfold classMatcher
    simp only [he, (d _).2.2.1]
  · unfold attrMatcher
    simp only [he, (d _).2.2.1]
  · unfold attrMatcher
    simp only [he, (d _).2.2.1]

theorem own_segs (d : SameData h h1) {c : Comb} : ∀ {ss : List Sim}, (∀ s ∈ ss, s.own = true) → simSegs h1 env' c ss = simSegs h env c ss := by
  intro ss
  induction ss generalizing c with
  | nil => intro _; simp only [simSegs]
  | cons s ss ih =>
    intro hs
    simp only [simSegs]
    rw [own_matcher d (hs s (by simp)), ih fun t ht => hs t (by simp [ht])]

theorem own_cplx (d : SameData h h1) {ss : List Sim} (ho : Own [(.childrenAll, ss)]) :
    cplxCmpds h1 env' [(.childrenAll, ss)] = cplxCmpds h env [(.childrenAll, ss)] := by
  simp only [cplxCmpds, stepCmpd]
  rw [own_segs d (ho.2 (.childrenAll, ss) (by simp)).2.2]

theorem selectRest_chain {segs : List Seg} (hs : ∀ t ∈ segs, t.2 = Comb.chain) : ∀ l, selectRest h1 l segs = selectRest h l segs := by
  induction segs with
  | nil => intro l; rfl
  | cons t segs ih =>
    intro l
    simp only [selectRest, hs t (by simp), selectByRule, ih fun u hu => hs u (by simp [hu])]

/-- A process of at most one compound is applied without a look at the tree. -/
theorem filterProc_chain {p : Proc} (hp : p.query = [] ∨ ∃ s segs, p.query = [s :: segs] ∧ ∀ t ∈ segs, t.2 = Comb.chain) (X : List Nat) (root : Option Nat) :
    filterProc h1 X root p = filterProc h X root p := by
  rcases hp with hp | ⟨s, segs, hp, hs⟩
  · simp only [filterProc, hp, List.getLast?_nil]
  · simp only [filterProc, hp, List.getLast?_singleton, selectByRule, selectRest_chain (h := h) (h1 := h1) hs, List.length_singleton, Nat.lt_irrefl, if_false]

theorem one_query {ss : List Sim} (hne : ss ≠ []) (lk : Bool) : (optimizeGroup lk (cplxCmpds h env [(.childrenAll, ss)])).query = [] ∨
    ∃ s segs, (optimizeGroup lk (cplxCmpds h env [(.childrenAll, ss)])).query = [s :: segs] ∧ ∀ t ∈ segs, t.2 = Comb.chain := by
  obtain ⟨s0, ss', -, -, segs, h1, -, h2⟩ := optimizeCmpd_shape (h := h) (env := env) (c := .childrenAll) (by simp) hne
  have hc : (cplxCmpds h env [(.childrenAll, ss)]).map optimizeCmpd = [(simMatcher h env s0, .childrenAll) :: segs] := by
    simp only [cplxCmpds, stepCmpd, List.map_cons, List.map_nil, h1]
  unfold optimizeGroup
  simp only [hc]
  generalize (if lk = true then maxIndex [(simMatcher h env s0, Comb.childrenAll) :: segs] 0 0 0 else 0) = mi
  split
  · rename_i hmi
    simp only [Bool.and_eq_true, decide_eq_true_eq] at hmi
    left
    exact List.drop_eq_nil_of_le hmi.1.2
  · right
    exact ⟨_, segs, rfl, h2⟩

theorem filterProcs_one {X : List Nat} {p p' : Proc} (hp : filterProc h1 X none p' = filterProc h X none p) :
    filterProcs h1 X [p'] none [] = filterProcs h X [p] none [] := by
  simp only [filterProcs, hp, addElems, List.isEmpty_nil, if_true]

/-- **C107, wherever the elements are**: in two states with the same names and attributes, `filter`, `not`, `is` and `is_all` with one compound of names, classes and
attributes have the same outcome on every list of nodes: of removed elements too, and panics too. -/
theorem C107_everywhere (d : SameData h h1) {ss : List Sim} (ho : Own [(.childrenAll, ss)]) (X : List Nat) :
    filterQ h1 env' X [[(.childrenAll, ss)]] = filterQ h env X [[(.childrenAll, ss)]] ∧ notQ h1 env' X [[(.childrenAll, ss)]] = notQ h env X [[(.childrenAll, ss)]] ∧
      isQ h1 env' X [[(.childrenAll, ss)]] = isQ h env X [[(.childrenAll, ss)]] ∧ isAllQ h1 env' X [[(.childrenAll, ss)]] = isAllQ h env X [[(.childrenAll, ss)]] := by
  have hne := (ho.2 (.childrenAll, ss) (by simp)).2.1
  have hf : filterProc h1 X none (optimizeGroup false (cplxCmpds h1 env' [(.childrenAll, ss)])) = filterProc h X none (optimizeGroup false (cplxCmpds h env [(.childrenAll, ss)])) := by
    rw [own_cplx (env := env) d ho]
    exact filterProc_chain (one_query hne false) X none
  have hall := filterProcs_one hf
  refine ⟨?_, ?_, ?_, ?_⟩
  · simp only [filterQ, filterSel, innerSel_eq, List.map_cons, List.map_nil, hall]
  · simp only [notQ, notSel, innerSel_eq, List.map_cons, List.map_nil, hall]
  · simp only [isQ, isSel, innerSel_eq, List.map_cons, List.map_nil, isProcs, hf]
  · simp only [isAllQ, isAllSel, innerSel_eq, List.map_cons, List.map_nil, hall]

/-- The call takes nodes out, puts them in or replaces them, and makes none. -/
def Spec.Op.moves : Op → Bool
  | .remove _ | .insert _ _ _ | .replace _ _ => true
  | _ => false

theorem moves_data {e : Ext} : ∀ {ops : List Op} {h h1 : Heap}, (∀ op ∈ ops, op.moves = true) → runAll e h ops = .ok h1 → SameData h h1
  | [], _, _, _, hr => by cases hr; exact .refl _
  | op :: ops, h, h1, hm, hr => by
    simp only [runAll] at hr
    split at hr
    · cases hr
    · rename_i g hg
      refine SameData.trans ?_ (moves_data (fun o ho => hm o (by simp [ho])) hr)
      have hop := hm op (by simp)
      cases op <;> simp only [Op.moves, Bool.false_eq_true] at hop <;> simp only [Op.run] at hg
      · exact (data_detach hg).same
      · exact (data_insertAdjacent hg).same
      · rename_i t n
        cases hd : h.replaceWith e t n with
        | error x => rw [hd] at hg; cases hg
        | ok q => rw [hd] at hg; cases hg; exact (data_replaceWith (k := q.2) hd).same

/-- **C107, after calls that take out, put in and replace nodes**, of any heap and on any nodes, as long as they do not panic: the outcome of `filter`, `not`, `is` and
`is_all` with one compound is the same on every list of nodes. -/
theorem C107_moves {e : Ext} {ops : List Op} (hm : ∀ op ∈ ops, op.moves = true) (hr : runAll e h ops = .ok h1) {ss : List Sim} (ho : Own [(.childrenAll, ss)]) (X : List Nat) :
    filterQ h1 env' X [[(.childrenAll, ss)]] = filterQ h env X [[(.childrenAll, ss)]] ∧ notQ h1 env' X [[(.childrenAll, ss)]] = notQ h env X [[(.childrenAll, ss)]] ∧
      isQ h1 env' X [[(.childrenAll, ss)]] = isQ h env X [[(.childrenAll, ss)]] ∧ isAllQ h1 env' X [[(.childrenAll, ss)]] = isAllQ h env X [[(.childrenAll, ss)]] :=
  C107_everywhere (moves_data hm hr) ho X

/-- A list of compounds of names, classes and attributes. -/
def Spec.OwnList (sel : List Complex) : Prop := ∀ cx ∈ sel, ∃ ss, cx = [(.childrenAll, ss)] ∧ Own cx

theorem isProcs_own (d : SameData h h1) {X : List Nat} : ∀ {sel : List Complex}, OwnList sel → ∀ root,
    isProcs h1 X (findSel h1 env' sel) root = isProcs h X (findSel h env sel) root := by
  intro sel
  induction sel with
  | nil => intro _ _; rfl
  | cons cx sel ih =>
    intro ho root
    obtain ⟨ss, rfl, hcx⟩ := ho cx (by simp)
    have hf : filterProc h1 X root (optimizeGroup true (cplxCmpds h1 env' [(.childrenAll, ss)])) = filterProc h X root (optimizeGroup true (cplxCmpds h env [(.childrenAll, ss)])) := by
      rw [own_cplx (env := env) d hcx]
      exact filterProc_chain (one_query (hcx.2 (.childrenAll, ss) (by simp)).2.1 true) X root
    have ih' := ih fun c hc => ho c (by simp [hc])
    simp only [findSel, List.map_cons, isProcs, hf] at ih' ⊢
    simp only [ih']

theorem sort_short (h h1 : Heap) {l : List Nat} (hl : l.length ≤ 1) : sortAndUnique h1 l = sortAndUnique h l := by
  match l, hl with
  | [], _ => rfl
  | [_], _ => rfl

theorem closest_one (d : SameData h h1) (hz : h1.size = h.size) (hp : ∀ y, h1.parent y = h.parent y) {sel : List Complex} (ho : OwnList sel) (x : Nat) :
    closestQ h1 env' [x] (some sel) = closestQ h env [x] (some sel) := by
  have hr : ∀ y, h1.isRoot y = h.isRoot y := fun y => by unfold Heap.isRoot; rw [(d y).1]
  have hw : ∀ n y, closestWalk h1 (findSel h1 env' sel) n y = closestWalk h (findSel h env sel) n y := by
    intro n
    induction n with
    | zero => intro y; rfl
    | succ n ih => intro y; simp only [closestWalk, isProcs_own (env := env) d ho, hp, hr, ih]
  have hfuel : h1.fuel = h.fuel := by unfold Heap.fuel; rw [hz]
  simp only [closestQ, closest, Option.map_some, filterR, isProcs_own (env := env) d ho, hfuel]
  cases hi : isProcs h [x] (findSel h env sel) none with
  | error e => rfl
  | ok b =>
    cases b with
    | true => simp
    | false =>
      simp only [Bool.false_eq_true, if_false, List.not_mem_nil, not_false_eq_true, decide_true, List.filter_cons, if_true, List.filter_nil, List.isEmpty_cons,
        uniqueFirst_one, flatMapR, hw]
      cases hcw : closestWalk h (findSel h env sel) h.fuel x with
      | error e => rfl
      | ok o =>
        simp only [Except.map, List.append_nil, List.nil_append]
        rw [sort_short h h1 (by cases o <;> simp)]

/-- **C92, `closest`**: of a removed element `closest` is what it was before the element was removed, though the elements above do not hold it any more; for selectors that
are lists of compounds of names, classes and attributes. -/
theorem C92_closest (ok : HeapOk h D) {x p : Nat} {A B : List Nat} (hp : h.parent x = some p) (hD : ¬ D p) (hk : h.kids p = A ++ x :: B) {sel : List Complex}
    (ho : OwnList sel) : ∃ h1, removeAll h [x] = .ok h1 ∧ x ∉ h1.kids p ∧ closestQ h1 env' [x] (some sel) = closestQ h env [x] (some sel) := by
  have hx : Attached h D x := attached_kid ok hD (by rw [hk]; simp)
  obtain ⟨h1, he, s⟩ := detach_spliced ok hp hx
  obtain ⟨h2, r1, r2, -⟩ := C92_above (env := env) ok hp hD hk
  simp only [removeAll, he, Except.ok.injEq] at r1
  subst r1
  exact ⟨h1, by simp only [removeAll, he], r2, closest_one s.data s.size (fun y => by rw [s.parent]; simp) ho x⟩

end

/-! ## The hypotheses are satisfiable -/

/-- A removed `p`: it still passes the test, and `closest("div")` finds the `div` it was in, which does not hold it any more. -/
example : ∃ h1, removeAll demo2 [6] = .ok h1 ∧ 6 ∉ h1.kids 5 ∧ filterQ h1 env0 [6, 8] [[(.childrenAll, [ty "p"])]] = .ok [6] ∧
    closestQ h1 env0 [6] (some [[(.childrenAll, [ty "ul"])], [(.childrenAll, [ty "div"])]]) = closestQ demo2 env0 [6] (some [[(.childrenAll, [ty "ul"])], [(.childrenAll, [ty "div"])]]) ∧
    closestQ demo2 env0 [6] (some [[(.childrenAll, [ty "ul"])], [(.childrenAll, [ty "div"])]]) = .ok [5] := by
  have hl : OwnList [[(.childrenAll, [ty "ul"])], [(.childrenAll, [ty "div"])]] := by
    intro cx hcx
    simp only [List.mem_cons, List.not_mem_nil, or_false] at hcx
    rcases hcx with rfl | rfl
    · exact ⟨_, rfl, by decide, by decide⟩
    · exact ⟨_, rfl, by decide, by decide⟩
  obtain ⟨h1, r1, r2, r3⟩ := C92_closest (env := env0) (env' := env0) demo2_ok (x := 6) (p := 5) (A := []) (B := [7]) (by decide) id (by decide) hl
  obtain ⟨h2, r1', -, d, -⟩ := removeAll_ok [6] demo2 demo2_ok (fun x hx => by
    rw [List.mem_singleton] at hx; subst hx
    exact attached_kid demo2_ok (p := 5) id (by decide)) (by simp)
  rw [r1] at r1'; cases r1'
  refine ⟨h1, r1, r2, ?_, r3, by decide⟩
  rw [(C107_everywhere (env := env0) d (ss := [ty "p"]) ⟨by decide, by decide⟩ [6, 8]).1]
  decide

/-- A `p` is taken out and another element moved; the tests on both, and on one of them twice, are as before. -/
example : ∃ h1, runAll ext0 demo2 [.remove 6, .insert .beforeBegin 1 8] = .ok h1 ∧ 6 ∉ h1.kids 5 ∧ notQ h1 env0 [8, 6, 8] [[(.childrenAll, [ty "p"])]] = .ok [8, 8] := by
  obtain ⟨h1, hr⟩ : ∃ h1, runAll ext0 demo2 [.remove 6, .insert .beforeBegin 1 8] = .ok h1 := ⟨_, rfl⟩
  have hh : h1 = (match runAll ext0 demo2 [.remove 6, .insert .beforeBegin 1 8] with | .ok h => h | .error _ => demo2) := by rw [hr]
  refine ⟨h1, hr, by rw [hh]; decide, ?_⟩
  rw [(C107_moves (env := env0) (env' := env0) (by decide) hr (ss := [ty "p"]) ⟨by decide, by decide⟩ [8, 6, 8]).2.1]
  decide

end Visdom
