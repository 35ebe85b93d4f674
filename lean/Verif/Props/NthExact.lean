import Verif.Props.Filter
import Verif.Props.Common
/-!
# C28, exactly: where `:nth-child(an+b)` goes wrong

`C28_filter_position_partial` excludes the formulas in `BadNth`. They cannot be allowed: on the children of a node whose number of
children makes the formula bad, `filter(":nth-child(an+b)")` panics.
-/
namespace Visdom
open Spec Classical
variable {h : Heap} {r : Nat} {env : Env}

theorem groupLoop_same {f : Nat → R (Option (List Nat))} {p : Nat} : ∀ {l : List Nat} {i : Nat} {d : SibData}, d.parent = some p →
    (∀ x ∈ l, h.parent x = some p) → d.start < d.stop → d.stop = i →
    groupLoop h f l i d = .ok [{ d with stop := i + l.length }] := by
  intro l
  induction l with
  | nil =>
    intro i d _ _ hlt hi
    simp only [groupLoop, if_pos hlt, List.length_nil, Nat.add_zero, ← hi]
  | cons x l ih =>
    intro i d hp hl hlt hi
    simp only [groupLoop, hl x List.mem_cons_self, if_pos hp]
    rw [ih (d := { d with stop := i + 1 }) hp (fun y hy => hl y (List.mem_cons_of_mem _ hy)) (by simp only; omega) rfl]
    simp only [List.length_cons]
    rw [show i + 1 + l.length = i + (l.length + 1) by omega]

/-- Siblings form one group. -/
theorem groupDo_same {f : Nat → R (Option (List Nat))} {cb : SibData → R (List Nat)} {p : Nat} {l : List Nat} (hne : l ≠ [])
    (hl : ∀ x ∈ l, h.parent x = some p) {a : Option (List Nat)} (ha : f (h.children p).length = .ok a) :
    groupDo h f cb l = cb { start := 0, stop := l.length, allow := a, parent := some p } := by
  cases l with
  | nil => exact absurd rfl hne
  | cons x l =>
    have hg := groupLoop_same (h := h) (f := f) (p := p) (l := l) (i := 1) (d := { start := 0, stop := 1, allow := a, parent := some p }) rfl
      (fun y hy => hl y (List.mem_cons_of_mem _ hy)) (Nat.zero_lt_one) rfl
    simp only [groupDo, groupLoop, hl x List.mem_cons_self, ha, hg, Nat.zero_add, reduceCtorEq, if_false, Option.isSome_none,
      Bool.false_eq_true, flatMapR, List.length_cons]
    rw [Nat.add_comm 1]
    cases cb { start := 0, stop := l.length + 1, allow := a, parent := some p } with
    | error e => rfl
    | ok y => simp

theorem flatMapR_error {α : Type} {f : α → R (List Nat)} {x : α} {e : Panic} (hf : f x = .error e) :
    ∀ {l : List α}, x ∈ l → ∃ e', flatMapR f l = .error e'
  | a :: l, hx => by
    rcases List.mem_cons.1 hx with rfl | hx
    · exact ⟨e, by rw [flatMapR, hf]⟩
    · obtain ⟨e', he⟩ := flatMapR_error hf hx
      rw [flatMapR, he]
      cases f a with
      | error e'' => exact ⟨e'', rfl⟩
      | ok b => exact ⟨e', rfl⟩

/-- On all children of a node whose number makes the formula bad, `filter` panics. -/
theorem C28_fails_bad (wf : TreeWF h r) (sm : Small h r) (last : Bool) {a b : Int} (hb1 : -9223372036854775808 ≤ b)
    (hb2 : b < 9223372036854775808) {p : Nat} (hp : Within h r p) (hne : h.children p ≠ [])
    (hbad : BadNth a b (h.children p).length) : ∃ e, filterQ h env (h.children p) (sel1 (.nth last false a b)) = .error e := by
  obtain ⟨j, hj, hle⟩ := nth_bad a b _ (sm p hp) hb1 hb2 hbad
  have hm : simMatcher h env (.nth last false a b) = nthChildMatcher h (!last) (some a) (some b) := by rw [simMatcher]
  have hpar : ∀ x ∈ h.children p, h.parent x = some p := fun x hx => parent_of_child wf hp (List.mem_filter.1 hx).1
  have hsel : ∃ e, selectByRule h (h.children p) (nthChildMatcher h (!last) (some a) (some b)) .chain = .error e := by
    simp only [selectByRule, Matcher.apply, nthChildMatcher]
    rw [groupDo_same hne hpar (a := some (allowedWithN a b (h.children p).length)) rfl]
    simp only [handleNthChild]
    cases hal : allowedWithN a b (h.children p).length with
    | nil => rw [hal] at hj; cases hj
    | cons a0 al =>
      rw [hal] at hj
      have hs : slice (h.children p) { start := 0, stop := (h.children p).length, allow := some (a0 :: al), parent := some p } = h.children p := by
        simp [slice]
      simp only [hs, nthChildHandle, if_true]
      cases last with
      | false =>
        simp only [Bool.not_false, if_true, atAll]
        refine flatMapR_error (x := j) (e := .outOfBounds) ?_ hj
        simp only [List.getElem?_eq_none hle]
      | true =>
        simp only [Bool.not_true, Bool.false_eq_true, if_false]
        refine flatMapR_error (x := j) (e := .overflow) ?_ (List.mem_reverse.2 hj)
        rw [if_pos (by omega)]
  obtain ⟨e, he⟩ := hsel
  refine ⟨e, ?_⟩
  have hq : (optimizeGroup false (cplxCmpds h env [(.childrenAll, [.nth last false a b])])).query =
      [[(nthChildMatcher h (!last) (some a) (some b), .childrenAll)]] := by
    rw [cplxCmpds, cplxCmpds, stepCmpd, simSegs, simSegs, hm]
    simp [optimizeGroup, optimizeCmpd, nthChildMatcher, maxIndex]
  have h1 : innerSel h env (sel1 (.nth last false a b)) = [optimizeGroup false (cplxCmpds h env [(.childrenAll, [.nth last false a b])])] :=
    innerSel_eq _
  have hf : ∀ root, filterProc h (h.children p) root (optimizeGroup false (cplxCmpds h env [(.childrenAll, [.nth last false a b])])) = .error e := by
    intro root
    unfold filterProc
    rw [hq]
    simp only [List.getLast?_singleton, he]
  have hne' : (h.children p).isEmpty = false := by simpa using hne
  simp only [filterQ, filterSel, hne', h1, filterProcs, hf]
  rfl

/-- C28, exactly: `filter(":nth-child(an+b)")` and `filter(":nth-last-child(an+b)")` are right on every set in which siblings come in order
if and only if the formula is good for the number of children of every node that has any. -/
theorem C28_nth_exact_partial (wf : TreeWF h r) (ev : Metas h r) (sm : Small h r) (last : Bool) {a b : Int}
    (hb1 : -9223372036854775808 ≤ b) (hb2 : b < 9223372036854775808) :
    (∀ X, Elems h r X → SibAsc h X →
      filterQ h env X (sel1 (.nth last false a b)) =
        .ok (X.filter fun x => decide (∃ j : Nat, AtPos h r last false x j ∧ NthSelects a b j))) ↔
    ∀ p, Within h r p → h.children p ≠ [] → ¬ BadNth a b (h.children p).length := by
  constructor
  · intro hall p hp hne hbad
    obtain ⟨e, he⟩ := C28_fails_bad (env := env) wf sm last hb1 hb2 hp hne hbad
    rw [hall (h.children p) (children_elems hp) (children_sibAsc wf hp)] at he
    cases he
  · intro hg X hX hs
    rw [C28_filter_position_partial wf ev (by exact trivial) (fun _ _ a' b' he => ?_) hX hs]
    · refine congrArg _ (List.filter_congr fun x _ => ?_)
      rw [decide_eq_decide, Sim.Sat]
    · cases he
      exact Or.inr fun p hp hne => ⟨hg p hp hne, sm p hp⟩

example : ∃ e, filterQ demo env0 (demo.children 5) (sel1 (.nth true false 3 (-1))) = .error e :=
  C28_fails_bad demo_wf demo_small true (by decide) (by decide) (wfCheck_within [0, 1] (by decide) rfl) (by decide)
    (by simp only [BadNth]; omega)

/-- C28: `filter(":nth-of-type(an+b)")` and `filter(":nth-last-of-type(an+b)")` are right for every formula, also for those that make
`:nth-child` panic: what is computed in addition is never reached by the counters. -/
theorem C28_of_type (wf : TreeWF h r) (ev : Metas h r) (sm : Small h r) (last : Bool) {a b : Int}
    (hb1 : -9223372036854775808 ≤ b) (hb2 : b < 9223372036854775808) {X : List Nat} (hX : Elems h r X) (hs : SibAsc h X) :
    filterQ h env X (sel1 (.nth last true a b)) =
      .ok (X.filter fun x => decide (∃ j : Nat, AtPos h r last true x j ∧ NthSelects a b j)) := by
  rw [C28_filter_position_partial wf ev (by exact trivial) (fun _ _ a' b' he => ?_) hX hs]
  · refine congrArg _ (List.filter_congr fun x _ => ?_)
    rw [decide_eq_decide, Sim.Sat]
  · cases he
    exact Or.inl ⟨rfl, hb1, hb2, fun p hp _ => sm p hp⟩

example : BadNth 3 (-1) 2 ∧ demo.children 5 = [6, 7] ∧ filterQ demo env0 [6, 7] (sel1 (.nth false true 3 (-1))) = .ok [] ∧
    BadNth (-2) 3 2 ∧ filterQ demo env0 [6, 7] (sel1 (.nth true true (-2) 3)) = .ok [6, 7] :=
  ⟨by simp only [BadNth]; omega, by decide, by decide, by simp only [BadNth]; omega, by decide⟩

end Visdom
