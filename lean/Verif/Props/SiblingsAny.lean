import Verif.Props.Navigate
import Verif.Proofs.SibsAny
/-!
# C25 and C26: `siblings` of every set, exactly

`C25_siblings_partial` excludes sets with repetitions. Here is what every set gives, and for which sets this is right.
-/
namespace Visdom
open Spec Classical
variable {h : Heap} {r : Nat} {env : Env} (wf : TreeWF h r) (ev : Metas h r)
include wf ev

/-- C26 for every set, also with repetitions: `siblings(sel)` with one compound is `siblings("")` filtered. -/
theorem C26_siblings_any {ss : List Sim} {X : List Nat} (hX : Nodes h r X)
    (hok1 : CmpdOk h r env true .doc .child ss) (hok2 : CmpdOk h r env true .doc .list ss) :
    ∃ l, siblingsQ h env X none = .ok l ∧ DocSorted h r l ∧
      siblingsQ h env X (some (cmpdSel ss)) = .ok (l.filter fun x => decide (cmpdSat h r env ss x)) := by
  obtain ⟨l, h1, h2, h3⟩ := siblings_any (env := env) wf ev (all_cmpdOk .doc .child) (all_cmpdOk .doc .list) hX
  obtain ⟨res, k1, k2, k3⟩ := siblings_any wf ev hok1 hok2 hX
  refine ⟨l, (siblings_none X).trans h1, h2, ?_⟩
  unfold siblingsQ
  rw [Option.map_some, k1]
  have hw : ∀ x ∈ res, Within h r x := by
    intro x hx
    obtain ⟨_, _, ⟨y, _, p, hp, _, hk, _⟩ | ⟨hc, _⟩⟩ := (k3 x).1 hx
    · exact .step hp hk
    · exact hX.within x (List.count_pos_iff.1 (by omega))
  refine congrArg _ (docSorted_ext k2 (List.Pairwise.sublist List.filter_sublist h2) hw (fun x => ?_) wf)
  rw [k3, List.mem_filter, h3, decide_eq_true_eq]
  simp only [all_sat (h := h) (r := r) (env := env) x, true_and]
  rw [and_assoc, and_comm (a := cmpdSat h r env ss x)]

/-- C25 for every set: `siblings` returns, in document order and each once, the elements that share the parent of a member and differ from it,
and in addition the members given twice. -/
theorem C25_siblings_any {X : List Nat} (hX : Nodes h r X) :
    ∃ l, siblingsQ h env X none = .ok l ∧ DocSorted h r l ∧
      ∀ e, e ∈ l ↔ h.isElem e = true ∧ ((∃ y ∈ X, Sib h r y e) ∨ (2 ≤ X.count e ∧ h.parent e ≠ none)) := by
  obtain ⟨l, h1, h2, h3⟩ := siblings_any (env := env) wf ev (all_cmpdOk .doc .child) (all_cmpdOk .doc .list) hX
  refine ⟨l, (siblings_none X).trans h1, h2, fun e => ?_⟩
  rw [h3]
  simp only [all_sat (h := h) (r := r) (env := env) e, true_and]

/-- C25, exactly: `siblings` is right if and only if no element that has a parent is given twice without a sibling of it. -/
theorem C25_siblings_exact {X : List Nat} (hX : Nodes h r X) :
    (∃ l, siblingsQ h env X none = .ok l ∧ ∀ e, e ∈ l ↔ h.isElem e = true ∧ ∃ y ∈ X, Sib h r y e) ↔
    ∀ e ∈ X, 2 ≤ X.count e → h.parent e ≠ none → ∃ y ∈ X, Sib h r y e := by
  obtain ⟨l, h1, h2, h3⟩ := C25_siblings_any (env := env) wf ev hX
  constructor
  · rintro ⟨l', k1, k2⟩ e he hc hp
    rw [h1] at k1
    cases k1
    have hel : h.isElem e = true := by
      rcases (hX e he).2 with hel | rfl
      · exact hel
      · exact absurd wf.rootParent hp
    exact ((k2 e).1 ((h3 e).2 ⟨hel, Or.inr ⟨hc, hp⟩⟩)).2
  · intro hall
    refine ⟨l, h1, fun e => ?_⟩
    rw [h3]
    refine and_congr_right fun _ => ⟨?_, Or.inl⟩
    rintro (hs | ⟨hc, hp⟩)
    · exact hs
    · exact hall e (List.count_pos_iff.1 (by omega)) hc hp

omit wf ev in
/-- A set in which 6 is repeated, with and without its sibling 7. -/
example : siblingsQ demo env0 [6, 9, 6] none = .ok [6, 7] ∧ siblingsQ demo env0 [6, 7, 6] none = .ok [6, 7] ∧ Sib demo 0 7 6 :=
  ⟨by decide, by decide, 5, wfCheck_within [0, 1] (by decide) rfl, by decide, by decide, by decide⟩

end Visdom
