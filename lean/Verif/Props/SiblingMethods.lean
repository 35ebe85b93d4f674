import Verif.Props.ArrangeQuery
import Verif.Props.Siblings
import Verif.Props.Laws
import Verif.Props.FoundOne
/-!
# C58, asked with the methods of a set with one element
-/
namespace Visdom
open Spec

variable {h : Heap} {r : Nat}

/-- `prev` of one element, in every heap. -/
theorem prev_one (h : Heap) (env : Env) (x : Nat) : prevQ h env [x] none = (h.prevElem x).map Option.toList := by
  simp only [prevQ, Option.map_none, prevSel, selectWithComb, findSelector, findProcs, findProc, findFirst, select, selectChain, selectByRule,
    allMatcher, Matcher.getAll, addElems, selectFirst, selectRest, flatMapR]
  rcases hc : h.prevElem x with p | _ | _ <;> simp [hc, Matcher.apply, flatMapR, Except.map]

/-- **C58, the methods**: for a set with one element of a document, `prev_all`, the element and `next_all` are together what `children` gives for its parent, in the same
order; `prev` is the last of the first part, `next` the first of the last part; and `parent` gives the parent unless that is the document. -/
theorem C58_methods (wf : TreeWF h r) {x : Nat} (hx : Within h r x) (he : h.isElem x = true) (env : Env) :
    ∃ p ps ns, h.parent x = some p ∧ childrenQ h env [p] none = .ok (ps ++ x :: ns) ∧ prevAllQ h env [x] none = .ok ps ∧ nextAllQ h env [x] none = .ok ns ∧
      prevQ h env [x] none = .ok ps.getLast?.toList ∧ nextQ h env [x] none = .ok ns.head?.toList ∧
      parentQ h env [x] none = .ok (if h.isRoot p then [] else [p]) := by
  obtain ⟨p, ps, ns, h1, h2, h3, h4, -, h5, h6⟩ := C58_siblings wf hx he
  refine ⟨p, ps, ns, h1, (children_one h env p).trans (congrArg _ h2), (prevAll_one h env x).trans h3, (nextAll_one h env x).trans h4, ?_, ?_, ?_⟩
  · rw [prev_one, h5]; rfl
  · rw [next_one, h6]
  · simp only [parentQ, Option.map_none]
    rw [parent_one]
    by_cases hr : h.isRoot p = true <;> simp [parentsOf, h1, hr]

/-- **C58, `siblings`**: for a set with one element of a document, `siblings` gives what `prev_all` gives followed by what `next_all` gives, also directly under the
document. -/
theorem C58_siblings_method (wf : TreeWF h r) (ev : Metas h r) {x : Nat} (hx : Within h r x) (he : h.isElem x = true) (env : Env) :
    ∃ ps ns, prevAllQ h env [x] none = .ok ps ∧ nextAllQ h env [x] none = .ok ns ∧ siblingsQ h env [x] none = .ok (ps ++ ns) := by
  obtain ⟨p, ps, ns, h1, h2, h3, h4, -⟩ := C58_siblings wf hx he
  refine ⟨ps, ns, (prevAll_one h env x).trans h3, (nextAll_one h env x).trans h4, ?_⟩
  obtain ⟨hpw, hpx⟩ := parent_some wf hx h1
  have hxk : x ∈ h.kids p := List.mem_of_getElem? hpx
  have hN : Nodes h r [x] := by intro w hw; rw [List.mem_singleton.1 hw]; exact ⟨hx, .inl he⟩
  obtain ⟨s, k1, k2, k3⟩ := C25_siblings_partial wf ev (env := env) hN (by simp)
  have hnd : (ps ++ x :: ns).Nodup := h2 ▸ (kids_nodup wf hpw).filter _
  have hnx : x ∉ ps ++ ns := (List.nodup_middle.1 hnd).notMem
  have hsub : (ps ++ ns).Sublist (h.kids p) :=
    ((List.Sublist.refl ps).append (List.sublist_cons_self x ns)).trans (h2 ▸ List.filter_sublist)
  have hmem : ∀ y, y ∈ ps ++ ns ↔ h.isElem y = true ∧ y ∈ h.kids p ∧ y ≠ x := fun y => by
    have hy : y ∈ (h.kids p).filter h.isElem ↔ y = x ∨ y ∈ ps ++ ns := by
      rw [h2]; simp only [List.mem_append, List.mem_cons]; tauto
    rw [List.mem_filter] at hy
    constructor
    · intro k
      exact ⟨(hy.2 (.inr k)).2, (hy.2 (.inr k)).1, fun e => hnx (e ▸ k)⟩
    · rintro ⟨a, b, c⟩
      exact (hy.1 ⟨b, a⟩).resolve_left c
  rw [k1, docSorted_ext (sublist_kids_docSorted hpw hsub) k2 (fun y hy => .step hpw (hsub.subset hy)) (fun y => ?_) wf]
  rw [hmem, k3]
  constructor
  · rintro ⟨a, b, c⟩
    exact ⟨a, x, by simp, p, hpw, hxk, b, c.symm⟩
  · rintro ⟨a, z, hz, q, b, c, d, f⟩
    rw [List.mem_singleton.1 hz] at c f
    have := parent_of_child wf b c
    rw [h1] at this
    cases this
    exact ⟨a, d, f.symm⟩

/-- Node 1 of the sample, directly under the document. -/
example : ∃ ps ns, prevAllQ demo2 env0 [1] none = .ok ps ∧ nextAllQ demo2 env0 [1] none = .ok ns ∧ siblingsQ demo2 env0 [1] none = .ok (ps ++ ns) :=
  C58_siblings_method demo2_wf demo2_metas (.step (p := 0) .self (by decide)) (by decide) env0

/-- **C58, after any history**: the same after any history of usable calls, for each element that is in the document then. -/
theorem C58_history {e : Ext} {D : Nat → Prop} (P : ParseOk e) (T : ParseTables e) (ok : HeapOk h D) (t : Tables h) {ops : List Op} (hh : History e h D ops)
    (hk : (h.node r).kind = .root) (hb : r < h.size) (hu : ¬ UsedAll e h D ops r) (env : Env) :
    ∃ h', runAll e h ops = .ok h' ∧ ∀ x, Within h' r x → h'.isElem x = true →
      ∃ p ps ns, h'.parent x = some p ∧ childrenQ h' env [p] none = .ok (ps ++ x :: ns) ∧ prevAllQ h' env [x] none = .ok ps ∧ nextAllQ h' env [x] none = .ok ns ∧
        prevQ h' env [x] none = .ok ps.getLast?.toList ∧ nextQ h' env [x] none = .ok ns.head?.toList ∧
        parentQ h' env [x] none = .ok (if h'.isRoot p then [] else [p]) := by
  obtain ⟨h', hr, wf', -⟩ := history_ready P T ok t hh hk hb hu
  exact ⟨h', hr, fun x hx he => C58_methods wf' hx he env⟩

/-- Node 7 of the sample stands between 6 and the moved node 2. -/
example : ∃ h', runAll ext0 demo2 moveOps = .ok h' ∧ childrenQ h' env0 [5] none = .ok [6, 7, 2] ∧ prevAllQ h' env0 [7] none = .ok [6] ∧ nextQ h' env0 [7] none = .ok [2] := by
  obtain ⟨h', hr, k⟩ := C58_history (r := 0) ext0_parse ext0_tables demo2_ok demo2_tables' moveOps_history (by decide) (by decide) moveOps_used env0
  have hh : h' = (match runAll ext0 demo2 moveOps with | .ok h => h | .error _ => demo2) := by rw [hr]
  have w1 : Within h' 0 1 := .step (p := 0) .self (by rw [hh]; decide)
  have w5 : Within h' 0 5 := .step (p := 1) w1 (by rw [hh]; decide)
  have w7 : Within h' 0 7 := .step (p := 5) w5 (by rw [hh]; decide)
  obtain ⟨p, ps, ns, k1, k2, k3, -, -, k6, -⟩ := k 7 w7 (by rw [hh]; decide)
  have hp : h'.parent 7 = some 5 := by rw [hh]; decide
  rw [hp] at k1
  cases k1
  have hc : childrenQ h' env0 [5] none = .ok [6, 7, 2] := by rw [children_one, hh]; decide
  have hl := Except.ok.inj (k2.symm.trans hc)
  have hps : ps = [6] ∧ ns = [2] := by
    clear hh hr k k2 k3 k6 hp hc w1 w5 w7
    rcases ps with _ | ⟨a, _ | ⟨b, _ | ⟨c, _⟩⟩⟩ <;> simp_all
  obtain ⟨rfl, rfl⟩ := hps
  exact ⟨h', hr, hc, k3, k6⟩

end Visdom
