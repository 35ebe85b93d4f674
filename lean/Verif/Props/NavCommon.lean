import Verif.Props.NavComplex
import Verif.Props.CommonNav
/-!
# C62 for common selectors: navigation with several compounds answers

`C62_*` says what a navigation method returns if it returns, for basic selectors. Here: for common selectors (positions, `:not`, `:has`,
ids), and with the guarantee that the method answers.
-/
namespace Visdom
open Spec Classical
variable {h : Heap} {r : Nat} {env : Env} {rt : Bool}

/-- A selector for a navigation method with the combinator `c`, all of whose simple selectors are common; with `d`: the elements it is
first tested on come in document order. No id right behind a child combinator, that of the method included. -/
def Spec.NavSel (rt d : Bool) (c : Comb) (cx : Complex) : Prop :=
  cx ≠ [] ∧ (∀ s ∈ (led c cx).head?, s.2 ≠ [] ∧ (∀ t ∈ s.2, t.common rt d = true) ∧ (c = .children → ∀ t ∈ s.2, t.isId = false)) ∧
  ∀ s ∈ (led c cx).tail, Comb.down s.1 = true ∧ s.2 ≠ [] ∧ (∀ t ∈ s.2, t.common rt (lonely s) = true) ∧
    (s.1 = .children → ∀ t ∈ s.2, t.isId = false)

/-- Positions counted from the end stand beside a type or a class where they could be the first to be evaluated. -/
def Spec.NavSteady (c : Comb) (cx : Complex) : Prop := (c = .children → Steady (led c cx)) ∧ Steady (led c cx).tail

/-- The combinators behind the first compound, starting from a list of the given kind, need no repair. -/
def Spec.navCalm (ph : Phase) (c : Comb) (cx : Complex) : Bool := calmSteps ph (led c cx).tail

section
variable (wf : TreeWF h r) (ev : Metas h r)
include wf ev

omit wf ev in
/-- `led c cx` in two parts, and what the method evaluates. -/
theorem led_query {cx : Complex} {c : Comb} (hn : cx ≠ []) (hne : ∀ s ∈ (led c cx).tail, s.2 ≠ []) (hd : ∀ s ∈ (led c cx).tail, Comb.down s.1 = true) :
    ∃ ss l, led c cx = (c, ss) :: l ∧
      ∀ X, selectWithComb h X (some (innerSel h env [cx])) c = selectWithComb h X (some (innerSel h env [(.childrenAll, ss) :: l])) c := by
  cases cx with
  | nil => exact absurd rfl hn
  | cons s l =>
    obtain ⟨c1, ss⟩ := s
    by_cases hc : c1 = .childrenAll
    · subst hc
      exact ⟨ss, l, rfl, fun _ => rfl⟩
    · have hled : led c ((c1, ss) :: l) = (c, [.all]) :: (c1, ss) :: l := by
        cases c1 <;> first | rfl | exact absurd rfl hc
      rw [hled] at hne hd
      refine ⟨[.all], (c1, ss) :: l, hled, fun X => ?_⟩
      obtain ⟨s0, ss', _, _, segs, hopt, _⟩ := optimizeCmpd_shape (h := h) (env := env) (c := c1) (ss := ss)
        (down_ne_chain (hd (c1, ss) (by simp))) (hne (c1, ss) (by simp))
      have hall : simSegs h env .childrenAll [.all] = [(allMatcher, .childrenAll)] := by
        rw [simSegs, simSegs, simMatcher]
      have ha : optimizeCmpd [(allMatcher, Comb.childrenAll)] = [(allMatcher, .childrenAll)] := rfl
      simp only [inner_query, selectWithComb, optCmpds, List.map_cons, List.map_nil, headComb, hopt, hall, ha,
        headCmpds_other hc]
      rfl

/-- The first compound, then the others, from candidates of a known kind. -/
theorem nav_steps {tot : Bool} {c : Comb} (hca : c ≠ .childrenAll) (hch : c ≠ .chain) {ss : List Sim} {l : Complex} {ph : Phase}
    (h1 : CmpdOk h r env true (Phase.listQ ph) (Comb.via c) ss) (h2 : StepsOk tot (CmpdOk h r env tot) ph l) {X : List Nat}
    (hX : Nodes h r X) (ho : OrderOk h c X) (hq : ∀ cs, cands h c X = .ok cs → Elems h r cs → Inv h r ph cs) :
    (tot = true → ∃ res, selectWithComb h X (some (innerSel h env [(.childrenAll, ss) :: l])) c = .ok res) ∧
    ∀ res, selectWithComb h X (some (innerSel h env [(.childrenAll, ss) :: l])) c = .ok res →
      Elems h r res ∧ Inv h r (ph.after (l.map (·.1))) res ∧ ∀ e, e ∈ res ↔ Sel h r (· ∈ X) (steps h r env ((c, ss) :: l)) e := by
  have hinv : ∀ ph : Phase, Inv h r ph [] := by
    intro ph; cases ph
    · exact .nil
    · exact .nil
    · exact ⟨.nil, .nil⟩
    · exact .nil
    · exact True.intro
  by_cases hXe : X = []
  · subst hXe
    refine ⟨fun _ => ⟨[], rfl⟩, fun res hr => ?_⟩
    obtain rfl := Except.ok.inj hr
    refine ⟨fun x hx => (List.not_mem_nil hx).elim, hinv _, fun e => ?_⟩
    constructor
    · intro he; cases he
    · intro he; exact absurd he (sel_empty (by simp))
  · obtain ⟨cs, k1, k2, k3, k4⟩ := nav_good (env := env) wf ev hca hch h1 hX ho (fun cs hcs => by
      rw [← phase_lists]
      have hel : Elems h r cs := by
        refine cands_elems wf hX (fun e => absurd e hch) (fun e => ?_) hcs
        subst e; exact ho
      exact Inv.lists wf (fun x hx => (hel x hx).1) (hq cs hcs hel))
    obtain ⟨s0, ss', _, _, segs, hopt, _⟩ := optimizeCmpd_shape (h := h) (env := env) (c := .childrenAll) (ss := ss) (by simp) h1.1
    rw [nav_split hXe hopt, k4]
    have hg : Elems h r (cs.filter fun x => decide (cmpdSat h r env ss x)) := fun x hx => k2 x (List.mem_filter.1 hx).1
    have hgi := Inv.filter (fun x => decide (cmpdSat h r env ss x)) (hq cs k1 k2)
    obtain ⟨s1, s2⟩ := stepsOk_good (env := env) wf ev h2
    refine ⟨fun ht => selectChain_answers wf s1 (s2 ht) (Elems.nodes hg) hgi, fun res hr => ?_⟩
    obtain ⟨g1, g2, g3⟩ := selectChain_decides wf s1 (Elems.nodes hg) hgi hr
    have hmap : (steps h r env l).map (·.1) = l.map (·.1) := by rw [steps_eq]; simp [Function.comp_def]
    rw [hmap] at g2
    refine ⟨?_, g2, fun e => ?_⟩
    · cases l with
      | nil => obtain rfl := Except.ok.inj hr; exact hg
      | cons s l => exact g1 (by simp [optCmpds])
    · rw [g3, steps_eq (_ :: _), List.map_cons, ← steps_eq]
      have : (fun x => x ∈ cs.filter fun x => decide (cmpdSat h r env ss x)) =
          Img h r (· ∈ X) (c, fun x => decide (cmpdSat h r env ss x)) := by
        funext x
        rw [eq_iff_iff, List.mem_filter, k3]
        unfold Img
        tauto
      rw [this]
      rfl

variable (sm : Small h r) (gr : Grounded h r env rt)
include sm gr

/-- A method answers, exactly with the elements reached by its combinator and the selector. -/
theorem nav_common {c : Comb} (hca : c ≠ .childrenAll) (hch : c ≠ .chain) {d : Bool} {cx : Complex} {ph : Phase} (hp : ph ≠ .first)
    (hc : NavSel rt d c cx) (hd : d = true → Phase.listQ ph = .doc) (hst : NavSteady c cx) (hcalm : navCalm ph c cx = true)
    {X : List Nat} (hX : Nodes h r X) (ho : OrderOk h c X) (hq : ∀ cs, cands h c X = .ok cs → Elems h r cs → Inv h r ph cs) :
    ∃ res, selectWithComb h X (some (innerSel h env [cx])) c = .ok res ∧ Elems h r res ∧
      Inv h r (ph.after ((led c cx).tail.map (·.1))) res ∧ ∀ e, e ∈ res ↔ Sel h r (· ∈ X) (steps h r env (led c cx)) e := by
  obtain ⟨hn, c1, c2⟩ := hc
  obtain ⟨ss, l, hled, heq⟩ := led_query (h := h) (env := env) hn (fun s hs => (c2 s hs).2.1) (fun s hs => (c2 s hs).1)
  obtain ⟨t1, t2⟩ := hst
  unfold navCalm at hcalm
  rw [hled] at c1 c2 t1 t2 hcalm ⊢
  obtain ⟨a1, a2, a3⟩ := c1 (c, ss) rfl
  have hqa : Phase.listQ ph ≠ .any := by cases ph <;> simp_all [Phase.listQ]
  have hcm : CmpdOk h r env true (Phase.listQ ph) (Comb.via c) ss := by
    by_cases hcc : c = .children
    · subst hcc
      exact common_cmpdOk sm gr a1 a2 _ (Or.inl hqa) (fun e => Or.inl (hd e)) (fun _ => a3 rfl) fun _ => t1 rfl (.children, ss) (by simp)
    · have hv : Comb.via c = .list := by cases c <;> first | rfl | exact absurd rfl hca | exact absurd rfl hcc
      rw [hv]
      exact common_cmpd_list sm gr ⟨a1, a2⟩ hqa hd
  have hl := common_stepsOk (tot := true) (D := false) sm gr (by simp) (by simpa using c2) (fun _ => t2) hcalm
  obtain ⟨b1, b2⟩ := nav_steps wf ev hca hch hcm hl hX ho hq
  obtain ⟨res, hres⟩ := b1 rfl
  exact ⟨res, (heq X).trans hres, b2 res hres⟩

/-- C62 for common selectors, `children` of a set in document order. -/
theorem C62_children_common {cx : Complex} (hc : NavSel rt false .children cx) (hst : NavSteady .children cx)
    (hcalm : navCalm .down .children cx = true) {X : List Nat} (hX : Nodes h r X) (hs : DocSorted h r X) :
    ∃ res, childrenQ h env X (some [cx]) = .ok res ∧ ∀ e, e ∈ res ↔ Sel h r (· ∈ X) (steps h r env (led .children cx)) e := by
  obtain ⟨res, h1, _, _, h4⟩ := nav_common wf ev sm gr (c := .children) (by simp) (by simp) (ph := .down) (by simp) hc (by simp) hst hcalm hX
    trivial (fun cs hcs _ => cands_inv wf (ph := .sorted) hX hs rfl hcs)
  exact ⟨res, h1, h4⟩

/-- C62 for common selectors, `next` of a set in document order. -/
theorem C62_next_common {cx : Complex} (hc : NavSel rt false .next cx) (hst : NavSteady .next cx)
    (hcalm : navCalm .down .next cx = true) {X : List Nat} (hX : Nodes h r X) (hs : DocSorted h r X) :
    ∃ res, nextQ h env X (some [cx]) = .ok res ∧ ∀ e, e ∈ res ↔ Sel h r (· ∈ X) (steps h r env (led .next cx)) e := by
  obtain ⟨res, h1, _, _, h4⟩ := nav_common wf ev sm gr (c := .next) (by simp) (by simp) (ph := .down) (by simp) hc (by simp) hst hcalm hX
    trivial (fun cs hcs _ => cands_inv wf (ph := .sorted) hX hs rfl hcs)
  exact ⟨res, h1, h4⟩

/-- C62 for common selectors, `prev` of a set in document order. -/
theorem C62_prev_common {cx : Complex} (hc : NavSel rt false .prev cx) (hst : NavSteady .prev cx)
    (hcalm : navCalm .sib .prev cx = true) {X : List Nat} (hX : Nodes h r X) (hs : DocSorted h r X) :
    ∃ res, prevQ h env X (some [cx]) = .ok res ∧ ∀ e, e ∈ res ↔ Sel h r (· ∈ X) (steps h r env (led .prev cx)) e := by
  obtain ⟨res, h1, _, _, h4⟩ := nav_common wf ev sm gr (c := .prev) (by simp) (by simp) (ph := .sib) (by simp) hc (by simp) hst hcalm hX
    trivial (fun _ hcs _ => prev_sibAsc wf hX (docSorted_sibAsc wf hX.within hs) hcs)
  exact ⟨res, h1, h4⟩

/-- C62 for common selectors, one element (or any set in document order none of which lies below another): `children` and `next` may be
followed by descendants. The result of `children` comes in document order if only child and descendant combinators follow in this order. -/
theorem C62_anti_common {cx : Complex} {X : List Nat} (hX : Nodes h r X) (hs : AntiSorted h r X) :
    (NavSel rt true .children cx → NavSteady .children cx → navCalm .anti .children cx = true →
      ∃ res, childrenQ h env X (some [cx]) = .ok res ∧
        (∀ e, e ∈ res ↔ Sel h r (· ∈ X) (steps h r env (led .children cx)) e) ∧
        (Phase.anti.after ((led .children cx).tail.map (·.1)) ∈ [Phase.anti, .sorted] → DocSorted h r res)) ∧
    (NavSel rt true .next cx → NavSteady .next cx → navCalm .sorted .next cx = true →
      ∃ res, nextQ h env X (some [cx]) = .ok res ∧
        (∀ e, e ∈ res ↔ Sel h r (· ∈ X) (steps h r env (led .next cx)) e) ∧
        (Phase.sorted.after ((led .next cx).tail.map (·.1)) ∈ [Phase.anti, .sorted] → DocSorted h r res)) := by
  constructor
  · intro hc hst hcalm
    obtain ⟨res, h1, _, h3, h4⟩ := nav_common wf ev sm gr (c := .children) (by simp) (by simp) (ph := .anti) (by simp) hc (fun _ => rfl) hst
      hcalm hX trivial (fun cs hcs _ => cands_inv wf (ph := .anti) hX hs rfl hcs)
    refine ⟨res, h1, h4, fun hp => ?_⟩
    simp only [List.mem_cons, List.not_mem_nil, or_false] at hp
    rcases hp with hp | hp <;> rw [hp] at h3
    · exact AntiSorted.docSorted h3
    · exact h3
  · intro hc hst hcalm
    obtain ⟨res, h1, _, h3, h4⟩ := nav_common wf ev sm gr (c := .next) (by simp) (by simp) (ph := .sorted) (by simp) hc (fun _ => rfl) hst
      hcalm hX trivial (fun cs hcs _ => cands_inv wf (ph := .anti) hX hs rfl hcs)
    refine ⟨res, h1, h4, fun hp => ?_⟩
    simp only [List.mem_cons, List.not_mem_nil, or_false] at hp
    rcases hp with hp | hp <;> rw [hp] at h3
    · exact AntiSorted.docSorted h3
    · exact h3

/-- C62 for common selectors, `parent` of a set in document order. -/
theorem C62_parent_common {cx : Complex} (hc : NavSel rt false .parent cx) (hst : NavSteady .parent cx)
    (hcalm : navCalm .sib .parent cx = true) {X : List Nat} (hX : Nodes h r X) (hs : DocSorted h r X) :
    ∃ res, parentQ h env X (some [cx]) = .ok res ∧ ∀ e, e ∈ res ↔ Sel h r (· ∈ X) (steps h r env (led .parent cx)) e := by
  have hsub := uniqueFirst_sublist wf hX.within
  have hU : Nodes h r (uniqueSiblingFirst h X) := fun x hx => hX x (hsub.subset hx)
  obtain ⟨res, h1, _, _, h4⟩ := nav_common wf ev sm gr (c := .parent) (by simp) (by simp) (ph := .sib) (by simp) hc (by simp) hst hcalm hU
    trivial (fun _ hcs _ => parents_sibAsc wf hU.within (List.Pairwise.sublist hsub hs) hcs)
  refine ⟨res, h1, fun e => ?_⟩
  rw [h4]
  obtain ⟨ss, l, hled, _⟩ := led_query (h := h) (env := env) hc.1 (fun s hs => (hc.2.2 s hs).2.1) (fun s hs => (hc.2.2 s hs).1)
  rw [hled, steps_eq, List.map_cons]
  refine sel_from (fun e => and_congr_right fun _ => and_congr_right fun _ => ?_) e
  constructor
  · rintro ⟨y, hy, k⟩; exact ⟨y, hsub.subset hy, k⟩
  · rintro ⟨y, hy, h1, h2⟩
    obtain ⟨z, hz, hzp⟩ := uniqueFirst_cover wf hX.within hy
    rw [parent_of_child wf h1 h2] at hzp
    exact ⟨z, hz, h1, List.mem_of_getElem? (parent_some wf (hU.within z hz) hzp).2⟩

/-- C62 for common selectors, `next_all` and `prev_all` of a set in which siblings come in order. -/
theorem C62_next_all_common {cx : Complex} {X : List Nat} (hX : Nodes h r X) (hs : SibAsc h X) :
    (NavSel rt false .nextAll cx → NavSteady .nextAll cx → navCalm .sib .nextAll cx = true →
      ∃ res, nextAllQ h env X (some [cx]) = .ok res ∧ ∀ e, e ∈ res ↔ Sel h r (· ∈ X) (steps h r env (led .nextAll cx)) e) ∧
    (NavSel rt false .prevAll cx → NavSteady .prevAll cx → navCalm .sib .prevAll cx = true →
      ∃ res, prevAllQ h env X (some [cx]) = .ok res ∧ ∀ e, e ∈ res ↔ Sel h r (· ∈ X) (steps h r env (led .prevAll cx)) e) := by
  constructor
  · intro hc hst hcalm
    have hsub := uniqueFirst_sublist wf hX.within
    have hU : Nodes h r (uniqueSiblingFirst h X) := fun x hx => hX x (hsub.subset hx)
    obtain ⟨res, h1, _, _, h4⟩ := nav_common wf ev sm gr (c := .nextAll) (by simp) (by simp) (ph := .sib) (by simp) hc (by simp) hst hcalm hU
      ((hs.sublist hsub).firstAsc []) (fun _ hcs _ => nextAll_sibAsc wf hU.within hcs)
    refine ⟨res, h1, fun e => ?_⟩
    rw [h4]
    obtain ⟨ss, l, hled, _⟩ := led_query (h := h) (env := env) hc.1 (fun s hs => (hc.2.2 s hs).2.1) (fun s hs => (hc.2.2 s hs).1)
    rw [hled, steps_eq, List.map_cons]
    refine sel_from (fun e => and_congr_right fun _ => and_congr_right fun _ => ?_) e
    constructor
    · rintro ⟨y, hy, k⟩; exact ⟨y, hsub.subset hy, k⟩
    · rintro ⟨y, hy, k⟩
      obtain ⟨z, hz, hzp, hzi⟩ := firstAsc_cover hy (hs.firstAsc [])
      rw [← uniqueSiblingFirst_eq wf hX.within] at hz
      obtain ⟨a1, a2, ⟨p, a3, a4⟩, a5⟩ := (laterSib_index wf).1 k
      exact ⟨z, hz, (laterSib_index wf).2 ⟨hU.within z hz, a2, ⟨p, hzp.trans a3, a4⟩, by omega⟩⟩
  · intro hc hst hcalm
    have hsub := uniqueLast_sublist wf hX.within
    have hU : Nodes h r (uniqueSiblingLast h X) := fun x hx => hX x (hsub.subset hx)
    obtain ⟨res, h1, _, _, h4⟩ := nav_common wf ev sm gr (c := .prevAll) (by simp) (by simp) (ph := .sib) (by simp) hc (by simp) hst hcalm hU
      (hs.sublist hsub) (fun _ hcs _ => prevAll_sibAsc wf hU.within hcs)
    refine ⟨res, h1, fun e => ?_⟩
    rw [h4]
    obtain ⟨ss, l, hled, _⟩ := led_query (h := h) (env := env) hc.1 (fun s hs => (hc.2.2 s hs).2.1) (fun s hs => (hc.2.2 s hs).1)
    rw [hled, steps_eq, List.map_cons]
    refine sel_from (fun e => and_congr_right fun _ => and_congr_right fun _ => ?_) e
    constructor
    · rintro ⟨y, hy, k⟩; exact ⟨y, hsub.subset hy, k⟩
    · rintro ⟨y, hy, k⟩
      obtain ⟨z, hz, hzp, hzi⟩ := sibAsc_last_cover hy hs
      rw [← List.mem_reverse, ← uniqueSiblingLast_eq wf hX.within] at hz
      obtain ⟨a1, a2, ⟨p, a3, a4⟩, a5⟩ := (laterSib_index wf).1 k
      exact ⟨z, hz, (laterSib_index wf).2 ⟨a1, hU.within z hz, ⟨p, a3, hzp.trans a4⟩, by omega⟩⟩

/-- C62 for common selectors, `parents` of any set; aliases and lists of types may stand in the first compound. -/
theorem C62_parents_common {cx : Complex} (hc : NavSel rt true .parentAll cx) (hst : NavSteady .parentAll cx)
    (hcalm : navCalm .sorted .parentAll cx = true) {X : List Nat} (hX : Nodes h r X) :
    ∃ res, parentsQ h env X (some [cx]) = .ok res ∧ DocSorted h r res ∧
      ∀ e, e ∈ res ↔ Sel h r (· ∈ X) (steps h r env (led .parentAll cx)) e := by
  have hsub := uniqueFirst_sublist wf hX.within
  have hU : Nodes h r (uniqueSiblingFirst h X) := fun x hx => hX x (hsub.subset hx)
  obtain ⟨g, h1, h2, _, h4⟩ := nav_common wf ev sm gr (c := .parentAll) (by simp) (by simp) (ph := .sorted) (by simp) hc (fun _ => rfl) hst
    hcalm hU trivial (fun cs hcs _ => by
      simp only [cands] at hcs
      cases hall : flatMapR (ancestorsFuel h h.fuel) (uniqueSiblingFirst h X) with
      | error e => rw [hall] at hcs; cases hcs
      | ok all =>
        rw [hall] at hcs
        simp only [Except.map, Except.ok.injEq] at hcs
        rw [← hcs]
        refine (C14_sort_and_unique wf fun x hx => ?_).1
        obtain ⟨a, ha, y, hy, hxy⟩ := ((flatMapR_mem hall).2 x).1 hx
        obtain ⟨l', k1, k2⟩ := ancestors_ok wf (hU.within a ha)
        rw [k1] at hy; cases hy
        exact ((k2 x).1 hxy).1)
  obtain ⟨s1, _, s3⟩ := C14_sort_and_unique wf (fun x hx => (h2 x hx).1)
  refine ⟨sortAndUnique h g, ?_, s1, fun e => ?_⟩
  · unfold parentsQ parentsSel
    rw [Option.map_some, h1]
    rfl
  · rw [s3, h4]
    obtain ⟨ss, l, hled, _⟩ := led_query (h := h) (env := env) hc.1 (fun s hs => (hc.2.2 s hs).2.1) (fun s hs => (hc.2.2 s hs).1)
    rw [hled, steps_eq, List.map_cons]
    refine sel_from (fun e => and_congr_right fun _ => and_congr_right fun _ => ?_) e
    constructor
    · rintro ⟨y, hy, k⟩; exact ⟨y, hsub.subset hy, k⟩
    · rintro ⟨y, hy, k1, k2⟩
      obtain ⟨z, hz, hzp⟩ := uniqueFirst_cover wf hX.within hy
      obtain ⟨p, hp, hw⟩ := (below_parent wf k1 (hX.within y hy)).1 k2
      exact ⟨z, hz, k1, (below_parent wf k1 (hU.within z hz)).2 ⟨p, hzp.trans hp, hw⟩⟩

/-- C62 for common selectors, `siblings` of a set without repetition, proved part: selectors whose first compound is the heaviest.
Missing: the others (`C62_fails_siblings`). -/
theorem C62_siblings_common_partial {cx : Complex} (hlook : looked cx = false) (hc : NavSel rt true .children cx)
    (hst : NavSteady .children cx) (hcalm : navCalm .sorted .children cx = true) {X : List Nat} (hX : Nodes h r X) (hn : X.Nodup) :
    ∃ res, siblingsQ h env X (some [cx]) = .ok res ∧
      (∀ e, e ∈ res ↔ Sel h r (· ∈ X) (steps h r env (led .siblings cx)) e) ∧ res.Pairwise (fun a b => a = b ∨ Before h r a b) := by
  obtain ⟨ss, l, hled⟩ := led_split hc.1
  have hc' : NavSel rt true .siblings cx := by
    obtain ⟨a1, a2, a3⟩ := hc
    rw [NavSel]
    rw [hled] at a2 a3 ⊢
    exact ⟨a1, fun s hs => by obtain rfl := Option.some.inj hs; exact ⟨(a2 _ rfl).1, (a2 _ rfl).2.1, by simp⟩, a3⟩
  have hst' : NavSteady .siblings cx := by
    refine ⟨by simp, ?_⟩
    have := hst.2
    rw [hled] at this ⊢
    exact this
  have hcalm' : navCalm .sorted .siblings cx = true := by
    unfold navCalm at hcalm ⊢
    rw [hled] at hcalm ⊢
    exact hcalm
  have hfs : findSel h env [cx] = innerSel h env [cx] := by
    rw [inner_query, findSel, List.map_cons, List.map_nil, optimize_plain _ hlook fun s hs => ?_]
    obtain ⟨_, a2, a3⟩ := hc
    cases cx with
    | nil => cases hs
    | cons s0 l0 =>
      obtain ⟨c0, ss0⟩ := s0
      by_cases h0 : c0 = .childrenAll
      · subst h0
        rcases List.mem_cons.1 hs with rfl | hs
        · exact ⟨by simp, (a2 _ rfl).1⟩
        · exact ⟨down_ne_chain (a3 s hs).1, (a3 s hs).2.1⟩
      · have hl : led .children ((c0, ss0) :: l0) = (.children, [.all]) :: (c0, ss0) :: l0 := by
          cases c0 <;> first | rfl | exact absurd rfl h0
        rw [hl] at a3
        exact ⟨down_ne_chain (a3 s hs).1, (a3 s hs).2.1⟩
  have key : ∀ c x, c = .children ∨ c = .siblings → Nodes h r [x] →
      ∃ g, selectWithComb h [x] (some (innerSel h env [cx])) c = .ok g ∧
      Elems h r g ∧ ∀ z, z ∈ g ↔ Sel h r (· ∈ [x]) (steps h r env (led c cx)) z := by
    rintro c x (rfl | rfl) hx
    · obtain ⟨g, k1, k2, _, k4⟩ := nav_common wf ev sm gr (c := .children) (by simp) (by simp) (ph := .sorted) (by simp) hc (fun _ => rfl) hst
        hcalm hx trivial (fun cs hcs _ => AntiSorted.docSorted (cands_inv wf (ph := .anti) hx (anti_single x) rfl hcs))
      exact ⟨g, k1, k2, k4⟩
    · obtain ⟨g, k1, k2, _, k4⟩ := nav_common wf ev sm gr (c := .siblings) (by simp) (by simp) (ph := .sorted) (by simp) hc' (fun _ => rfl)
        hst' hcalm' hx ⟨x, rfl⟩ (fun cs hcs _ => (siblings_cands wf (hx.within x (by simp)) hcs).1)
      exact ⟨g, k1, k2, k4⟩
  obtain ⟨s1, s2⟩ := siblings_led wf hfs ⟨ss, l, hled⟩ hX hn (fun c x hcc hx g hg => by
    obtain ⟨g', k1, k2⟩ := key c x hcc hx
    rw [k1] at hg
    obtain rfl := Except.ok.inj hg
    exact k2)
  obtain ⟨res, hres⟩ := s1 fun c x hcc hx => let ⟨g, k1, _⟩ := key c x hcc hx; ⟨g, k1⟩
  exact ⟨res, hres, s2 res hres⟩

end

example : NavSel false true .children [(.childrenAll, [ty "div"]), (.childrenAll, [ty "p", .edge true false])] ∧
    NavSteady .children [(.childrenAll, [ty "div"]), (.childrenAll, [ty "p", .edge true false])] ∧
    navCalm .anti .children [(.childrenAll, [ty "div"]), (.childrenAll, [ty "p", .edge true false])] = true ∧
    AntiSorted demo 0 [1] ∧ Nodes demo 0 [1] ∧
    childrenQ demo env0 [1] (some [[(.childrenAll, [ty "div"]), (.childrenAll, [ty "p", .edge false false])]]) = .ok [6] :=
  ⟨by unfold NavSel; decide, by unfold NavSteady Steady; decide, by decide, anti_single 1, demo_nodes (by decide), by decide⟩

example : NavSel false false .parent [(.childrenAll, [ty "div"]), (.children, [.not (sel1 (ty "p")), ty "span"])] ∧
    NavSteady .parent [(.childrenAll, [ty "div"]), (.children, [.not (sel1 (ty "p")), ty "span"])] ∧
    navCalm .sib .parent [(.childrenAll, [ty "div"]), (.children, [.not (sel1 (ty "p")), ty "span"])] = true ∧
    parentQ demo env0 [6] (some [[(.childrenAll, [ty "div"]), (.children, [.not (sel1 (ty "p")), ty "span"])]]) = .ok [7] :=
  ⟨by unfold NavSel; decide, by unfold NavSteady Steady; decide, by decide, by decide⟩

example : NavSel false true .parentAll [(.childrenAll, [.nth false true 2 1]), (.childrenAll, [.all])] ∧
    NavSteady .parentAll [(.childrenAll, [.nth false true 2 1]), (.childrenAll, [.all])] ∧
    navCalm .sorted .parentAll [(.childrenAll, [.nth false true 2 1]), (.childrenAll, [.all])] = true :=
  ⟨by unfold NavSel; decide, by unfold NavSteady Steady; decide, by decide⟩

example : looked [(.childrenAll, [ty "div"]), (.children, [.edge false true])] = false ∧
    NavSel false true .children [(.childrenAll, [ty "div"]), (.children, [.edge false true])] ∧
    NavSteady .children [(.childrenAll, [ty "div"]), (.children, [.edge false true])] ∧
    navCalm .sorted .children [(.childrenAll, [ty "div"]), (.children, [.edge false true])] = true ∧
    Nodes demo 0 [8] ∧ [8].Nodup ∧ siblingsQ demo env0 [8] (some [[(.childrenAll, [ty "div"]), (.children, [.edge false true])]]) = .ok [2, 5] :=
  ⟨by decide, by unfold NavSel; decide, by unfold NavSteady Steady; decide, by decide, demo_nodes (by decide), by decide, by decide⟩

end Visdom
