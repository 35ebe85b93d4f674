import Verif.Props.Navigate
import Verif.Props.Find
/-!
# C62: navigation with a selector of several compounds

`led c cx` is the selector relative to the set: the combinator of the method stands in front of the first compound. A
selector that itself begins with a combinator is preceded by `*`. `children("a b")` therefore means `find("> a b")`: it
does not filter the children by `a b`, and may return elements that are no children at all (`C26_fails_compounds`).
-/
namespace Visdom
open Spec Classical
variable {h : Heap} {r : Nat} {env : Env}

/-- The selector with a combinator in front. -/
def Spec.led (c : Comb) : Complex → Complex
  | (.childrenAll, ss) :: l => (c, ss) :: l
  | l => (c, [.all]) :: l

theorem inner_query (cx : Complex) : innerSel h env [cx] = [{ query := optCmpds h env cx }] := by
  rw [innerSel_cons, innerSel, altProc]
  simp [optimizeGroup, cplx_opt]

theorem headCmpds_other {c c1 : Comb} (hc : c1 ≠ .childrenAll) (m : Matcher) (ss : Cmpd) (l : List Cmpd) :
    headCmpds c (((m, c1) :: ss) :: l) = [(allMatcher, c)] :: ((m, c1) :: ss) :: l := by
  cases c1 <;> first | rfl | exact absurd rfl hc

/-- A selector of one process. -/
theorem findSelector_proc {X : List Nat} (hne : X ≠ []) (p : Proc) : findSelector h X [p] = findProc h X p := by
  unfold findSelector
  rw [if_neg (by simpa using hne)]
  simp only [findProcs, addElems_nil]
  cases findProc h X p with
  | error e => rfl
  | ok l =>
    simp only
    split
    · next he => rw [List.isEmpty_iff.1 he]
    · rfl

/-- The first compound, then the others. -/
theorem nav_split {c : Comb} {ss : List Sim} {m : Matcher} {segs : Cmpd} {l : Complex} {X : List Nat} (hne : X ≠ [])
    (hopt : optimizeCmpd (simSegs h env .childrenAll ss) = (m, .childrenAll) :: segs) :
    selectWithComb h X (some (innerSel h env [(.childrenAll, ss) :: l])) c =
      (match selectWithComb h X (some (innerSel h env (cmpdSel ss))) c with
      | .error e => .error e
      | .ok g => selectChain h g (optCmpds h env l)) := by
  have he : X.isEmpty = false := by simpa using hne
  rw [inner_cmpd, inner_query]
  simp only [selectWithComb, he, Bool.false_eq_true, if_false, List.map_cons, List.map_nil, optCmpds, hopt, headComb, headCmpds,
    findSelector_one]
  rw [findSelector_proc hne]
  rfl

variable (wf : TreeWF h r) (ev : Metas h r)
include wf ev

/-- The first compound of `led c cx`, and the rest. -/
theorem led_cases {cx : Complex} (hb : Basic cx) (c : Comb) :
    ∃ ss l, led c cx = (c, ss) :: l ∧ ss ≠ [] ∧ (∀ t ∈ ss, t.basic = true) ∧
      (∀ s ∈ l, Comb.down s.1 = true ∧ s.2 ≠ [] ∧ ∀ t ∈ s.2, t.basic = true) ∧
      ∀ X, selectWithComb h X (some (innerSel h env [cx])) c = selectWithComb h X (some (innerSel h env [(.childrenAll, ss) :: l])) c := by
  obtain ⟨hne, hb⟩ := hb
  cases cx with
  | nil => exact absurd rfl hne
  | cons s l =>
    obtain ⟨c1, ss⟩ := s
    have h1 := hb (c1, ss) List.mem_cons_self
    by_cases hc : c1 = .childrenAll
    · subst hc
      exact ⟨ss, l, rfl, h1.2.1, h1.2.2, fun s hs => hb s (List.mem_cons_of_mem _ hs), fun _ => rfl⟩
    · refine ⟨[.all], (c1, ss) :: l, ?_, by simp, by simp [Sim.basic], hb, ?_⟩
      · cases c1 <;> first | rfl | exact absurd rfl hc
      · intro X
        obtain ⟨⟨m, segs, hopt⟩, _⟩ := cmpdOk_good (env := env) (tot := false) wf ev (c := c1) (q := .any) (down_ne_chain h1.1)
          (basic_cmpdOk h1.2.1 h1.2.2 _ _)
        have hall : simSegs h env .childrenAll [.all] = [(allMatcher, .childrenAll)] := by
          rw [simSegs, simSegs, simMatcher]
        have ha : optimizeCmpd [(allMatcher, Comb.childrenAll)] = [(allMatcher, .childrenAll)] := rfl
        simp only [] at hopt
        simp only [inner_query, selectWithComb, optCmpds, List.map_cons, List.map_nil, headComb, hopt, hall, ha,
          headCmpds_other hc]
        rfl

/-- The method evaluates the selector with its combinator in front. -/
theorem nav_led {c : Comb} (hca : c ≠ .childrenAll) (hch : c ≠ .chain) {cx : Complex} (hb : Basic cx) {X res : List Nat}
    (hX : Nodes h r X) (ho : OrderOk h c X) (hq : ∀ cs, cands h c X = .ok cs → SibAsc h cs)
    (hr : selectWithComb h X (some (innerSel h env [cx])) c = .ok res) :
    Elems h r res ∧ ∀ e, e ∈ res ↔ Sel h r (· ∈ X) (steps h r env (led c cx)) e := by
  obtain ⟨ss, l, hled, hne, hss, hl, heq⟩ := led_cases (env := env) wf ev hb c
  rw [heq] at hr
  rw [hled]
  obtain ⟨cs, h1, h2, h3, h4⟩ := nav_good (env := env) wf ev hca hch (q := .sib) (basic_cmpdOk hne hss _ _) hX ho hq
  by_cases hXe : X = []
  · subst hXe
    obtain rfl := Except.ok.inj hr
    refine ⟨fun x hx => (List.not_mem_nil hx).elim, fun e => ?_⟩
    constructor
    · intro he; cases he
    · intro he; exact absurd he (sel_empty (by simp))
  · obtain ⟨⟨m, segs, hopt⟩, _⟩ := cmpdOk_good (env := env) (tot := true) wf ev (c := c) (c0 := .childrenAll) (q := .sib) (by simp)
      (basic_cmpdOk hne hss _ _)
    rw [nav_split hXe hopt, h4] at hr
    have hg : Elems h r (cs.filter fun x => decide (cmpdSat h r env ss x)) := fun x hx => h2 x (List.mem_filter.1 hx).1
    obtain ⟨s1, _⟩ := stepsOk_good (env := env) (tot := false) (ph := .sib) wf ev (basic_steps (fun _ a b q v => basic_cmpdOk a b q v) hl (by simp))
    obtain ⟨k1, _, k3⟩ := selectChain_decides wf s1 (Elems.nodes hg)
      (Spec.SibAsc.sublist (hq cs h1) List.filter_sublist) hr
    refine ⟨?_, fun e => ?_⟩
    · cases l with
      | nil => obtain rfl := Except.ok.inj hr; exact hg
      | cons s l => exact k1 (by simp [optCmpds])
    · rw [k3, steps_eq (_ :: _), List.map_cons, ← steps_eq]
      have : (fun x => x ∈ cs.filter fun x => decide (cmpdSat h r env ss x)) =
          Img h r (· ∈ X) (c, fun x => decide (cmpdSat h r env ss x)) := by
        funext x
        rw [eq_iff_iff, List.mem_filter, h3]
        unfold Img
        tauto
      rw [this]
      rfl


omit wf ev in
/-- The set may be replaced by one from which the same elements are reached by the first step. -/
theorem sel_from {A B : Nat → Prop} {s : Comb × (Nat → Bool)} {st : List (Comb × (Nat → Bool))} (hAB : ∀ e, Img h r A s e ↔ Img h r B s e)
    (e : Nat) : Sel h r A (s :: st) e ↔ Sel h r B (s :: st) e := by
  have : Img h r A s = Img h r B s := funext fun e => propext (hAB e)
  unfold Sel
  rw [List.foldl_cons, List.foldl_cons, this]

/-- C62, `children`: exactly the elements reached by the selector with the child combinator in front. -/
theorem C62_children {cx : Complex} (hb : Basic cx) {X res : List Nat} (hX : Nodes h r X) (hs : DocSorted h r X)
    (hr : childrenQ h env X (some [cx]) = .ok res) :
    ∀ e, e ∈ res ↔ Sel h r (· ∈ X) (steps h r env (led .children cx)) e :=
  (nav_led wf ev (c := .children) (by simp) (by simp) hb hX trivial (fun cs hcs => by
    simp only [cands, Except.ok.injEq] at hcs
    subst hcs
    exact children_list_sibAsc wf hX.within (docSorted_nodup wf hX.within hs)) hr).2

/-- C62, `next`. -/
theorem C62_next {cx : Complex} (hb : Basic cx) {X res : List Nat} (hX : Nodes h r X) (hs : DocSorted h r X)
    (hr : nextQ h env X (some [cx]) = .ok res) :
    ∀ e, e ∈ res ↔ Sel h r (· ∈ X) (steps h r env (led .next cx)) e :=
  (nav_led wf ev (c := .next) (by simp) (by simp) hb hX trivial (fun cs hcs => by
    simp only [cands, Except.ok.injEq] at hcs
    subst hcs
    exact filterMap_next_sibAsc wf hX (docSorted_sibAsc wf hX.within hs)) hr).2

/-- C62, `prev`. -/
theorem C62_prev {cx : Complex} (hb : Basic cx) {X res : List Nat} (hX : Nodes h r X) (hs : DocSorted h r X)
    (hr : prevQ h env X (some [cx]) = .ok res) :
    ∀ e, e ∈ res ↔ Sel h r (· ∈ X) (steps h r env (led .prev cx)) e :=
  (nav_led wf ev (c := .prev) (by simp) (by simp) hb hX trivial
    (fun _ hcs => prev_sibAsc wf hX (docSorted_sibAsc wf hX.within hs) hcs) hr).2

/-- C62, `parent`. -/
theorem C62_parent {cx : Complex} (hb : Basic cx) {X res : List Nat} (hX : Nodes h r X) (hs : DocSorted h r X)
    (hr : parentQ h env X (some [cx]) = .ok res) :
    ∀ e, e ∈ res ↔ Sel h r (· ∈ X) (steps h r env (led .parent cx)) e := by
  have hsub := uniqueFirst_sublist wf hX.within
  have hU : Nodes h r (uniqueSiblingFirst h X) := fun x hx => hX x (hsub.subset hx)
  intro e
  rw [(nav_led wf ev (c := .parent) (by simp) (by simp) hb hU trivial
    (fun _ hcs => parents_sibAsc wf hU.within (List.Pairwise.sublist hsub hs) hcs) hr).2]
  obtain ⟨ss, l, hled, _⟩ := led_cases (env := env) wf ev hb .parent
  rw [hled, steps_eq, List.map_cons]
  refine sel_from (fun e => and_congr_right fun _ => and_congr_right fun _ => ?_) e
  constructor
  · rintro ⟨y, hy, k⟩; exact ⟨y, hsub.subset hy, k⟩
  · rintro ⟨y, hy, h1, h2⟩
    obtain ⟨z, hz, hzp⟩ := uniqueFirst_cover wf hX.within hy
    rw [parent_of_child wf h1 h2] at hzp
    exact ⟨z, hz, h1, List.mem_of_getElem? (parent_some wf (hU.within z hz) hzp).2⟩

/-- C62, `next_all`. -/
theorem C62_next_all {cx : Complex} (hb : Basic cx) {X res : List Nat} (hX : Nodes h r X) (hs : SibAsc h X)
    (hr : nextAllQ h env X (some [cx]) = .ok res) :
    ∀ e, e ∈ res ↔ Sel h r (· ∈ X) (steps h r env (led .nextAll cx)) e := by
  have hsub := uniqueFirst_sublist wf hX.within
  have hU : Nodes h r (uniqueSiblingFirst h X) := fun x hx => hX x (hsub.subset hx)
  intro e
  rw [(nav_led wf ev (c := .nextAll) (by simp) (by simp) hb hU ((hs.sublist hsub).firstAsc [])
    (fun _ hcs => nextAll_sibAsc wf hU.within hcs) hr).2]
  obtain ⟨ss, l, hled, _⟩ := led_cases (env := env) wf ev hb .nextAll
  rw [hled, steps_eq, List.map_cons]
  refine sel_from (fun e => and_congr_right fun _ => and_congr_right fun _ => ?_) e
  constructor
  · rintro ⟨y, hy, k⟩; exact ⟨y, hsub.subset hy, k⟩
  · rintro ⟨y, hy, k⟩
    obtain ⟨z, hz, hzp, hzi⟩ := firstAsc_cover hy (hs.firstAsc [])
    rw [← uniqueSiblingFirst_eq wf hX.within] at hz
    obtain ⟨a1, a2, ⟨p, a3, a4⟩, a5⟩ := (laterSib_index wf).1 k
    exact ⟨z, hz, (laterSib_index wf).2 ⟨hU.within z hz, a2, ⟨p, hzp.trans a3, a4⟩, by omega⟩⟩

/-- C62, `prev_all`. -/
theorem C62_prev_all {cx : Complex} (hb : Basic cx) {X res : List Nat} (hX : Nodes h r X) (hs : SibAsc h X)
    (hr : prevAllQ h env X (some [cx]) = .ok res) :
    ∀ e, e ∈ res ↔ Sel h r (· ∈ X) (steps h r env (led .prevAll cx)) e := by
  have hsub := uniqueLast_sublist wf hX.within
  have hU : Nodes h r (uniqueSiblingLast h X) := fun x hx => hX x (hsub.subset hx)
  intro e
  rw [(nav_led wf ev (c := .prevAll) (by simp) (by simp) hb hU (hs.sublist hsub)
    (fun _ hcs => prevAll_sibAsc wf hU.within hcs) hr).2]
  obtain ⟨ss, l, hled, _⟩ := led_cases (env := env) wf ev hb .prevAll
  rw [hled, steps_eq, List.map_cons]
  refine sel_from (fun e => and_congr_right fun _ => and_congr_right fun _ => ?_) e
  constructor
  · rintro ⟨y, hy, k⟩; exact ⟨y, hsub.subset hy, k⟩
  · rintro ⟨y, hy, k⟩
    obtain ⟨z, hz, hzp, hzi⟩ := sibAsc_last_cover hy hs
    rw [← List.mem_reverse, ← uniqueSiblingLast_eq wf hX.within] at hz
    obtain ⟨a1, a2, ⟨p, a3, a4⟩, a5⟩ := (laterSib_index wf).1 k
    exact ⟨z, hz, (laterSib_index wf).2 ⟨a1, hU.within z hz, ⟨p, a3, hzp.trans a4⟩, by omega⟩⟩

/-- C62, `parents`. -/
theorem C62_parents {cx : Complex} (hb : Basic cx) {X res : List Nat} (hX : Nodes h r X)
    (hr : parentsQ h env X (some [cx]) = .ok res) :
    DocSorted h r res ∧ ∀ e, e ∈ res ↔ Sel h r (· ∈ X) (steps h r env (led .parentAll cx)) e := by
  have hsub := uniqueFirst_sublist wf hX.within
  have hU : Nodes h r (uniqueSiblingFirst h X) := fun x hx => hX x (hsub.subset hx)
  have hsort : ∀ cs, cands h .parentAll (uniqueSiblingFirst h X) = .ok cs → SibAsc h cs := by
    intro cs hcs
    have hel := cands_elems wf hU (c := .parentAll) (by simp) (by simp) hcs
    refine docSorted_sibAsc wf (fun x hx => (hel x hx).1) ?_
    simp only [cands] at hcs
    cases hall : flatMapR (ancestorsFuel h h.fuel) (uniqueSiblingFirst h X) with
    | error e => rw [hall] at hcs; cases hcs
    | ok all =>
      rw [hall] at hcs
      simp only [Except.map, Except.ok.injEq] at hcs
      rw [← hcs]
      refine (C14_sort_and_unique wf fun x hx => ?_).1
      obtain ⟨a, ha, y, hy, hxy⟩ := ((flatMapR_mem hall).2 x).1 hx
      obtain ⟨l', k1, k2⟩ := ancestors_ok wf (hU.within a ha)
      rw [k1] at hy; cases hy
      exact ((k2 x).1 hxy).1
  unfold parentsQ parentsSel at hr
  rw [Option.map_some] at hr
  cases hg : selectWithComb h (uniqueSiblingFirst h X) (some (innerSel h env [cx])) .parentAll with
  | error e => rw [hg] at hr; cases hr
  | ok g =>
    rw [hg] at hr
    simp only [Except.map, Except.ok.injEq] at hr
    subst hr
    obtain ⟨g1, g2⟩ := nav_led wf ev (c := .parentAll) (by simp) (by simp) hb hU trivial hsort hg
    obtain ⟨s1, _, s3⟩ := C14_sort_and_unique wf (fun x hx => (g1 x hx).1)
    refine ⟨s1, fun e => ?_⟩
    rw [s3, g2]
    obtain ⟨ss, l, hled, _⟩ := led_cases (env := env) wf ev hb .parentAll
    rw [hled, steps_eq, List.map_cons]
    refine sel_from (fun e => and_congr_right fun _ => and_congr_right fun _ => ?_) e
    constructor
    · rintro ⟨y, hy, k⟩; exact ⟨y, hsub.subset hy, k⟩
    · rintro ⟨y, hy, k1, k2⟩
      obtain ⟨z, hz, hzp⟩ := uniqueFirst_cover wf hX.within hy
      obtain ⟨p, hp, hw⟩ := (below_parent wf k1 (hX.within y hy)).1 k2
      exact ⟨z, hz, k1, (below_parent wf k1 (hU.within z hz)).2 ⟨p, hzp.trans hp, hw⟩⟩

omit wf ev in
/-- A union of sets is followed set by set. -/
theorem sel_union {ι : Type} {A : ι → Nat → Prop} (st : List (Comb × (Nat → Bool))) (e : Nat) :
    Sel h r (fun x => ∃ i, A i x) st e ↔ ∃ i, Sel h r (A i) st e := by
  induction st generalizing A with
  | nil => exact Iff.rfl
  | cons s st ih =>
    have hI : Img h r (fun x => ∃ i, A i x) s = fun x => ∃ i, Img h r (A i) s x := by
      funext x
      refine propext ⟨?_, ?_⟩
      · rintro ⟨h1, h2, y, ⟨i, hy⟩, h3⟩; exact ⟨i, h1, h2, y, hy, h3⟩
      · rintro ⟨i, h1, h2, y, hy, h3⟩; exact ⟨h1, h2, y, ⟨i, hy⟩, h3⟩
    have := ih (A := fun i => Img h r (A i) s)
    unfold Sel at this ⊢
    rw [List.foldl_cons, hI, this]
    rfl

omit wf ev in
theorem led_split {cx : Complex} (hne : cx ≠ []) : ∃ ss l, ∀ c, led c cx = (c, ss) :: l := by
  cases cx with
  | nil => exact absurd rfl hne
  | cons s l =>
    obtain ⟨c1, ss⟩ := s
    cases c1 <;> exact ⟨_, _, fun _ => rfl⟩

omit ev in
/-- `siblings` with a selector, from what one entry contributes. -/
theorem siblings_led {cx : Complex} (hfs : findSel h env [cx] = innerSel h env [cx]) (hled : ∃ ss l, ∀ c, led c cx = (c, ss) :: l)
    {X : List Nat} (hX : Nodes h r X) (hn : X.Nodup)
    (hN : ∀ c x, c = .children ∨ c = .siblings → Nodes h r [x] → ∀ g, selectWithComb h [x] (some (innerSel h env [cx])) c = .ok g →
      Elems h r g ∧ ∀ z, z ∈ g ↔ Sel h r (· ∈ [x]) (steps h r env (led c cx)) z) :
    ((∀ c x, c = .children ∨ c = .siblings → Nodes h r [x] → ∃ g, selectWithComb h [x] (some (innerSel h env [cx])) c = .ok g) →
      ∃ res, siblingsQ h env X (some [cx]) = .ok res) ∧
    ∀ res, siblingsQ h env X (some [cx]) = .ok res →
      (∀ e, e ∈ res ↔ Sel h r (· ∈ X) (steps h r env (led .siblings cx)) e) ∧
      res.Pairwise (fun a b => a = b ∨ Before h r a b) := by
  obtain ⟨ps, hi⟩ := uniqueAll_inv wf hX.within hn
  -- the members with a given parent
  let A : Nat → Nat → Prop := fun p y => y ∈ X ∧ h.parent y = some p
  have hentry : ∀ e ∈ uniqueAllSiblings h X, ∃ p ∈ ps, Within h r p ∧ SibEntry h X p e := by
    intro e he
    obtain ⟨i, hilt, hget⟩ := List.getElem_of_mem he
    have hip : i < ps.length := by rw [← hi.len]; exact hilt
    obtain ⟨e', k1, k2, _⟩ := hi.entry i ps[i] (List.getElem?_eq_getElem hip)
    have k1' : (uniqueAllSiblings h X)[i]? = some e' := k1
    rw [List.getElem?_eq_getElem hilt, hget] at k1'
    cases k1'
    exact ⟨ps[i], List.getElem_mem hip, hi.within _ (List.getElem_mem hip), k2⟩
  have hcover : ∀ y ∈ X, ∀ p, h.parent y = some p → ∃ e ∈ uniqueAllSiblings h X, SibEntry h X p e := by
    intro y hy p hp
    obtain ⟨i, hilt, hget⟩ := List.getElem_of_mem (hi.all y hy p hp)
    obtain ⟨e, k1, k2, _⟩ := hi.entry i p (by rw [List.getElem?_eq_getElem hilt, hget])
    exact ⟨e, List.mem_of_getElem? k1, k2⟩
  obtain ⟨ss, l, hled⟩ := hled
  have hnode : ∀ {p x}, Within h r p → x ∈ h.kids p → Nodes h r [p] := by
    intro p x hpw hkx z hz
    rw [List.mem_singleton] at hz
    subst hz
    refine ⟨hpw, ?_⟩
    by_cases hr : z = r
    · exact Or.inr hr
    · exact Or.inl (elem_of_kid wf hpw hkx hr)
  have hself : ∀ {x}, x ∈ X → Nodes h r [x] := by
    intro x hx z hz
    rw [List.mem_singleton] at hz
    subst hz
    exact hX z hx
  -- what one entry contributes
  have hone : ∀ e p g, Within h r p → SibEntry h X p e →
      findSelector h [e.1] ((findSel h env [cx]).map (headComb (if e.2 then .children else .siblings))) = .ok g →
      Elems h r g ∧ ∀ z, z ∈ g ↔ Sel h r (A p) (steps h r env (led .siblings cx)) z := by
    intro e p g hpw hent hg
    have hg' : selectWithComb h [e.1] (some (innerSel h env [cx])) (if e.2 then .children else .siblings) = .ok g := by
      rw [← hfs]; exact hg
    rcases hent with ⟨rfl, x, hx, y, hy, hxy, hpx, hpy⟩ | ⟨x, hx, rfl, hp, huniq⟩
    · have hkx := List.mem_of_getElem? (parent_some wf (hX.within x hx) hpx).2
      have hky := List.mem_of_getElem? (parent_some wf (hX.within y hy) hpy).2
      have hP : Nodes h r [p] := hnode hpw hkx
      obtain ⟨g1, g2⟩ := hN .children p (Or.inl rfl) hP g hg'
      refine ⟨g1, fun z => ?_⟩
      rw [g2, hled, hled, steps_eq, steps_eq, List.map_cons, List.map_cons]
      have hI : Img h r (· ∈ [p]) (.children, fun x => decide (cmpdSat h r env ss x)) =
          Img h r (A p) (.siblings, fun x => decide (cmpdSat h r env ss x)) := by
        funext w
        refine propext (and_congr_right fun _ => and_congr_right fun _ => ?_)
        constructor
        · rintro ⟨q, hq, hw⟩
          rw [List.mem_singleton] at hq
          subst hq
          by_cases hxw : x = w
          · exact ⟨y, ⟨hy, hpy⟩, q, hpw, hky, hw, fun e => hxy (hxw.trans e.symm)⟩
          · exact ⟨x, ⟨hx, hpx⟩, q, hpw, hkx, hw, hxw⟩
        · rintro ⟨v, ⟨_, hvp⟩, q, hq, k1, k2, _⟩
          rw [parent_of_child wf hq k1] at hvp
          cases hvp
          exact ⟨p, List.mem_singleton.2 rfl, k2⟩
      unfold Sel
      rw [List.foldl_cons, List.foldl_cons, hI]
    · obtain ⟨g1, g2⟩ := hN .siblings x (Or.inr rfl) (hself hx) g hg'
      refine ⟨g1, fun z => ?_⟩
      rw [g2]
      have : (fun y => y ∈ [x]) = A p := by
        funext y
        refine propext ⟨?_, ?_⟩
        · intro hy
          rw [List.mem_singleton] at hy
          subst hy
          exact ⟨hx, hp⟩
        · rintro ⟨hy, hyp⟩
          exact List.mem_singleton.2 (huniq y hy hyp)
      rw [this]
  constructor
  · intro hA
    unfold siblingsQ siblingsSel
    simp only [Option.map_some]
    obtain ⟨all, hall⟩ := flatMapR_total (f := fun e => findSelector h [e.1]
        ((findSel h env [cx]).map (headComb (if e.2 then .children else .siblings)))) (l := uniqueAllSiblings h X) (by
      intro e he
      obtain ⟨p, _, hpw, hent⟩ := hentry e he
      rw [hfs]
      rcases hent with ⟨rfl, x, hx, y, hy, hxy, hpx, hpy⟩ | ⟨x, hx, rfl, hp, huniq⟩
      · exact hA .children p (Or.inl rfl) (hnode hpw (List.mem_of_getElem? (parent_some wf (hX.within x hx) hpx).2))
      · exact hA .siblings x (Or.inr rfl) (hself hx))
    rw [hall]
    exact ⟨_, rfl⟩
  intro res hr
  -- all entries
  unfold siblingsQ siblingsSel at hr
  simp only [Option.map_some] at hr
  cases hf : flatMapR (fun e => findSelector h [e.1] ((findSel h env [cx]).map (headComb (if e.2 then .children else .siblings))))
      (uniqueAllSiblings h X) with
  | error e => rw [hf] at hr; cases hr
  | ok all =>
    rw [hf] at hr
    simp only [Except.map, Except.ok.injEq] at hr
    subst hr
    obtain ⟨f1, f2⟩ := flatMapR_mem hf
    refine ⟨fun e => ?_, sortElems_sorted wf fun x hx => ?_⟩
    · rw [(sortElems_perm h all).mem_iff, f2]
      have hU : Sel h r (· ∈ X) (steps h r env (led .siblings cx)) e ↔
          Sel h r (fun y => ∃ p, A p y) (steps h r env (led .siblings cx)) e := by
        rw [hled, steps_eq, List.map_cons]
        refine sel_from (fun e => and_congr_right fun _ => and_congr_right fun _ => ?_) e
        constructor
        · rintro ⟨y, hy, p, hp, k1, k2⟩; exact ⟨y, ⟨p, hy, parent_of_child wf hp k1⟩, p, hp, k1, k2⟩
        · rintro ⟨y, ⟨_, hy, _⟩, k⟩; exact ⟨y, hy, k⟩
      rw [hU, sel_union]
      constructor
      · rintro ⟨a, ha, g, hg, heg⟩
        obtain ⟨p, _, hpw, hent⟩ := hentry a ha
        exact ⟨p, ((hone a p g hpw hent hg).2 e).1 heg⟩
      · rintro ⟨p, hp⟩
        by_cases hex : ∃ y ∈ X, h.parent y = some p
        · obtain ⟨y, hy, hyp⟩ := hex
          obtain ⟨a, ha, hent⟩ := hcover y hy p hyp
          obtain ⟨g, hg⟩ := f1 a ha
          exact ⟨a, ha, g, hg, ((hone a p g (parent_some wf (hX.within y hy) hyp).1 hent hg).2 e).2 hp⟩
        · exact absurd hp (sel_empty fun y hy => hex ⟨y, hy.1, hy.2⟩)
    · obtain ⟨a, ha, g, hg, hxg⟩ := (f2 x).1 hx
      obtain ⟨p, _, hpw, hent⟩ := hentry a ha
      exact ((hone a p g hpw hent hg).1 x hxg).1

/-- C62, `siblings`, proved part: exactly the elements reached by the selector with the sibling relation in front, for
selectors whose first compound is the heaviest. Missing: the others, for which the search starts below the member itself
and fails (`C62_fails_siblings`). -/
theorem C62_siblings_partial {cx : Complex} (hb : Basic cx) (hlook : looked cx = false) {X res : List Nat} (hX : Nodes h r X)
    (hn : X.Nodup) (hr : siblingsQ h env X (some [cx]) = .ok res) :
    (∀ e, e ∈ res ↔ Sel h r (· ∈ X) (steps h r env (led .siblings cx)) e) ∧
    res.Pairwise (fun a b => a = b ∨ Before h r a b) := by
  have hfs : findSel h env [cx] = innerSel h env [cx] := by
    rw [inner_query, findSel, List.map_cons, List.map_nil,
      optimize_plain _ hlook fun s hs => ⟨down_ne_chain (hb.2 s hs).1, (hb.2 s hs).2.1⟩]
  refine (siblings_led wf hfs (led_split hb.1) hX hn fun c x hc hx g hg => ?_).2 res hr
  rcases hc with rfl | rfl
  · exact nav_led wf ev (c := .children) (by simp) (by simp) hb hx trivial (by
      intro cs hcs
      simp only [cands, List.flatMap_cons, List.flatMap_nil, List.append_nil, Except.ok.injEq] at hcs
      subst hcs
      exact children_sibAsc wf (hx.within x (by simp))) hg
  · exact nav_led wf ev (c := .siblings) (by simp) (by simp) hb hx ⟨x, rfl⟩
      (fun cs hcs => (siblings_cands wf (hx.within x (by simp)) hcs).2) hg

/-- C62: `children(s)` and `find("> s")` return the same elements. -/
theorem C62_children_find {cx : Complex} (hb : Basic cx) {X res res' : List Nat} (hX : Nodes h r X) (hs : DocSorted h r X)
    (hr : childrenQ h env X (some [cx]) = .ok res) (hr' : find h env X [led .children cx] = .ok res') :
    ∀ e, e ∈ res ↔ e ∈ res' := by
  intro e
  have hl : Basic (led .children cx) := by
    obtain ⟨ss, l, hled, h1, h2, h3, _⟩ := led_cases (env := env) wf ev hb .children
    rw [hled]
    refine ⟨by simp, fun s hs => ?_⟩
    rcases List.mem_cons.1 hs with rfl | hs
    · exact ⟨rfl, h1, h2⟩
    · exact h3 s hs
  rw [C62_children wf ev hb hX hs hr, C17_find_basic wf ev hl hX hs hr']

omit wf ev

example : Basic [(.childrenAll, [.all]), (.children, [ty "p"])] ∧ Basic [(.children, [.all])] ∧ Nodes demo 0 [1, 8] ∧
    DocSorted demo 0 [1] ∧ SibAsc demo [1, 8] ∧
    childrenQ demo env0 [1] (some [[(.childrenAll, [.all]), (.children, [ty "p"])]]) = .ok [6] ∧
    find demo env0 [1] [led .children [(.childrenAll, [.all]), (.children, [ty "p"])]] = .ok [6] ∧
    nextQ demo env0 [1] (some [[(.children, [.all])]]) = .ok [9] ∧
    prevQ demo env0 [8] (some [[(.childrenAll, [.all]), (.children, [ty "p"])]]) = .ok [2] ∧
    parentQ demo env0 [6] (some [[(.childrenAll, [ty "div"]), (.children, [ty "span"])]]) = .ok [7] ∧
    parentsQ demo env0 [6] (some [[(.childrenAll, [.all]), (.children, [.all])]]) = .ok [2, 5, 6, 7] ∧
    nextAllQ demo env0 [1] (some [[(.children, [.all])]]) = .ok [9] ∧
    prevAllQ demo env0 [8] (some [[(.childrenAll, [.all]), (.children, [ty "p"])]]) = .ok [2] :=
  ⟨⟨by decide, by decide⟩, ⟨by decide, by decide⟩, demo_nodes (by decide), docSorted_single 1, by unfold SibAsc; decide, by decide,
    by decide, by decide, by decide, by decide, by decide, by decide, by decide⟩

/-- `siblings` parses its selector so that the search may start at the heaviest compound. It then starts below the member
itself: `siblings("* > p")` of 8 misses 2, and `siblings("* p")` of 5 panics. -/
theorem C62_fails_siblings :
    siblingsQ demo env0 [8] (some [[(.childrenAll, [.all]), (.children, [ty "p"])]]) = .ok [] ∧
    prevQ demo env0 [8] (some [[(.childrenAll, [.all]), (.children, [ty "p"])]]) = .ok [2] ∧
    siblingsQ demo env0 [5] (some [[(.childrenAll, [.all]), (.childrenAll, [ty "p"])]]) = .error .explicit := by decide

example : Nodes demo 0 [6, 7, 8] ∧ [6, 7, 8].Nodup ∧ Basic [(.childrenAll, [ty "div"]), (.children, [ty "p"])] ∧
    looked [(.childrenAll, [ty "div"]), (.children, [ty "p"])] = false ∧
    siblingsQ demo env0 [6, 7, 8] (some [[(.childrenAll, [ty "div"]), (.children, [ty "p"])]]) = .ok [2] :=
  ⟨demo_nodes (by decide), by decide, ⟨by decide, by decide⟩, by decide, by decide⟩

/-- The call is not the unfiltered call filtered by the selector: with the set `{1}`, `children("div > p")` returns 6, a
grandchild, and not 2, a child that matches `div > p`. -/
theorem C26_fails_compounds : childrenQ demo env0 [1] (some [[(.childrenAll, [ty "div"]), (.children, [ty "p"])]]) = .ok [6] ∧
    childrenQ demo env0 [1] none = .ok [2, 5] ∧
    (childrenQ demo env0 [1] none).bind (fun l => filterQ demo env0 l [[(.childrenAll, [ty "div"]), (.children, [ty "p"])]]) = .ok [2] := by
  decide

end Visdom
