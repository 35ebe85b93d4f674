import Verif.Props.Arrange
import Verif.Props.FoundAfter
/-!
# C104: searches when the children of an element have been put in another order
-/
namespace Visdom
open Spec

/-- The nodes are not below two different children of `t`. -/
def Spec.Together (h : Heap) (t a b : Nat) : Prop := ∀ c ∈ h.kids t, ∀ d ∈ h.kids t, Within h c a → Within h d b → c = d

/-- The children of `t` stand in another order; the other lists of the tree of `r` are the same. -/
structure Spec.Shuffled (h h' : Heap) (r t : Nat) : Prop where
  perm : (h'.kids t).Perm (h.kids t)
  other : ∀ q, Within h r q → q ≠ t → h'.kids q = h.kids q
  data : SameData h h'

section
variable {h h' : Heap} {r t : Nat} {D : Nat → Prop}

theorem Spec.Shuffled.kid (m : Shuffled h h' r t) {q c : Nat} (hq : Within h r q) : c ∈ h'.kids q ↔ c ∈ h.kids q := by
  by_cases hqt : q = t
  · subst hqt; exact m.perm.mem_iff
  · rw [m.other q hq hqt]

theorem Spec.Shuffled.within (m : Shuffled h h' r t) {a y : Nat} (ha : Within h r a) : Within h' a y ↔ Within h a y := by
  constructor
  · intro hw
    induction hw with
    | self => exact .self
    | step _ hc ih => exact ih.step ((m.kid (ha.trans ih)).1 hc)
  · intro hw
    induction hw with
    | self => exact .self
    | step hq hc ih => exact ih.step ((m.kid (ha.trans hq)).2 hc)

theorem Spec.Shuffled.paths (m : Shuffled h h' r t) : KeptPaths h h' r (Within h r) := by
  refine ⟨fun _ hy => hy, fun _ hy => (m.within .self).2 hy, fun y hy hne => ?_, fun y _ => ⟨(m.data y).1, (m.data y).2.1, (m.data y).2.2.1⟩⟩
  cases hy with
  | self => exact absurd rfl hne
  | @step q _ hq hc => exact ⟨q, hq, hc, (m.kid hq).2 hc⟩

/-- Only what stands below different children of `t` can change its order. -/
theorem Spec.Shuffled.before (m : Shuffled h h' r t) (wf' : TreeWF h' r) {a b : Nat} (ha : Within h r a) (ht : Together h t a b)
    (hb : Before h' r a b) : Before h r a b := by
  rcases hb with ⟨c, hc, hw⟩ | ⟨q, i, j, c, d, hq, hij, hi, hj, h1, h2⟩
  · have hc := (m.kid ha).1 hc
    exact .inl ⟨c, hc, (m.within (ha.step hc)).1 hw⟩
  · have hq' := (m.within .self).1 hq
    have hc := (m.kid hq').1 (List.mem_of_getElem? hi)
    have hd := (m.kid hq').1 (List.mem_of_getElem? hj)
    have wc := (m.within (hq'.step hc)).1 h1
    have wd := (m.within (hq'.step hd)).1 h2
    by_cases hqt : q = t
    · subst hqt
      have := ht c hc d hd wc wd
      subst this
      have e1 := (wf'.link q i c hq hi).2
      have e2 := (wf'.link q j c hq hj).2
      omega
    · rw [m.other q hq' hqt] at hi hj
      exact .inr ⟨q, i, j, c, d, hq', hij, hi, hj, wc, wd⟩

theorem Spec.Shuffled.start (m : Shuffled h h' r t) (wf : TreeWF h r) (wf' : TreeWF h' r) {S : List Nat} (hS : Nodes h r S) (hs : DocSorted h r S)
    (hT : ∀ a ∈ S, ∀ b ∈ S, Together h t a b) : Nodes h' r S ∧ DocSorted h' r S := by
  refine ⟨fun y hy => ⟨(m.within .self).2 (hS y hy).1, by rw [isElem_data m.data]; exact (hS y hy).2⟩, hs.imp_of_mem fun {a b} ha hb hab => ?_⟩
  rcases before_trichotomy wf' ((m.within .self).2 (hS a ha).1) ((m.within .self).2 (hS b hb).1) with h1 | rfl | h1
  · exact h1
  · exact absurd hab (before_irrefl wf (hS a ha).1)
  · exact absurd (m.before wf' (hS b hb).1 (hT b hb a ha) h1) (before_asymm wf (hS a ha).1 (hS b hb).1 hab)

/-- **C104, the two trees**: a search by names, classes and attributes, with descendant combinators, finds the same elements, in the order of the document as it is now;
found elements which are not below different children of `t` come in the same order as before. -/
theorem C104_shuffled (ok' : HeapOk h' D) (hD : ¬ D r) (wf : TreeWF h r) (hsz : h'.size = h.size) (ev : Metas h r) (m : Shuffled h h' r t)
    {S : List Nat} (hS : Nodes h r S) (hs : DocSorted h r S) (hT : ∀ a ∈ S, ∀ b ∈ S, Together h t a b)
    {cx : Complex} (ho : Own cx) (hd : ∀ s ∈ cx, s.1 = Comb.childrenAll) (env env' : Env) :
    ∃ res res', find h env S [cx] = .ok res ∧ find h' env' S [cx] = .ok res' ∧ res'.Perm res ∧ DocSorted h' r res' ∧
      ∀ P : Nat → Bool, (∀ a b, P a = true → P b = true → Together h t a b) → res'.filter P = res.filter P := by
  have wf' : TreeWF h' r := ok'.tree (by rw [(m.data r).1]; exact wf.rootKind) hD (by rw [hsz]; exact wf.bound r .self)
  obtain ⟨hS', hs'⟩ := m.start wf wf' hS hs hT
  have ev' : Metas h' r := fun y hy he => by
    rw [(m.data y).2.2.1]
    exact ev y ((m.within .self).1 hy) (by rw [isElem_data m.data] at he; exact he)
  obtain ⟨res, hf⟩ := C19_find_basic_descendants (env := env) wf ev ho.basic hd hS hs
  obtain ⟨res', hf'⟩ := C19_find_basic_descendants (env := env') wf' ev' ho.basic hd hS' hs'
  obtain ⟨o1, n1⟩ := C18_find_descendants wf ev (basic_findOk ho.basic (by simp)) hd hS hs hf
  obtain ⟨o2, n2⟩ := C18_find_descendants wf' ev' (basic_findOk ho.basic (by simp)) hd hS' hs' hf'
  have hmem : ∀ y, y ∈ res' ↔ y ∈ res := fun y => by
    rw [C17_find_basic wf ev ho.basic hS hs hf, C17_find_basic wf' ev' ho.basic hS' hs' hf']
    constructor
    · intro h1
      have hy := (m.within .self).1 (sel_inside (fun z hz => (hS' z hz).1) y h1)
      exact (m.paths.own wf wf' ho (fun s hs => .inl (hd s hs)) (fun z hz => (hS z hz).1) hy).2 h1
    · intro h1
      have hy := sel_inside (fun z hz => (hS z hz).1) y h1
      exact (m.paths.own wf wf' ho (fun s hs => .inl (hd s hs)) (fun z hz => (hS z hz).1) hy).1 h1
  have hin : ∀ y ∈ res', Within h r y := fun y hy =>
    (C17_find_elements (ph := .sorted) wf ev (basic_findOk ho.basic (by simp)) hS hs hf y ((hmem y).1 hy)).1
  refine ⟨res, res', hf, hf', (List.perm_ext_iff_of_nodup n2 n1).2 hmem, o2, fun P hP => ?_⟩
  refine docSorted_ext (h := h) (r := r) ?_ (o1.filter _) (fun y hy => hin y (List.mem_filter.1 hy).1) (fun y => ?_) wf
  · refine (o2.filter _).imp_of_mem fun {a b} ha hb hab => ?_
    obtain ⟨ha, hpa⟩ := List.mem_filter.1 ha
    exact m.before wf' (hin a ha) (hP a b hpa (List.mem_filter.1 hb).2) hab
  · rw [List.mem_filter, List.mem_filter, hmem y]

variable {e : Ext}

/-- **C104**: the element children of `t` are appended to it one by one in another order `l` (`C98_each`). Every such search finds the same elements; below each child of
`t`, and outside of `t`, they come in the same order. -/
theorem C104_arranged (ok : HeapOk h D) (hD : ¬ D r) (wf : TreeWF h r) (tb : Tables h) {l : List Nat} (a : Arranges e h D t l)
    {S : List Nat} (hS : Nodes h r S) (hs : DocSorted h r S) (hT : ∀ a ∈ S, ∀ b ∈ S, Together h t a b)
    {cx : Complex} (ho : Own cx) (hd : ∀ s ∈ cx, s.1 = Comb.childrenAll) (env env' : Env) :
    ∃ h' res res', appendEach e t h l = .ok h' ∧ find h env S [cx] = .ok res ∧ find h' env' S [cx] = .ok res' ∧ res'.Perm res ∧ DocSorted h' r res' ∧
      ∀ P : Nat → Bool, (∀ a b, P a = true → P b = true → Together h t a b) → res'.filter P = res.filter P := by
  obtain ⟨h', r1, -, k2, k3, k4, k5⟩ := C98_each ok a
  have hsz : h'.size = h.size := by rw [appendEach_loop] at r1; exact insertLoop_size r1
  have m : Shuffled h h' r t := by
    refine ⟨?_, fun q hq => k3 q (within_live ok hD hq), k4⟩
    rw [k2]
    refine (List.Perm.append_left _ a.perm).trans ?_
    have := List.filter_append_perm (fun c => !h.isElem c) (h.kids t)
    simpa [Heap.children] using this
  obtain ⟨res, res', f1, f2, f3⟩ := C104_shuffled k5 hD wf hsz (fun y hy => tb y (wf.bound y hy)) m hS hs hT ho hd env env'
  exact ⟨h', res, res', r1, f1, f2, f3⟩

/-- The element children found by a search, in the order in which they were put: when `l` is the new order of the children of `t` and the answer lies among them,
the answer is `l` without what does not fit. -/
theorem C104_sorted (ok : HeapOk h D) (hD : ¬ D r) (wf : TreeWF h r) (tb : Tables h) {l : List Nat} (a : Arranges e h D t l) (ht : Within h r t)
    {ss : List Sim} (ho : Own [(.childrenAll, ss)]) (env env' : Env) (hflat : ∀ c ∈ h.children t, h.children c = []) :
    ∃ h' res, appendEach e t h l = .ok h' ∧ find h env [t] [[(.childrenAll, ss)]] = .ok res ∧
      find h' env' [t] [[(.childrenAll, ss)]] = .ok (l.filter (· ∈ res)) := by
  have hS : Nodes h r [t] := fun y hy => by rw [List.mem_singleton.1 hy]; exact ⟨ht, .inl (isElem_tag.2 a.tag)⟩
  have hT : ∀ a ∈ [t], ∀ b ∈ [t], Together h t a b := by
    intro a ha b _ c hc d hd h1 h2
    rw [List.mem_singleton.1 ha] at h1
    exact absurd ⟨c, hc, h1⟩ (not_below_self wf ht)
  obtain ⟨h', res, res', r1, f1, f2, f3, f4, -⟩ := C104_arranged ok hD wf tb a hS (docSorted_single t) hT ho (by simp) env env'
  refine ⟨h', res, r1, f1, f2.trans (congrArg _ ?_)⟩
  obtain ⟨k, r1', k1, k2, k3, k4, k5⟩ := C98_each ok a
  rw [r1] at r1'; cases r1'
  have hsz : h'.size = h.size := by rw [appendEach_loop] at r1; exact insertLoop_size r1
  have wf' : TreeWF h' r := k5.tree (by rw [(k4 r).1]; exact wf.rootKind) hD (by rw [hsz]; exact wf.bound r .self)
  have ev : Metas h r := fun y hy => tb y (wf.bound y hy)
  have hres : ∀ y ∈ res, y ∈ h.children t := by
    intro y hy
    obtain ⟨he, -, z, hz, c, hc, hw⟩ := (C17_find_basic wf ev ho.basic hS (docSorted_single t) f1 y).1 hy
    rw [List.mem_singleton.1 hz] at hc
    have hcw := ht.step hc
    refine List.mem_filter.2 ⟨?_, he⟩
    have hck : ∀ u ∈ h.kids c, h.isElem u ≠ true := fun u hu hue => by
      by_cases hce : h.isElem c = true
      · have := hflat c (List.mem_filter.2 ⟨hc, hce⟩)
        have h2 : u ∈ h.children c := List.mem_filter.2 ⟨hu, hue⟩
        rw [this] at h2; cases h2
      · have := wf.leaf c hcw (fun h1 => child_ne_root wf ht hc (wf.onlyRoot c hcw h1)) (fun h1 => hce (isElem_tag.2 h1))
        rw [this] at hu; cases hu
    rcases within_cases hw with rfl | ⟨u, hu, hw2⟩
    · exact hc
    · have huw := hcw.step hu
      rcases within_cases hw2 with rfl | ⟨v, hv, -⟩
      · exact absurd he (hck _ hu)
      · have := wf.leaf u huw (fun h1 => child_ne_root wf hcw hu (wf.onlyRoot u huw h1)) (fun h1 => hck u hu (isElem_tag.2 h1))
        rw [this] at hv; cases hv
  have htin : Within h' r t := by
    refine within_stays wf ht fun q hq _ hqt => k3 q (within_live ok hD hq) hqt
  have hlk : ∀ y ∈ l, y ∈ h'.kids t := fun y hy => by rw [k2]; simp [hy]
  refine docSorted_ext (h := h') (r := r) f4 ?_ (fun y hy => htin.step (hlk y ((a.perm.mem_iff).2 (hres y ((f3.mem_iff).1 hy))))) (fun y => ?_) wf'
  · refine List.Pairwise.filter _ ?_
    have hsub : l.Sublist (h'.kids t) := by rw [k2]; exact List.sublist_append_right _ _
    refine List.Pairwise.sublist hsub ?_
    rw [List.pairwise_iff_getElem]
    intro i j hi hj hij
    exact .inr ⟨t, i, j, _, _, htin, hij, List.getElem?_eq_getElem hi, List.getElem?_eq_getElem hj, .self, .self⟩
  · rw [f3.mem_iff, List.mem_filter]
    simp only [decide_eq_true_eq]
    exact ⟨fun h1 => ⟨a.perm.mem_iff.2 (hres y h1), h1⟩, fun h1 => h1.2⟩

end
/-! ## The hypotheses are satisfiable -/

theorem demo2_tables' : Tables demo2 := fun x hx _ => by
  have : ∀ x < 14, metaCheck (demo2.node x).attrs = true := by decide
  exact metaCheck_sound (this x hx)

theorem together_root {h : Heap} {r t : Nat} (wf : TreeWF h r) (ht : Within h r t) : ∀ a ∈ [r], ∀ b ∈ [r], Together h t a b := by
  intro a ha b _ c hc _ _ h1 _
  rw [List.mem_singleton.1 ha] at h1
  cases h1 with
  | self => exact absurd rfl (child_ne_root wf ht hc)
  | step hq hk => exact absurd rfl (child_ne_root wf ((ht.step hc).trans hq) hk)

/-- `find("div p")` in the sample, where the `p` and the inner `div` with another `p` in it have changed their order: the same elements are found. -/
example : ∃ h' res', appendEach ext0 1 demo2 [5, 2] = .ok h' ∧ find h' env0 [0] [divP] = .ok res' ∧ res'.Perm [2, 6] ∧ res' = [6, 2] := by
  obtain ⟨h', res, res', r1, f1, f2, f3, -⟩ := C104_arranged demo2_ok id demo2_wf demo2_tables' demo2_arranges (nodes_root demo2_wf) (docSorted_single 0)
    (together_root demo2_wf (.step (p := 0) .self (by decide))) (cx := divP) ⟨by decide, by decide⟩ (by decide) env0 env0
  have hf : find demo2 env0 [0] [divP] = .ok [2, 6] := by decide
  rw [hf] at f1
  cases f1
  refine ⟨h', res', r1, f2, f3, ?_⟩
  have he : h' = (match appendEach ext0 1 demo2 [5, 2] with | .ok h => h | .error _ => demo2) := by rw [r1]
  have hf' : find h' env0 [0] [divP] = .ok [6, 2] := by rw [he]; decide
  rw [hf'] at f2
  exact (Except.ok.inj f2).symm

theorem places_arranges : Arranges ext0 places noneUsed 4 [6, 5] :=
  ⟨by decide, ⟨by rintro p hp; cases hp; exact ⟨id, by decide⟩, by decide⟩, by decide, by decide⟩

/-- The items of a list in the reverse order, and `find("li")` in the list. -/
example : ∃ h', appendEach ext0 4 places [6, 5] = .ok h' ∧ find h' env0 [4] [[(.childrenAll, [ty "li"])]] = .ok [6, 5] := by
  have w4 : Within places 0 4 := .step (p := 1) (.step (p := 0) .self (by decide)) (by decide)
  obtain ⟨h', res, r1, f1, f2⟩ := C104_sorted places_ok id places_wf places_tables places_arranges w4 (ss := [ty "li"]) ⟨by decide, by decide⟩ env0 env0 (by decide)
  have hf : find places env0 [4] [[(.childrenAll, [ty "li"])]] = .ok [5, 6] := by decide
  rw [hf] at f1
  cases f1
  exact ⟨h', r1, f2⟩

set_option maxRecDepth 100000 in
/-- **C104 needs tests that look at the element alone**: `find("li:first-child")` finds another item, and `find("li + li")` too, when the items have changed their order. -/
theorem C104_fails_place : ∃ h', appendEach ext0 4 places [6, 5] = .ok h' ∧
    find places env0 [0] [[(.childrenAll, [ty "li", .edge false false])]] = .ok [5] ∧ find h' env0 [0] [[(.childrenAll, [ty "li", .edge false false])]] = .ok [6] ∧
    find places env0 [0] [[(.childrenAll, [ty "li"]), (.next, [ty "li"])]] = .ok [6] ∧ find h' env0 [0] [[(.childrenAll, [ty "li"]), (.next, [ty "li"])]] = .ok [5] :=
  ⟨_, rfl, by decide, by decide, by decide, by decide⟩

end Visdom
