import Verif.Props.Reshape
import Verif.Props.Again
/-!
# C103: searches when the elements around have changed
-/
namespace Visdom
open Spec

/-- In the second heap the element children of `x` stand where `x` stood under `p`; the other lists of the tree of `r` are the same. -/
structure Spec.Melted (h h' : Heap) (r p x : Nat) : Prop where
  inside : Within h r p
  place : ∃ A B, h.kids p = A ++ x :: B ∧ h'.kids p = A ++ ((h.kids x).filter h.isElem ++ B)
  tag : h.isElem x = true
  other : ∀ q, Within h r q → q ≠ p → q ≠ x → h'.kids q = h.kids q
  data : SameData h h'

section
variable {h h' : Heap} {r p x : Nat} {D : Nat → Prop}

theorem Spec.Melted.kid (m : Melted h h' r p x) : x ∈ h.kids p := by
  obtain ⟨A, B, h1, -⟩ := m.place
  rw [h1]; simp

theorem Spec.Melted.ne (m : Melted h h' r p x) (wf : TreeWF h r) : p ≠ x := by
  rintro rfl
  exact not_below_self wf m.inside ⟨p, m.kid, .self⟩

/-- A child afterwards: a child before, or a child of `x`. -/
theorem Spec.Melted.child (m : Melted h h' r p x) (wf : TreeWF h r) {a c : Nat} (ha : Within h r a) (hax : a ≠ x) (hc : c ∈ h'.kids a) :
    c ≠ x ∧ (c ∈ h.kids a ∨ a = p ∧ c ∈ h.kids x) := by
  obtain ⟨A, B, k1, k2⟩ := m.place
  by_cases hap : a = p
  · subst hap
    have hnd := kids_nodup wf ha
    rw [k1] at hnd
    rw [k2, List.mem_append, List.mem_append, List.mem_filter] at hc
    rcases hc with hc | ⟨hc, _⟩ | hc
    · refine ⟨?_, .inl (by rw [k1]; simp [hc])⟩
      rintro rfl
      exact (List.nodup_append.1 hnd).2.2 c hc c (by simp) rfl
    · refine ⟨?_, .inr ⟨rfl, hc⟩⟩
      rintro rfl
      exact not_below_self wf (ha.step m.kid) ⟨c, hc, .self⟩
    · refine ⟨?_, .inl (by rw [k1]; simp [hc])⟩
      rintro rfl
      exact (List.nodup_cons.1 (List.nodup_append.1 hnd).2.1).1 hc
  · rw [m.other a ha hap hax] at hc
    refine ⟨?_, .inl hc⟩
    rintro rfl
    have e1 := parent_of_child wf ha hc
    rw [parent_of_child wf m.inside m.kid] at e1
    cases e1
    exact hap rfl

theorem Spec.Melted.down (m : Melted h h' r p x) (wf : TreeWF h r) {a y : Nat} (ha : Within h r a) (hax : a ≠ x) (hw : Within h' a y) :
    Within h a y ∧ y ≠ x := by
  induction hw with
  | self => exact ⟨.self, hax⟩
  | @step q c _ hc ih =>
    obtain ⟨h1, h2⟩ := m.child wf (ha.trans ih.1) ih.2 hc
    refine ⟨?_, h1⟩
    rcases h2 with h2 | ⟨rfl, h2⟩
    · exact ih.1.step h2
    · exact (ih.1.step m.kid).step h2

theorem Spec.Melted.up (m : Melted h h' r p x) (wf : TreeWF h r) {a y : Nat} (ha : Within h r a) (hax : a ≠ x) (hw : Within h a y) :
    (y ≠ x → (h.isElem y = true ∨ y ∉ h.kids x) → Within h' a y) ∧ (y = x → Within h' a p) := by
  obtain ⟨A, B, k1, k2⟩ := m.place
  have hxw := m.inside.step m.kid
  induction hw with
  | self => exact ⟨fun _ _ => .self, fun h1 => absurd h1 hax⟩
  | @step q c hq hc ih =>
    have hqr := ha.trans hq
    have hqe : q = r ∨ h.isElem q = true := by
      by_contra hn
      rw [not_or] at hn
      have := wf.leaf q hqr (fun h1 => hn.1 (wf.onlyRoot q hqr h1)) (fun h1 => hn.2 (by unfold Heap.isElem; rw [h1]; rfl))
      rw [this] at hc; cases hc
    have hq' : h.isElem q = true ∨ q ∉ h.kids x := by
      rcases hqe with h1 | h1
      · exact .inr fun h2 => child_ne_root wf hxw h2 h1
      · exact .inl h1
    constructor
    · intro hcx hce
      by_cases hqx : q = x
      · subst hqx
        refine (ih.2 rfl).step ?_
        rw [k2, List.mem_append, List.mem_append, List.mem_filter]
        exact .inr (.inl ⟨hc, hce.resolve_right fun h1 => h1 hc⟩)
      · refine (ih.1 hqx hq').step ?_
        by_cases hqp : q = p
        · subst hqp
          rw [k1] at hc
          rw [k2]
          simp only [List.mem_append, List.mem_cons] at hc ⊢
          rcases hc with hc | hc | hc
          · exact .inl hc
          · exact absurd hc hcx
          · exact .inr (.inr hc)
        · rw [m.other q hqr hqp hqx]; exact hc
    · rintro rfl
      have e1 := parent_of_child wf hqr hc
      rw [parent_of_child wf m.inside m.kid] at e1
      cases e1
      exact ih.1 (m.ne wf) hq'

/-- What comes first afterwards came first before. -/
theorem Spec.Melted.before (m : Melted h h' r p x) (wf : TreeWF h r) (hr : r ≠ x) {a b : Nat} (ha : Within h r a) (hax : a ≠ x)
    (hb : Before h' r a b) : Before h r a b := by
  have hxw := m.inside.step m.kid
  rcases hb with ⟨c, hc, hw⟩ | ⟨q, i, j, c, d, hq, hij, hc, hd, h1, h2⟩
  · obtain ⟨hcx, k⟩ := m.child wf ha hax hc
    rcases k with k | ⟨rfl, k⟩
    · exact .inl ⟨c, k, (m.down wf (ha.step k) hcx hw).1⟩
    · exact .inl ⟨x, m.kid, (Within.self.step k).trans (m.down wf (hxw.step k) hcx hw).1⟩
  · obtain ⟨hqr, hqx⟩ := m.down wf .self hr hq
    obtain ⟨hcx, kc⟩ := m.child wf hqr hqx (List.mem_of_getElem? hc)
    obtain ⟨hdx, kd⟩ := m.child wf hqr hqx (List.mem_of_getElem? hd)
    have wc : Within h c a := by
      rcases kc with k | ⟨-, k⟩
      · exact (m.down wf (hqr.step k) hcx h1).1
      · exact (m.down wf (hxw.step k) hcx h1).1
    have wd : Within h d b := by
      rcases kd with k | ⟨-, k⟩
      · exact (m.down wf (hqr.step k) hdx h2).1
      · exact (m.down wf (hxw.step k) hdx h2).1
    by_cases hqp : q = p
    · subst hqp
      obtain ⟨A, B, k1, k2⟩ := m.place
      rw [k2] at hc hd
      have posA : ∀ {i y}, A[i]? = some y → (h.kids q)[i]? = some y := fun {i y} h3 => by
        rw [k1, List.getElem?_append_left (by obtain ⟨h4, -⟩ := List.getElem?_eq_some_iff.1 h3; exact h4)]; exact h3
      have posx : (h.kids q)[A.length]? = some x := by rw [k1]; simp
      have posB : ∀ {i y}, B[i]? = some y → (h.kids q)[A.length + 1 + i]? = some y := fun {i y} h3 => by
        rw [k1, List.getElem?_append_right (by omega), show A.length + 1 + i - A.length = i + 1 by omega, List.getElem?_cons_succ]; exact h3
      have lenA : ∀ {i y}, A[i]? = some y → i < A.length := fun h3 => (List.getElem?_eq_some_iff.1 h3).1
      have inK : ∀ {i : Nat} {y}, ((h.kids x).filter h.isElem)[i]? = some y → Within h x y := fun h3 =>
        .step .self (List.mem_filter.1 (List.mem_of_getElem? h3)).1
      have cases3 : ∀ {i y}, (A ++ ((h.kids x).filter h.isElem ++ B))[i]? = some y → A[i]? = some y ∨
          (A.length ≤ i ∧ i < A.length + ((h.kids x).filter h.isElem).length ∧ ((h.kids x).filter h.isElem)[i - A.length]? = some y) ∨
          (A.length + ((h.kids x).filter h.isElem).length ≤ i ∧ B[i - A.length - ((h.kids x).filter h.isElem).length]? = some y) := fun {i y} h3 => by
        by_cases h4 : i < A.length
        · rw [List.getElem?_append_left h4] at h3; exact .inl h3
        · rw [List.getElem?_append_right (by omega)] at h3
          by_cases h5 : i - A.length < ((h.kids x).filter h.isElem).length
          · rw [List.getElem?_append_left h5] at h3
            exact .inr (.inl ⟨by omega, by omega, h3⟩)
          · rw [List.getElem?_append_right (by omega)] at h3
            exact .inr (.inr ⟨by omega, h3⟩)
      rcases cases3 hc with c1 | ⟨c1, c2, c3⟩ | ⟨c1, c3⟩ <;> rcases cases3 hd with d1 | ⟨d1, d2, d3⟩ | ⟨d1, d3⟩
      · exact .inr ⟨q, i, j, c, d, hqr, hij, posA c1, posA d1, wc, wd⟩
      · exact .inr ⟨q, i, A.length, c, x, hqr, lenA c1, posA c1, posx, wc, (inK d3).trans wd⟩
      · exact .inr ⟨q, i, _, c, d, hqr, by have := lenA c1; omega, posA c1, posB d3, wc, wd⟩
      · have := lenA d1; omega
      · obtain ⟨i', j', g1, g2, g3⟩ := filter_pos (i := i - A.length) (j := j - A.length) (by omega) c3 d3
        exact .inr ⟨x, i', j', c, d, hxw, g1, g2, g3, wc, wd⟩
      · exact .inr ⟨q, A.length, _, x, d, hqr, by omega, posx, posB d3, (inK c3).trans wc, wd⟩
      · have := lenA d1; omega
      · omega
      · exact .inr ⟨q, _, _, c, d, hqr, by omega, posB c3, posB d3, wc, wd⟩
    · rw [m.other q hqr hqp hqx] at hc hd
      exact .inr ⟨q, i, j, c, d, hqr, hij, hc, hd, wc, wd⟩

/-- Descendants, apart from `x`. -/
theorem Spec.Melted.below (m : Melted h h' r p x) (wf : TreeWF h r) (wf' : TreeWF h' r) (hr : r ≠ x) {a y : Nat} (ha : Within h r a) (ha' : Within h' r a)
    (hax : a ≠ x) (hy : h.isElem y = true) : Below h' a y ↔ Below h a y ∧ y ≠ x := by
  constructor
  · rintro ⟨c, hc, hw⟩
    obtain ⟨h1, h2⟩ := m.down wf ha hax ((Within.self.step hc).trans hw)
    refine ⟨?_, h2⟩
    rcases within_cases h1 with rfl | h3
    · exact absurd ⟨c, hc, hw⟩ (not_below_self wf' ha')
    · exact h3
  · rintro ⟨⟨c, hc, hw⟩, hyx⟩
    have h1 := (m.up wf ha hax ((Within.self.step hc).trans hw)).1 hyx (.inl hy)
    rcases within_cases h1 with rfl | h3
    · exact absurd ⟨c, hc, hw⟩ (not_below_self wf ha)
    · exact h3

/-- The steps before the last pass `x` by. -/
theorem Spec.Melted.sel (m : Melted h h' r p x) (wf : TreeWF h r) (wf' : TreeWF h' r) (hr : r ≠ x) {st st' : List (Comb × (Nat → Bool))}
    (hst : List.Forall₂ (fun s t => s.1 = .childrenAll ∧ t.1 = .childrenAll ∧ ∀ y, s.2 y = t.2 y) st st') :
    ∀ {A A' : Nat → Prop}, (∀ y, A y → Within h r y ∧ Within h' r y ∧ y ≠ x) → (∀ y, A' y ↔ A y) → (∀ s ∈ st.dropLast, s.2 x = false) →
      ∀ y, Sel h' r A' st' y ↔ Sel h r A st y ∧ y ≠ x := by
  induction hst with
  | nil => exact fun hA hAA _ y => ⟨fun h1 => ⟨(hAA y).1 h1, (hA y ((hAA y).1 h1)).2.2⟩, fun h1 => (hAA y).2 h1.1⟩
  | @cons s t st st' hs htl ih =>
    intro A A' hA hAA hpass y
    obtain ⟨c1, c2, c3⟩ := hs
    have img : ∀ z, Img h' r A' t z ↔ Img h r A s z ∧ z ≠ x := by
      intro z
      have hel : h'.isElem z = h.isElem z := by unfold Heap.isElem; rw [(m.data z).1]
      unfold Img
      rw [hel, c3 z, c1, c2]
      constructor
      · rintro ⟨h1, h2, a, ha, hb⟩
        obtain ⟨g1, g2, g3⟩ := hA a ((hAA a).1 ha)
        obtain ⟨h3, h4⟩ := (m.below wf wf' hr g1 g2 g3 h1).1 hb
        exact ⟨⟨h1, h2, a, (hAA a).1 ha, h3⟩, h4⟩
      · rintro ⟨⟨h1, h2, a, ha, hb⟩, h4⟩
        obtain ⟨g1, g2, g3⟩ := hA a ha
        exact ⟨h1, h2, a, (hAA a).2 ha, (m.below wf wf' hr g1 g2 g3 h1).2 ⟨hb, h4⟩⟩
    cases htl with
    | nil => exact img y
    | @cons s2 t2 st2 st2' hs2 htl2 =>
      have hsx : s.2 x = false := hpass s (by simp)
      have hne : ∀ z, Img h r A s z → z ≠ x := by
        rintro z ⟨_, h2, _⟩ rfl
        rw [hsx] at h2; cases h2
      refine ih (A := Img h r A s) (A' := Img h' r A' t) ?_ (fun z => ⟨fun h1 => ((img z).1 h1).1, fun h1 => (img z).2 ⟨h1, hne z h1⟩⟩)
        (fun s' hs' => hpass s' (by rw [List.dropLast_cons₂]; exact List.mem_cons_of_mem _ hs')) y
      intro z hz
      obtain ⟨h1, -, a, ha, hb⟩ := (img z).2 ⟨hz, hne z hz⟩
      obtain ⟨_, _, a2, ha2, hb2⟩ := hz
      rw [c2] at hb
      rw [c1] at hb2
      obtain ⟨c, hc, hw⟩ := hb
      obtain ⟨c', hc', hw'⟩ := hb2
      exact ⟨((hA a2 ha2).1.step hc').trans hw', ((hA a ((hAA a).1 ha)).2.1.step hc).trans hw, hne z ⟨by assumption, by assumption, a2, ha2, by rw [c1]; exact ⟨c', hc', hw'⟩⟩⟩

theorem steps_map {env : Env} : ∀ cx : Complex, steps h r env cx = cx.map (step h r env)
  | [] => by simp [steps]
  | s :: l => by simp [steps, steps_map l]

/-- Nodes and their order afterwards. -/
theorem Spec.Melted.start (m : Melted h h' r p x) (wf : TreeWF h r) (wf' : TreeWF h' r) (hr : r ≠ x) {S : List Nat} (hS : Nodes h r S) (hs : DocSorted h r S)
    (hx : x ∉ S) : Nodes h' r S ∧ DocSorted h' r S := by
  have hne : ∀ y ∈ S, y ≠ x := by rintro y hy rfl; exact hx hy
  have hin : ∀ y ∈ S, Within h' r y := fun y hy => (m.up wf .self hr (hS y hy).1).1 (hne y hy) (by
    rcases (hS y hy).2 with h1 | h1
    · exact .inl h1
    · exact .inr fun h2 => child_ne_root wf (m.inside.step m.kid) h2 h1)
  refine ⟨fun y hy => ⟨hin y hy, by unfold Heap.isElem; rw [(m.data y).1]; exact (hS y hy).2⟩, hs.imp_of_mem fun {a b} ha hb hab => ?_⟩
  rcases before_trichotomy wf' (hin a ha) (hin b hb) with h1 | rfl | h1
  · exact h1
  · exact absurd hab (before_irrefl wf (hS a ha).1)
  · exact absurd (m.before wf hr (hS b hb).1 (hne b hb) h1) (before_asymm wf (hS a ha).1 (hS b hb).1 hab)

/-- Nodes and their order before. -/
theorem Spec.Melted.start_back (m : Melted h h' r p x) (wf : TreeWF h r) (hr : r ≠ x) {S : List Nat} (hS : Nodes h' r S) (hs : DocSorted h' r S) :
    Nodes h r S ∧ DocSorted h r S ∧ x ∉ S := by
  have hin : ∀ y ∈ S, Within h r y ∧ y ≠ x := fun y hy => m.down wf .self hr (hS y hy).1
  refine ⟨fun y hy => ⟨(hin y hy).1, ?_⟩, hs.imp_of_mem fun {a b} ha hb hab => m.before wf hr (hin a ha).1 (hin a ha).2 hab, fun hx => (hin x hx).2 rfl⟩
  have h1 := (hS y hy).2
  unfold Heap.isElem at h1 ⊢
  rwa [(m.data y).1] at h1

theorem Spec.Melted.wf' (m : Melted h h' r p x) (ok' : HeapOk h' D) (hD : ¬ D r) (wf : TreeWF h r) (hsz : h'.size = h.size) : TreeWF h' r :=
  ok'.tree (by rw [(m.data r).1]; exact wf.rootKind) hD (by rw [hsz]; exact wf.bound r .self)

/-- **C103, the two trees**: a search from nodes other than `x` by names, classes and attributes, with descendant combinators, whose compounds before the last do not
fit `x`: when `x` has given way to its element children the answer is the one before without `x`, in the same order. -/
theorem C103_melted (ok' : HeapOk h' D) (hD : ¬ D r) (wf : TreeWF h r) (hsz : h'.size = h.size) (ev : Metas h r) (m : Melted h h' r p x)
    {S : List Nat} (hS : Nodes h r S) (hs : DocSorted h r S) (hxS : x ∉ S)
    {cx : Complex} (ho : Own cx) (hd : ∀ s ∈ cx, s.1 = Comb.childrenAll) (env env' : Env) (hpass : ∀ s ∈ cx.dropLast, ¬ cmpdSat h r env s.2 x) :
    ∃ res, find h env S [cx] = .ok res ∧ find h' env' S [cx] = .ok (res.filter (· ≠ x)) := by
  have hrx : r ≠ x := (elem_ne_root wf m.tag).symm
  have wf' : TreeWF h' r := m.wf' ok' hD wf hsz
  obtain ⟨hS', hs'⟩ := m.start wf wf' hrx hS hs hxS
  have hdown := fun {y : Nat} (hy : Within h' r y) => m.down wf .self hrx hy
  have ev' : Metas h' r := fun y hy he => by
    rw [(m.data y).2.2.1]
    refine ev y (hdown hy).1 ?_
    unfold Heap.isElem at he ⊢
    rwa [(m.data y).1] at he
  obtain ⟨res, hf⟩ := C19_find_basic_descendants (env := env) wf ev ho.basic hd hS hs
  obtain ⟨res', hf'⟩ := C19_find_basic_descendants (env := env') wf' ev' ho.basic hd hS' hs'
  refine ⟨res, hf, hf'.trans (congrArg _ ?_)⟩
  have o1 := (C18_find_descendants wf ev (basic_findOk ho.basic (by simp)) hd hS hs hf).1
  have o2 := (C18_find_descendants wf' ev' (basic_findOk ho.basic (by simp)) hd hS' hs' hf').1
  have hin : ∀ y ∈ res', Within h' r y := fun y hy => (C17_find_elements (ph := .sorted) wf' ev' (basic_findOk ho.basic (by simp)) hS' hs' hf' y hy).1
  refine docSorted_ext (h := h) (r := r) ?_ (o1.filter _) (fun y hy => (hdown (hin y hy)).1) (fun y => ?_) wf
  · exact o2.imp_of_mem fun {a b} ha _ hab => m.before wf hrx (hdown (hin a ha)).1 (hdown (hin a ha)).2 hab
  · rw [C17_find_basic wf' ev' ho.basic hS' hs' hf' y, List.mem_filter, C17_find_basic wf ev ho.basic hS hs hf y]
    rw [m.sel (A := (· ∈ S)) (A' := (· ∈ S)) (st := steps h r env cx) wf wf' hrx ?_ ?_ (fun _ => Iff.rfl) ?_ y]
    · simp
    · refine (own_steps (h := h) (h' := h') (r := r) (env := env) (env' := env') (V := fun _ => True)
        (fun y _ => ⟨(m.data y).1, (m.data y).2.1, (m.data y).2.2.1⟩) (fun s hs => (ho.2 s hs).2.2)).imp ?_
      rintro s t ⟨h1, h2, h3⟩
      obtain ⟨u, hu, he⟩ := List.mem_map.1 h2
      have h4 : s.1 = .childrenAll := he ▸ hd u hu
      exact ⟨h4, h1 ▸ h4, fun y => h3 y trivial⟩
    · exact fun y hy => ⟨(hS y hy).1, (hS' y hy).1, by rintro rfl; exact hxS hy⟩
    · intro s hs
      rw [steps_map, ← List.map_dropLast] at hs
      obtain ⟨⟨c, ss⟩, hu, rfl⟩ := List.mem_map.1 hs
      simpa [step] using hpass _ hu

/-- The way down to `p` stays when the lists above `p` do. -/
theorem within_stays (wf : TreeWF h r) (hp : Within h r p) (hk : ∀ q, Within h r q → Within h q p → q ≠ p → h'.kids q = h.kids q) : Within h' r p := by
  have key : ∀ y, Within h r y → Within h y p → Within h' r y := by
    intro y hy
    induction hy with
    | self => exact fun _ => .self
    | @step q c hq hc ih =>
      intro hcp
      refine (ih ((Within.self.step hc).trans hcp)).step ?_
      rw [hk q hq ((Within.self.step hc).trans hcp)]
      · exact hc
      · rintro rfl
        exact not_below_self wf hq ⟨c, hc, hcp⟩
  exact key p hp .self

theorem same_symm (hs : SameData h h') : SameData h' h := fun y =>
  ⟨(hs y).1.symm, (hs y).2.1.symm, (hs y).2.2.1.symm, (hs y).2.2.2.1.symm, (hs y).2.2.2.2.symm⟩

/-- A node without a parent is not in the tree of another. -/
theorem loose_out (wf : TreeWF h r) {w : Nat} (hw : (h.node w).kind = .tag) (hpw : h.parent w = none) : ¬ Within h r w := by
  intro h1
  cases h1 with
  | self => rw [wf.rootKind] at hw; cases hw
  | step hp hc => rw [parent_of_child wf hp hc] at hpw; cases hpw

theorem tables_data (hs : SameData h h') (hsz : h'.size = h.size) (t : Tables h) : Tables h' := fun y hy he => by
  rw [(hs y).2.2.1]
  refine t y (by omega) ?_
  unfold Heap.isElem at he ⊢
  rwa [(hs y).1] at he

variable {e : Ext} {cx : Complex} {env env' : Env} {A B S : List Nat}

/-- **C103, an element gives way to its children** (`C100_dissolve`): the answer is the one before without that element. -/
theorem C103_dissolve (ok : HeapOk h D) (hD : ¬ D r) (wf : TreeWF h r) (t : Tables h) (hS : Nodes h r S) (hs : DocSorted h r S) (hxS : x ∉ S) (hp : Within h r p) (hkp : h.kids p = A ++ x :: B)
    (hx : (h.node x).kind = .tag) (ho : Own cx) (hd : ∀ s ∈ cx, s.1 = Comb.childrenAll) (hpass : ∀ s ∈ cx.dropLast, ¬ cmpdSat h r env s.2 x) :
    ∃ h1 h2 res, insertAll e .afterEnd (h.children x) h [x] = .ok h1 ∧ removeAll h1 [x] = .ok h2 ∧ find h env S [cx] = .ok res ∧
      find h2 env' S [cx] = .ok (res.filter (· ≠ x)) := by
  obtain ⟨h1, h2, r1, r2, k1, -, k3, k6, k7, k8⟩ := C100_dissolve (e := e) ok (within_live ok hD hp) hkp hx
  have m : Melted h h2 r p x := ⟨hp, ⟨A, B, hkp, k1⟩, isElem_tag.2 hx, fun q hq => k3 q (within_live ok hD hq), k6⟩
  obtain ⟨res, f1, f2⟩ := C103_melted k7 hD wf k8 (fun y hy => t y (wf.bound y hy)) m hS hs hxS ho hd env env' hpass
  exact ⟨h1, h2, res, r1, r2, f1, f2⟩

/-- **C103, neighbours put into a new element** (`C91_wrap_all`): the answer is the one before, and perhaps the new element. -/
theorem C103_wrap (ok : HeapOk h D) (hD : ¬ D r) (wf : TreeWF h r) (t : Tables h) (hS : Nodes h r S) (hs : DocSorted h r S) {w : Nat} {M : List Nat} (hp : Within h r p)
    (hkp : h.kids p = A ++ ((x :: M) ++ B)) (hw : (h.node w).kind = .tag) (hb : w < h.size) (hpw : h.parent w = none) (hxw : x ≠ w) (hab : ¬ Above h w x)
    (hwe : h.kids w = []) (hal : ∀ n ∈ x :: M, e.allow (h.tagNames w) n = true) (hel : ∀ n ∈ x :: M, (h.node n).kind = .tag)
    (ho : Own cx) (hd : ∀ s ∈ cx, s.1 = Comb.childrenAll) (hpass : ∀ s ∈ cx.dropLast, ¬ cmpdSat h r env s.2 w) :
    ∃ h1 h2 res, insertAll e .beforeBegin [w] h [x] = .ok h1 ∧ appendEach e w h1 (x :: M) = .ok h2 ∧ find h2 env' S [cx] = .ok res ∧
      find h env S [cx] = .ok (res.filter (· ≠ w)) := by
  have hDp := within_live ok hD hp
  have hnd := ok.kids_nodup hDp
  rw [hkp] at hnd
  obtain ⟨nA, nMB, dA⟩ := List.nodup_append.1 hnd
  obtain ⟨nM, nB, dM⟩ := List.nodup_append.1 nMB
  have hlk : ∀ n ∈ x :: M, n ∈ h.kids p := fun n hn => by rw [hkp]; simp only [List.mem_append]; exact .inr (.inl hn)
  obtain ⟨h1, h2, r1, r2, k1, k2, k3, k6, k7, k8⟩ := C91_wrap_all_partial (e := e) ok hDp (B := M ++ B) hkp (hel x (by simp)) hw hb hpw hxw hab nM hlk hal
  have hA : A.filter (· ∉ x :: M) = A := List.filter_eq_self.2 fun c hc => by
    simp only [decide_eq_true_eq]
    exact fun h4 => dA c hc c (List.mem_append_left _ h4) rfl
  have hMB : (x :: (M ++ B)).filter (· ∉ x :: M) = B := by
    rw [← List.cons_append, List.filter_append]
    have e1 : (x :: M).filter (· ∉ x :: M) = [] := List.filter_eq_nil_iff.2 fun c hc => by
      simp only [decide_eq_true_eq]
      exact fun h4 => h4 hc
    have e2 : B.filter (· ∉ x :: M) = B := List.filter_eq_self.2 fun c hc => by
      simp only [decide_eq_true_eq]
      exact fun h4 => dM c h4 c hc rfl
    rw [e1, e2, List.nil_append]
  rw [hA, hMB] at k1
  rw [hwe, List.nil_append] at k2
  have hwo := loose_out wf hw hpw
  have hp2 : Within h2 r p := within_stays wf hp fun q hq _ hqp => k3 q (within_live ok hD hq) hqp (by rintro rfl; exact hwo hq)
  have wf2 : TreeWF h2 r := k7.tree (by rw [(k6 r).1]; exact wf.rootKind) hD (by rw [k8]; exact wf.bound r .self)
  have hw2 : (h2.node w).kind = .tag := (k6 w).1.trans hw
  have hch : (h2.kids w).filter h2.isElem = x :: M := by
    rw [k2]
    exact List.filter_eq_self.2 fun c hc => isElem_tag.2 ((k6 c).1.trans (hel c hc))
  have m : Melted h2 h r p w := ⟨hp2, ⟨A, B, k1, by rw [hch, hkp]⟩, isElem_tag.2 hw2, fun q hq hqp hqw => (k3 q (within_live k7 hD hq) hqp hqw).symm, same_symm k6⟩
  obtain ⟨hS2, hs2, hwS⟩ := m.start_back wf2 (by rintro rfl; exact hwo .self) hS hs
  obtain ⟨res, f1, f2⟩ := C103_melted ok hD wf2 k8.symm (fun y hy => tables_data k6 k8 t y (wf2.bound y hy)) m hS2 hs2 hwS ho hd env' env fun s hs h3 =>
    hpass s hs ((own_cmpd ⟨(k6 w).1, (k6 w).2.1, (k6 w).2.2.1⟩ (ho.2 s (List.dropLast_subset _ hs)).2.2).1 h3)
  exact ⟨h1, h2, res, r1, r2, f1, f2⟩

/-- **C103, an element gets another name** (`C101_rename`): apart from the element that went and the one that came the answer is the one before. -/
theorem C103_rename (ok : HeapOk h D) (hD : ¬ D r) (wf : TreeWF h r) (t : Tables h) (hS : Nodes h r S) (hs : DocSorted h r S) (hxS : x ∉ S) {w : Nat} (hp : Within h r p) (hkp : h.kids p = A ++ x :: B)
    (hx : (h.node x).kind = .tag) (hw : (h.node w).kind = .tag) (hb : w < h.size) (hpw : h.parent w = none) (hxw : x ≠ w) (hab : ¬ Above h w x)
    (hwe : h.kids w = []) (hal : ∀ n ∈ h.children x, e.allow (h.tagNames w) n = true) (ho : Own cx) (hd : ∀ s ∈ cx, s.1 = Comb.childrenAll)
    (hpass : ∀ s ∈ cx.dropLast, ¬ cmpdSat h r env s.2 x ∧ ¬ cmpdSat h r env s.2 w) :
    ∃ h1 h2 h3 res res', insertAll e .afterEnd [w] h [x] = .ok h1 ∧ insertAll e .afterBegin (h1.children x) h1 [w] = .ok h2 ∧ removeAll h2 [x] = .ok h3 ∧
      find h env S [cx] = .ok res ∧ find h3 env' S [cx] = .ok res' ∧ res'.filter (· ≠ w) = res.filter (· ≠ x) := by
  have hDp := within_live ok hD hp
  obtain ⟨h1, h2, h3, r1, r2, r3, k1, k2, k3, k4, k5, k6, -⟩ := C101_rename (rd := rd0) (e := e) ok hDp hkp hx hw hb hpw hxw hab hwe hal
  obtain ⟨g1, g2, -, -, l1, l2, l3, l4, l5, l6⟩ := C100_dissolve (e := e) ok hDp hkp hx
  have hxk : x ∈ h.kids p := by rw [hkp]; simp
  have hwo := loose_out wf hw hpw
  have hp3 : Within h3 r p := by
    refine within_stays wf hp fun q hq hqw hqp => k3 q (within_live ok hD hq) hqp ?_ (by rintro rfl; exact hwo hq)
    rintro rfl
    exact not_below_self wf hp ⟨q, hxk, hqw⟩
  have wf3 : TreeWF h3 r := k5.tree (by rw [(k4 r).1]; exact wf.rootKind) hD (by rw [k6]; exact wf.bound r .self)
  have hxe := isElem_tag.2 hx
  have hxo : ¬ Within h3 r x := by
    intro h4
    have hrx := elem_ne_root wf hxe
    cases h4 with
    | self => exact hrx rfl
    | @step q _ hq hc =>
      have hDq := within_live k5 hD hq
      by_cases hqp : q = p
      · subst hqp
        have hnd := ok.kids_nodup hDp
        rw [hkp] at hnd
        rw [k1] at hc
        simp only [List.mem_append, List.mem_cons] at hc
        rcases hc with hc | hc | hc
        · exact (List.nodup_append.1 hnd).2.2 x hc x (by simp) rfl
        · exact hxw hc
        · exact (List.nodup_cons.1 (List.nodup_append.1 hnd).2.1).1 hc
      · by_cases hqx : q = x
        · subst hqx
          exact not_below_self wf3 hq ⟨q, hc, .self⟩
        · by_cases hqw : q = w
          · subst hqw
            rw [k2] at hc
            exact not_below_self wf (hp.step hxk) ⟨x, (List.mem_filter.1 hc).1, .self⟩
          · rw [k3 q hDq hqp hqx hqw] at hc
            exact hqp (ok.kid_unique hDq hDp hc hxk)
  have hch : (h3.kids w).filter h3.isElem = h.children x := by
    rw [k2]
    refine List.filter_eq_self.2 fun c hc => ?_
    rw [isElem_data k4 c]
    exact (List.mem_filter.1 hc).2
  have m : Melted h g2 r p x := ⟨hp, ⟨A, B, hkp, l1⟩, hxe, fun q hq => l3 q (within_live ok hD hq), l4⟩
  have m' : Melted h3 g2 r p w := ⟨hp3, ⟨A, B, k1, by rw [hch]; exact l1⟩, isElem_tag.2 ((k4 w).1.trans hw), fun q hq hqp hqw => by
    have hDq := within_live k5 hD hq
    have hqx : q ≠ x := by rintro rfl; exact hxo hq
    rw [l3 q hDq hqp hqx, k3 q hDq hqp hqx hqw], (same_symm k4).trans l4⟩
  obtain ⟨hSg, hsg⟩ := m.start wf (m.wf' l5 hD wf l6) (elem_ne_root wf hxe).symm hS hs hxS
  obtain ⟨hS3, hs3, hwS⟩ := m'.start_back wf3 (by rintro rfl; exact hwo .self) hSg hsg
  obtain ⟨res, f1, f2⟩ := C103_melted l5 hD wf l6 (fun y hy => t y (wf.bound y hy)) m hS hs hxS ho hd env env' fun s hs => (hpass s hs).1
  obtain ⟨res', f3, f4⟩ := C103_melted l5 hD wf3 (l6.trans k6.symm) (fun y hy => tables_data k4 k6 t y (wf3.bound y hy)) m' hS3 hs3 hwS ho hd env' env' fun s hs h4 =>
    (hpass s hs).2 ((own_cmpd ⟨(k4 w).1, (k4 w).2.1, (k4 w).2.2.1⟩ (ho.2 s (List.dropLast_subset _ hs)).2.2).1 h4)
  rw [f2] at f4
  exact ⟨h1, h2, h3, res, res', r1, r2, r3, f1, f3, (Except.ok.inj f4).symm⟩

/-- Two children of a node with `x` below or at both are one. -/
theorem one_way (wf : TreeWF h r) {q c d y : Nat} (hq : Within h r q) (hc : c ∈ h.kids q) (hd : d ∈ h.kids q) (h1 : Within h c y) (h2 : Within h d y) : c = d := by
  obtain ⟨i, hi⟩ := List.getElem?_of_mem hc
  obtain ⟨j, hj⟩ := List.getElem?_of_mem hd
  have hy := (hq.step hc).trans h1
  rcases Nat.lt_trichotomy i j with h3 | rfl | h3
  · exact absurd (.inr ⟨q, i, j, c, d, hq, h3, hi, hj, h1, h2⟩) (before_irrefl wf hy)
  · rw [hi] at hj; exact Option.some.inj hj
  · exact absurd (.inr ⟨q, j, i, d, c, hq, h3, hj, hi, h2, h1⟩) (before_irrefl wf hy)

/-- The way down to `x` stays when the lists above do, apart from what follows `x`. -/
theorem way_front (wf : TreeWF h r) {B' : List Nat} (hp : Within h r p) (hkp : h.kids p = A ++ x :: B) (hkp' : h'.kids p = A ++ x :: B')
    (hk : ∀ q, Within h r q → Before h r q x → q ≠ p → h'.kids q = h.kids q) :
    ∀ q, Within h r q → ∀ y, Within h q y → Within h y x → Within h' q y := by
  have hxk : x ∈ h.kids p := by rw [hkp]; simp
  intro q hq y hy
  induction hy with
  | self => exact fun _ => .self
  | @step z c hz hc ih =>
    intro hcx
    refine (ih ((Within.self.step hc).trans hcx)).step ?_
    by_cases hzp : z = p
    · subst hzp
      rw [one_way wf hp hc hxk hcx .self, hkp']
      simp
    · rw [hk z (hq.trans hz) (.inl ⟨c, hc, hcx⟩) hzp]; exact hc

theorem paths_front (wf : TreeWF h r) {B' : List Nat} (hp : Within h r p) (hkp : h.kids p = A ++ x :: B) (hkp' : h'.kids p = A ++ x :: B')
    (hk : ∀ q, Within h r q → Before h r q x → q ≠ p → h'.kids q = h.kids q) (hs : SameData h h') :
    KeptPaths h h' r fun y => Within h r y ∧ Within h y x := by
  have hxk : x ∈ h.kids p := by rw [hkp]; simp
  refine ⟨fun y hy => hy.1, fun y hy => way_front wf hp hkp hkp' hk r .self y hy.1 hy.2, ?_, fun y _ => ⟨(hs y).1, (hs y).2.1, (hs y).2.2.1⟩⟩
  rintro y ⟨h1, h2⟩ hne
  cases h1 with
  | self => exact absurd rfl hne
  | @step q _ hq hc =>
    refine ⟨q, ⟨hq, (Within.self.step hc).trans h2⟩, hc, ?_⟩
    by_cases hqp : q = p
    · subst hqp
      rw [one_way wf hp hc hxk h2 .self, hkp']
      simp
    · rw [hk q hq (.inl ⟨y, hc, h2⟩) hqp]; exact hc

/-- What comes before `x` still does when only the lists of its parent, behind it, and of `x` and what follows change. -/
theorem before_front (wf : TreeWF h r) {B' : List Nat} (hp : Within h r p) (hkp : h.kids p = A ++ x :: B) (hkp' : h'.kids p = A ++ x :: B')
    (hk : ∀ q, Within h r q → Before h r q x → q ≠ p → h'.kids q = h.kids q) {a : Nat} (har : Within h r a) (ha : Before h r a x) : Before h' r a x := by
  have hxk : x ∈ h.kids p := by rw [hkp]; simp
  have way := way_front wf hp hkp hkp' hk
  rcases ha with ⟨c, hc, hw⟩ | ⟨q, i, j, c, d, hq, hij, hi, hj, h1, h2⟩
  · by_cases hax : a = p
    · subst hax
      exact .inl ⟨x, by rw [hkp']; simp, .self⟩
    · exact .inl ⟨c, by rw [hk a har (.inl ⟨c, hc, hw⟩) hax]; exact hc, way c (har.step hc) x hw .self⟩
  · have hd := List.mem_of_getElem? hj
    have hc := List.mem_of_getElem? hi
    have hsub : ∀ y, Within h c y → Within h' c y := by
      intro y hy
      induction hy with
      | self => exact .self
      | @step z e hz he ih =>
        refine ih.step ?_
        rw [hk z ((hq.step hc).trans hz) (.inr ⟨q, i, j, c, d, hq, hij, hi, hj, hz, h2⟩)]
        · exact he
        · rintro rfl
          exact before_irrefl wf (hp.step hxk) (.inr ⟨q, i, j, c, d, hq, hij, hi, hj, hz.step hxk, h2⟩)
    have hq' := way r .self q hq ((Within.self.step hd).trans h2)
    have hd' := way d (hq.step hd) x h2 .self
    by_cases hqp : q = p
    · subst hqp
      have hdx := one_way wf hp hd hxk h2 .self
      subst hdx
      have e1 := (wf.link q j d hq hj).2
      have e2 := (wf.link q A.length d hq (by rw [hkp]; simp)).2
      have hlt : i < A.length := by omega
      refine .inr ⟨q, i, A.length, c, d, hq', hlt, ?_, by rw [hkp']; simp, hsub a h1, .self⟩
      rw [hkp, List.getElem?_append_left hlt] at hi
      rw [hkp', List.getElem?_append_left hlt, hi]
    · have e1 := hk q hq (.inl ⟨d, hd, h2⟩) hqp
      exact .inr ⟨q, i, j, c, d, hq', hij, by rw [e1]; exact hi, by rw [e1]; exact hj, hsub a h1, hd'⟩

/-- **C103, an element divided in two** (`C101_split`): the answer is the one before, and perhaps the second half. -/
theorem C103_split (ok : HeapOk h D) (hD : ¬ D r) (wf : TreeWF h r) (t : Tables h) (hS : Nodes h r S) (hs : DocSorted h r S) (hxS : x ∉ S) {w : Nat} {L M : List Nat} (hp : Within h r p) (hkp : h.kids p = A ++ x :: B)
    (hx : (h.node x).kind = .tag) (hw : (h.node w).kind = .tag) (hb : w < h.size) (hpw : h.parent w = none) (hxw : x ≠ w) (hab : ¬ Above h w x)
    (hwe : h.kids w = []) (hkx : h.kids x = L ++ M) (hal : ∀ n ∈ M, e.allow (h.tagNames w) n = true) (ho : Own cx) (hd : ∀ s ∈ cx, s.1 = Comb.childrenAll)
    (hpass : ∀ s ∈ cx.dropLast, ¬ cmpdSat h r env s.2 x ∧ ¬ cmpdSat h r env s.2 w) :
    ∃ h1 h2 res res', insertAll e .afterEnd [w] h [x] = .ok h1 ∧ insertAll e .afterBegin M h1 [w] = .ok h2 ∧
      find h env S [cx] = .ok res ∧ find h2 env' S [cx] = .ok res' ∧ res'.filter (· ≠ w) = res := by
  have hDp := within_live ok hD hp
  obtain ⟨h1, h2, r1, r2, k1, k2, k3, k4, k5, k6, k7⟩ := C101_split (e := e) ok hDp hkp hx hw hb hpw hxw hab hkx hal
  rw [hwe, List.append_nil] at k3
  have hxk : x ∈ h.kids p := by rw [hkp]; simp
  have hwo := loose_out wf hw hpw
  have hxp : x ≠ p := ok.parent_ne (ok.kid_parent hDp hxk)
  have hp2 : Within h2 r p := by
    refine within_stays wf hp fun q hq hqw hqp => k4 q (within_live ok hD hq) hqp ?_ (by rintro rfl; exact hwo hq)
    rintro rfl
    exact not_below_self wf hp ⟨q, hxk, hqw⟩
  have wf2 : TreeWF h2 r := k6.tree (by rw [(k5 r).1]; exact wf.rootKind) hD (by rw [k7]; exact wf.bound r .self)
  have hw2 : (h2.node w).kind = .tag := (k5 w).1.trans hw
  have k1' : h2.kids p = (A ++ [x]) ++ w :: B := by rw [k1]; simp
  obtain ⟨u1, u2, -, -, l1, -, l3, l4, l5, l6⟩ := C100_dissolve (e := e) ok hDp hkp hx
  obtain ⟨g1, g2, -, -, n1, -, n3, n4, n5, n6⟩ := C100_dissolve (e := e) k6 hDp k1' hw2
  have m1 : Melted h u2 r p x := ⟨hp, ⟨A, B, hkp, l1⟩, isElem_tag.2 hx, fun q hq => l3 q (within_live ok hD hq), l4⟩
  have m2 : Melted h2 g2 r p w := ⟨hp2, ⟨A ++ [x], B, k1', n1⟩, isElem_tag.2 hw2, fun q hq => n3 q (within_live k6 hD hq), n4⟩
  have hrw : r ≠ w := by rintro rfl; exact hwo .self
  have wfg : TreeWF g2 r := n5.tree (by rw [(n4 r).1, (k5 r).1]; exact wf.rootKind) hD (by rw [n6, k7]; exact wf.bound r .self)
  have hpg : Within g2 r p := by
    refine (m2.up wf2 .self hrw hp2).1 (m2.ne wf2) (.inr fun h4 => ?_)
    exact not_below_self wf2 hp2 ⟨w, m2.kid, .step .self h4⟩
  have dg := k5.trans n4
  have hgx : (g2.kids x).filter g2.isElem = L.filter h.isElem := by
    rw [n3 x (within_live ok hD (hp.step hxk)) hxp hxw, k2]
    exact List.filter_congr fun c _ => isElem_data dg c
  have hgw : h2.children w = M.filter h.isElem := by
    unfold Heap.children
    rw [k3]
    exact List.filter_congr fun c _ => isElem_data k5 c
  have m3 : Melted g2 u2 r p x := by
    refine ⟨hpg, ⟨A, h2.children w ++ B, by rw [n1]; simp, ?_⟩, isElem_tag.2 ((dg x).1.trans hx), fun q hq hqp hqx => ?_, (same_symm dg).trans l4⟩
    · rw [l1, hgx, hgw]
      unfold Heap.children
      rw [hkx, List.filter_append, List.append_assoc]
    · have hDq := within_live n5 hD hq
      have hqw := (m2.down wf2 .self hrw hq).2
      rw [l3 q hDq hqp hqx, n3 q hDq hqp hqw, k4 q hDq hqp hqx hqw]
  have t2 := tables_data k5 k7 t
  have tg := tables_data n4 n6 t2
  obtain ⟨hSu, hsu⟩ := m1.start wf (m1.wf' l5 hD wf l6) (elem_ne_root wf m1.tag).symm hS hs hxS
  obtain ⟨hSg, hsg, hxg⟩ := m3.start_back wfg (elem_ne_root wfg m3.tag).symm hSu hsu
  obtain ⟨hS2, hs2, hwS⟩ := m2.start_back wf2 hrw hSg hsg
  obtain ⟨res, f1, f2⟩ := C103_melted l5 hD wf l6 (fun y hy => t y (wf.bound y hy)) m1 hS hs hxS ho hd env env' fun s hs => (hpass s hs).1
  obtain ⟨res', f3, f4⟩ := C103_melted n5 hD wf2 n6 (fun y hy => t2 y (wf2.bound y hy)) m2 hS2 hs2 hwS ho hd env' env' fun s hs h4 =>
    (hpass s hs).2 ((own_cmpd ⟨(k5 w).1, (k5 w).2.1, (k5 w).2.2.1⟩ (ho.2 s (List.dropLast_subset _ hs)).2.2).1 h4)
  obtain ⟨res2, f5, f6⟩ := C103_melted l5 hD wfg (l6.trans (n6.trans k7).symm) (fun y hy => tg y (wfg.bound y hy)) m3 hSg hsg hxg ho hd env' env' fun s hs h4 =>
    (hpass s hs).1 ((own_cmpd ⟨(dg x).1, (dg x).2.1, (dg x).2.2.1⟩ (ho.2 s (List.dropLast_subset _ hs)).2.2).1 h4)
  rw [f4] at f5
  cases f5
  rw [f2] at f6
  have heq := (Except.ok.inj f6).symm
  have ev : Metas h r := fun y hy => t y (wf.bound y hy)
  have ev2 : Metas h2 r := fun y hy => t2 y (wf2.bound y hy)
  have hxw' := hp.step hxk
  have hxe := isElem_tag.2 hx
  have hrx := (elem_ne_root wf hxe).symm
  have wfu := m1.wf' l5 hD wf l6
  have o1 := (C18_find_descendants wf ev (basic_findOk ho.basic (by simp)) hd hS hs f1).1
  have o2 := (C18_find_descendants wf2 ev2 (basic_findOk ho.basic (by simp)) hd hS2 hs2 f3).1
  have hin : Elems h2 r res' := C17_find_elements (ph := .sorted) wf2 ev2 (basic_findOk ho.basic (by simp)) hS2 hs2 f3
  have hxk2 : x ∈ h2.kids p := by rw [k1]; simp
  have hx2 := hp2.step hxk2
  have hw2w : Within h2 r w := hp2.step (by rw [k1]; simp)
  -- what stands before `x`
  have front : ∀ q, Within h r q → Before h r q x → q ≠ p → h2.kids q = h.kids q := fun q hq hb hqp =>
    k4 q (within_live ok hD hq) hqp (by rintro rfl; exact before_irrefl wf hq hb) (by rintro rfl; exact hwo hq)
  have front2 : ∀ q, Within h2 r q → Before h2 r q x → q ≠ p → h.kids q = h2.kids q := fun q hq hbq hqp =>
    (k4 q (within_live k6 hD hq) hqp (by rintro rfl; exact before_irrefl wf2 hq hbq) (by
      rintro rfl
      exact before_asymm wf2 hq hx2 hbq (.inr ⟨p, A.length, A.length + 1, x, q, hp2, by omega, by rw [k1]; simp, by
        rw [k1, List.getElem?_append_right (by omega)]; simp, .self, .self⟩))).symm
  have inh : ∀ y ∈ res', y ≠ w → Within h r y := fun y hy hyw => by
    by_cases hyx : y = x
    · subst hyx; exact hxw'
    · obtain ⟨hyw2, hye⟩ := hin y hy
      obtain ⟨s1, s2⟩ := m2.start wf2 wfg hrw (S := [y]) (fun z hz => by rw [List.mem_singleton.1 hz]; exact ⟨hyw2, .inl hye⟩) (docSorted_single y)
        (by simpa using Ne.symm hyw)
      obtain ⟨s3, s4⟩ := m3.start wfg wfu (elem_ne_root wfg m3.tag).symm s1 s2 (by simpa using Ne.symm hyx)
      exact ((m1.start_back wf hrx s3 s4).1 y (by simp)).1
  refine ⟨h1, h2, res, res', r1, r2, f1, f3, docSorted_ext (h := h) (r := r) ?_ o1 (fun y hy => ?_) (fun y => ?_) wf⟩
  · refine (o2.filter _).imp_of_mem fun {a b} ha hb hbef => ?_
    obtain ⟨ha, haw⟩ := List.mem_filter.1 ha
    obtain ⟨hb, hbw⟩ := List.mem_filter.1 hb
    have haw : a ≠ w := by simpa using haw
    have hbw : b ≠ w := by simpa using hbw
    by_cases hax : a = x
    · subst hax
      rcases before_trichotomy wf hxw' (inh b hb hbw) with h4 | rfl | h4
      · exact h4
      · exact absurd hbef (before_irrefl wf2 hx2)
      · exact absurd (before_front wf hp hkp k1 front (inh b hb hbw) h4) (before_asymm wf2 hx2 (hin b hb).1 hbef)
    · by_cases hbx : b = x
      · subst hbx
        exact before_front wf2 hp2 k1 hkp front2 (hin a ha).1 hbef
      · obtain ⟨s1, s2⟩ := m2.start wf2 wfg hrw (S := [a, b]) (fun z hz => by
          simp only [List.mem_cons, List.not_mem_nil, or_false] at hz
          rcases hz with rfl | rfl
          · exact ⟨(hin z ha).1, .inl (hin z ha).2⟩
          · exact ⟨(hin z hb).1, .inl (hin z hb).2⟩) (List.pairwise_pair.2 hbef) (by simp [Ne.symm haw, Ne.symm hbw])
        obtain ⟨s3, s4⟩ := m3.start wfg wfu (elem_ne_root wfg m3.tag).symm s1 s2 (by simp [Ne.symm hax, Ne.symm hbx])
        exact List.pairwise_pair.1 (m1.start_back wf hrx s3 s4).2.1
  · obtain ⟨hy, hyw⟩ := List.mem_filter.1 hy
    exact inh y hy (by simpa using hyw)
  · by_cases hyx : y = x
    · subst hyx
      have kp := paths_front wf hp hkp k1 front k5
      rw [List.mem_filter, C17_find_basic wf ev ho.basic hS hs f1, C17_find_basic wf2 ev2 ho.basic hS2 hs2 f3]
      rw [kp.sel (A := (· ∈ S)) (A' := (· ∈ S)) (st' := steps h2 r env' cx) wf wf2 ?_ (fun z hz => (hS z hz).1) (fun z hz => (hS2 z hz).1) (fun _ _ => Iff.rfl) y ⟨hxw', .self⟩]
      · simp [hxw]
      · refine (own_steps kp.data (fun s hs => (ho.2 s hs).2.2)).imp ?_
        rintro s t ⟨g1, g2, g3⟩
        obtain ⟨u, hu, he⟩ := List.mem_map.1 g2
        exact ⟨g1, .inl (he ▸ hd u hu), g3⟩
    · have := congrArg (y ∈ ·) heq
      simpa [List.mem_filter, hyx] using this

end
/-! ## The hypotheses are satisfiable -/

theorem places_wf : TreeWF places 0 := places_ok.tree rfl id (by decide)
theorem spare_wf : TreeWF spare 0 := spare_ok.tree rfl id (by decide)

theorem places_tables : Tables places := fun x hx _ => by
  have : ∀ x < 9, metaCheck (places.node x).attrs = true := by decide
  exact metaCheck_sound (this x hx)

theorem spare_tables : Tables spare := fun x hx _ => by
  have : ∀ x < 6, metaCheck (spare.node x).attrs = true := by decide
  exact metaCheck_sound (this x hx)

/-- `div li` -/
def divLi : Complex := [(.childrenAll, [ty "div"]), (.childrenAll, [ty "li"])]

theorem divLi_own : Own divLi := ⟨by decide, by decide⟩

/-- Neither the `ul` nor the new `u` is a `div`. -/
theorem divLi_pass {x : Nat} (hx : x = 4 ∨ x = 7) : ∀ s ∈ divLi.dropLast, ¬ cmpdSat places 0 env0 s.2 x := by
  intro s hs
  have : s = (.childrenAll, [ty "div"]) := by simpa [divLi] using hs
  subst this
  rintro ⟨h1, -⟩
  have h2 : Named places "div".toList x := by simpa [ty, Sim.Sat] using h1
  revert h2
  rcases hx with rfl | rfl <;> (unfold Named; decide)

/-- `<div><p/>x<ul><li/><li/></ul></div>` and `find("div li")`: the `ul` gives way, gets another name, and is divided; the second item gets an element around it. -/
example : (∃ h1 h2, insertAll ext0 .afterEnd [5, 6] places [4] = .ok h1 ∧ removeAll h1 [4] = .ok h2 ∧ find h2 env0 [0] [divLi] = .ok [5, 6]) ∧
    (∃ h1 h2 h3 res', insertAll ext0 .afterEnd [7] places [4] = .ok h1 ∧ insertAll ext0 .afterBegin (h1.children 4) h1 [7] = .ok h2 ∧ removeAll h2 [4] = .ok h3 ∧
      find h3 env0 [0] [divLi] = .ok res' ∧ res'.filter (· ≠ 7) = [5, 6]) ∧
    (∃ h1 h2 res', insertAll ext0 .afterEnd [7] places [4] = .ok h1 ∧ insertAll ext0 .afterBegin [6] h1 [7] = .ok h2 ∧
      find h2 env0 [0] [divLi] = .ok res' ∧ res'.filter (· ≠ 7) = [5, 6]) ∧
    (∃ h1 h2 res', insertAll ext0 .beforeBegin [7] places [6] = .ok h1 ∧ appendEach ext0 7 h1 [6] = .ok h2 ∧
      find h2 env0 [0] [divLi] = .ok res' ∧ res'.filter (· ≠ 7) = [5, 6]) := by
  have ab7 : ¬ Above places 7 4 := above_way [1, 0] 4 (by decide) (by decide) (by decide)
  have ab6 : ¬ Above places 7 6 := above_way [4, 1, 0] 6 (by decide) (by decide) (by decide)
  have w1 : Within places 0 1 := .step (p := 0) .self (by decide)
  have w4 : Within places 0 4 := .step (p := 1) w1 (by decide)
  have hf : find places env0 [0] [divLi] = .ok [5, 6] := by decide
  have hd : ∀ s ∈ divLi, s.1 = Comb.childrenAll := by decide
  refine ⟨?_, ?_, ?_, ?_⟩
  · obtain ⟨h1, h2, res, r1, r2, f1, f2⟩ := C103_dissolve (e := ext0) (env := env0) (env' := env0) places_ok (r := 0) (x := 4) (p := 1) (A := [2, 3]) (B := []) id places_wf
      places_tables (nodes_root places_wf) (docSorted_single 0) (by decide) w1 (by decide) (by decide) divLi_own hd (divLi_pass (.inl rfl))
    rw [hf] at f1
    cases f1
    exact ⟨h1, h2, r1, r2, f2⟩
  · obtain ⟨h1, h2, h3, res, res', r1, r2, r3, f1, f2, f3⟩ := C103_rename (e := ext0) (env := env0) (env' := env0) places_ok (r := 0) (x := 4) (w := 7) (p := 1) (A := [2, 3])
      (B := []) id places_wf places_tables (nodes_root places_wf) (docSorted_single 0) (by decide) w1 (by decide) (by decide) (by decide) (by decide) (by decide) (by decide) ab7 (by decide) (by decide) divLi_own hd
      (fun s hs => ⟨divLi_pass (.inl rfl) s hs, divLi_pass (.inr rfl) s hs⟩)
    rw [hf] at f1
    cases f1
    exact ⟨h1, h2, h3, res', r1, r2, r3, f2, f3⟩
  · obtain ⟨h1, h2, res, res', r1, r2, f1, f2, f3⟩ := C103_split (e := ext0) (env := env0) (env' := env0) places_ok (r := 0) (x := 4) (w := 7) (p := 1) (A := [2, 3])
      (B := []) (L := [5]) (M := [6]) id places_wf places_tables (nodes_root places_wf) (docSorted_single 0) (by decide) w1 (by decide) (by decide) (by decide) (by decide) (by decide) (by decide) ab7 (by decide) (by decide)
      (by decide) divLi_own hd (fun s hs => ⟨divLi_pass (.inl rfl) s hs, divLi_pass (.inr rfl) s hs⟩)
    rw [hf] at f1
    cases f1
    exact ⟨h1, h2, res', r1, r2, f2, f3⟩
  · obtain ⟨h1, h2, res, r1, r2, f1, f2⟩ := C103_wrap (e := ext0) (env := env0) (env' := env0) places_ok (r := 0) (x := 6) (w := 7) (p := 4) (A := [5]) (M := []) (B := []) id
      places_wf places_tables (nodes_root places_wf) (docSorted_single 0) w4 (by decide) (by decide) (by decide) (by decide) (by decide) ab6 (by decide) (by decide) (by decide) divLi_own hd (divLi_pass (.inr rfl))
    rw [hf] at f2
    exact ⟨h1, h2, res, r1, r2, f1, (Except.ok.inj f2).symm⟩

/-- `find("li")` from the `div`, when the `ul` has given way. -/
example : ∃ h1 h2, insertAll ext0 .afterEnd [5, 6] places [4] = .ok h1 ∧ removeAll h1 [4] = .ok h2 ∧ find h2 env0 [1] [[(.childrenAll, [ty "li"])]] = .ok [5, 6] := by
  have w1 : Within places 0 1 := .step (p := 0) .self (by decide)
  obtain ⟨h1, h2, res, r1, r2, f1, f2⟩ := C103_dissolve (e := ext0) (env := env0) (env' := env0) (S := [1]) (cx := [(.childrenAll, [ty "li"])]) places_ok (r := 0) (x := 4)
    (p := 1) (A := [2, 3]) (B := []) id places_wf places_tables (fun y hy => by rw [List.mem_singleton.1 hy]; exact ⟨w1, .inl rfl⟩) (docSorted_single 1) (by decide)
    w1 (by decide) (by decide) ⟨by decide, by decide⟩ (by decide) (by simp)
  have hf : find places env0 [1] [[(.childrenAll, [ty "li"])]] = .ok [5, 6] := by decide
  rw [hf] at f1
  cases f1
  exact ⟨h1, h2, r1, r2, f2⟩

/-- `ul li` and `div > li` -/
def ulLi : Complex := [(.childrenAll, [ty "ul"]), (.childrenAll, [ty "li"])]
def divKidLi : Complex := [(.childrenAll, [ty "div"]), (.children, [ty "li"])]

set_option maxRecDepth 100000 in
/-- **C103 needs its hypotheses**: when the `ul` has given way to its items, `find("ul li")` finds nothing any more, and `find("div > li")`, which found nothing,
finds the items. -/
theorem C103_fails_way : ∃ h1 h2, insertAll ext0 .afterEnd (places.children 4) places [4] = .ok h1 ∧ removeAll h1 [4] = .ok h2 ∧
    find places env0 [0] [ulLi] = .ok [5, 6] ∧ find h2 env0 [0] [ulLi] = .ok [] ∧
    find places env0 [0] [divKidLi] = .ok [] ∧ find h2 env0 [0] [divKidLi] = .ok [5, 6] :=
  ⟨_, _, rfl, rfl, by decide, by decide, by decide, by decide⟩

end Visdom
