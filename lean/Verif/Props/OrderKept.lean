import Verif.Proofs.OrderKept
import Verif.Props.Again
/-!
# C80: what the calls leave alone keeps its order

`Touched`: the call moves the node or takes it out of its tree. `Unmoved`: neither the node nor a node above it is touched by a call of the
history.
-/
namespace Visdom
open Spec

section
variable {h h' : Heap} {r : Nat} {D : Nat → Prop} {e : Ext}

open scoped Classical in
/-- C80, child lists: any history of usable calls; the children of a node which the calls do not touch are its children
afterwards, in the same order, and no other node of the tree has come among them without being touched. -/
theorem C80_children (P : ParseOk e) (ok : HeapOk h D) {ops : List Op} (hh : History e h D ops) (wf : TreeWF h r) (hD : ¬ D r) :
    ∃ h', runAll e h ops = .ok h' ∧ ∀ q, Within h r q → ¬ UsedAll e h D ops q →
      (h'.kids q).filter (fun y => decide (Within h r y ∧ ¬ TouchedAny e h ops y)) = (h.kids q).filter (fun y => decide (¬ TouchedAny e h ops y)) := by
  obtain ⟨h', hr, ok'⟩ := history_ok P ops h D ok hh
  refine ⟨h', hr, fun q hq hU => ?_⟩
  have hDq := within_live ok hD hq
  have hs : ((h.kids q).filter (fun y => decide (¬ TouchedAny e h ops y))).Sublist (h'.kids q) :=
    untouched_order_history P ops h h' D ok hh hr q (wf.bound q hq) hU _ (fun x hx => of_decide_eq_true (List.mem_filter.1 hx).2) List.filter_sublist
  have hs2 := sublist_filter_out (p := fun y => decide (Within h r y ∧ ¬ TouchedAny e h ops y)) (fun x hx => by
    obtain ⟨h1, h2⟩ := List.mem_filter.1 hx
    exact decide_eq_true ⟨hq.step h1, of_decide_eq_true h2⟩) hs
  refine (hs2.eq_of_length_le ?_).symm
  refine List.Nodup.length_le_of_subset ((ok'.kids_nodup hU).filter _) fun y hy => ?_
  obtain ⟨h1, h2⟩ := List.mem_filter.1 hy
  obtain ⟨hw, hn⟩ := of_decide_eq_true h2
  have k := (untouched_history P ops h h' D ok hh hr y (wf.bound y hw) (attached_in ok wf hD hw) hn).1
  rw [ok'.kid_parent hU h1] at k
  exact List.mem_filter.2 ⟨(parent_some wf hw k.symm).2 |> List.mem_of_getElem?, decide_eq_true hn⟩

/-- Two members of a list, one before the other. -/
theorem pair_sublist {l : List Nat} {a b : Nat} : [a, b].Sublist l ↔ ∃ i j : Nat, i < j ∧ l[i]? = some a ∧ l[j]? = some b := by
  constructor
  · intro hs
    obtain ⟨f, hf⟩ := List.sublist_iff_exists_orderEmbedding_getElem?_eq.1 hs
    exact ⟨f 0, f 1, f.strictMono (by omega), by rw [← hf]; rfl, by rw [← hf]; rfl⟩
  · rintro ⟨i, j, hij, hi, hj⟩
    induction l generalizing i j with
    | nil => simp at hi
    | cons x l ih =>
      cases j with
      | zero => omega
      | succ j =>
        rw [List.getElem?_cons_succ] at hj
        cases i with
        | zero =>
          rw [List.getElem?_cons_zero, Option.some.injEq] at hi
          subst hi
          exact .cons_cons _ (List.singleton_sublist.2 (List.mem_of_getElem? hj))
        | succ i =>
          rw [List.getElem?_cons_succ] at hi
          exact .cons _ (ih i j (by omega) hi hj)

/-- C80, document order: of two nodes that stand where they stood, the one that came first comes first. -/
theorem before_kept (P : ParseOk e) (ok : HeapOk h D) {ops : List Op} (hh : History e h D ops) (wf : TreeWF h r) (hD : ¬ D r)
    (hr : runAll e h ops = .ok h') (wf' : TreeWF h' r) (hu : ¬ UsedAll e h D ops r) {a b : Nat} (ha : Unmoved e h ops r a)
    (hb : Unmoved e h ops r b) (hab : Before h r a b) : Before h' r a b := by
  have kp := unmoved_paths P ok hh wf hD hr wf' hu
  rcases hab with ⟨c, hc, hw⟩ | ⟨p, i, j, x, y, hp, hij, hx, hy, h1, h2⟩
  · exact .inl ((kp.rel wf (.inl rfl) ha.1 hb ⟨c, hc, hw⟩).2)
  · have hxk := List.mem_of_getElem? hx
    have hyk := List.mem_of_getElem? hy
    obtain ⟨ux, wx⟩ := kp.above wf (hp.step hxk) h1 ha
    obtain ⟨uy, wy⟩ := kp.above wf (hp.step hyk) h2 hb
    obtain ⟨up, _⟩ := kp.rel wf (.inr rfl) hp ux hxk
    have hpw' := kp.within' p up
    have hUp : ¬ UsedAll e h D ops p := by
      obtain ⟨h2, hr2, ok'⟩ := history_ok P ops h D ok hh
      rw [hr] at hr2
      cases hr2
      exact within_live ok' hu hpw'
    have hs : [x, y].Sublist (h'.kids p) := untouched_order_history P ops h h' D ok hh hr p (wf.bound p hp) hUp [x, y] (fun z hz => by
      simp only [List.mem_cons, List.not_mem_nil, or_false] at hz
      rcases hz with rfl | rfl
      · exact ux.2 _ ux.1 .self
      · exact uy.2 _ uy.1 .self) (pair_sublist.2 ⟨i, j, hij, hx, hy⟩)
    obtain ⟨i', j', k1, k2, k3⟩ := pair_sublist.1 hs
    exact .inr ⟨p, i', j', x, y, hpw', k1, k2, k3, wx, wy⟩

/-- C80: after any history of usable calls, the nodes that stand where they stood are in the document, with the same parent, and in the same
order. -/
theorem C80_order (P : ParseOk e) (ok : HeapOk h D) {ops : List Op} (hh : History e h D ops) (hk : (h.node r).kind = .root) (hb : r < h.size)
    (hD : ¬ D r) (hu : ¬ UsedAll e h D ops r) : ∃ h', runAll e h ops = .ok h' ∧
      (∀ a, Unmoved e h ops r a → Within h' r a ∧ h'.parent a = h.parent a) ∧
      ∀ a b, Unmoved e h ops r a → Unmoved e h ops r b → (Before h' r a b ↔ Before h r a b) := by
  obtain ⟨h', hr, ok'⟩ := history_ok P ops h D ok hh
  have wf := ok.tree hk hD hb
  have hsame := runAll_same P ops h h' hr
  have wf' : TreeWF h' r := ok'.tree (by rw [(hsame.2.1 r hb).1]; exact hk) hu (Nat.lt_of_lt_of_le hb hsame.1)
  have kp := unmoved_paths P ok hh wf hD hr wf' hu
  refine ⟨h', hr, fun a ha => ⟨kp.within' a ha, ?_⟩, fun a b ha hb => ⟨fun hab => ?_, fun hab => ?_⟩⟩
  · exact (untouched_history P ops h h' D ok hh hr a (wf.bound a ha.1) (attached_in ok wf hD ha.1) (ha.2 a ha.1 .self)).1
  · rcases before_trichotomy wf ha.1 hb.1 with h1 | rfl | h1
    · exact h1
    · exact absurd hab (before_irrefl wf' (kp.within' a ha))
    · exact absurd (before_kept P ok hh wf hD hr wf' hu hb ha h1) (before_asymm wf' (kp.within' a ha) (kp.within' b hb) hab)
  · exact before_kept P ok hh wf hD hr wf' hu ha hb hab

open scoped Classical in
/-- C78 for selectors with descendant combinators, from the document, any history of usable calls: both searches answer, and the two answers
hold the same elements that stand where they stood, in the same order. -/
theorem C78_history_list_partial (P : ParseOk e) (T : ParseTables e) (ok : HeapOk h D) (t : Tables h) {ops : List Op} (hh : History e h D ops)
    (hk : (h.node r).kind = .root) (hb : r < h.size) (hD : ¬ D r) (hu : ¬ UsedAll e h D ops r) (hroot : ¬ TouchedAny e h ops r) {cx : Complex}
    (ho : Own cx) (hd : ∀ s ∈ cx, s.1 = Comb.childrenAll) (env env' : Env) :
    ∃ h' res res', runAll e h ops = .ok h' ∧ find h env [r] [cx] = .ok res ∧ find h' env' [r] [cx] = .ok res' ∧
      res'.filter (fun y => decide (Unmoved e h ops r y)) = res.filter (fun y => decide (Unmoved e h ops r y)) := by
  obtain ⟨h', hr, hall⟩ := C78_history_partial P T ok t hh hk hb hD hu ho (fun s hs => .inl (hd s hs))
  obtain ⟨h1, hr1, wf', ev'⟩ := history_ready P T ok t hh hk hb hu
  rw [hr] at hr1
  cases hr1
  have wf := ok.tree hk hD hb
  have ev : Metas h r := fun x hx he => t x (wf.bound x hx) he
  obtain ⟨res, hf⟩ := C19_find_basic_descendants (env := env) wf ev ho.basic hd (nodes_root wf) (docSorted_single r)
  obtain ⟨res', hf'⟩ := C19_find_basic_descendants (env := env') wf' ev' ho.basic hd (nodes_root wf') (docSorted_single r)
  refine ⟨h', res, res', hr, hf, hf', ?_⟩
  have hur : Unmoved e h ops r r := ⟨.self, fun a ha hw => by
    cases hw with
    | self => exact hroot
    | step hp hc => exact absurd rfl (child_ne_root wf (ha.trans hp) hc)⟩
  have hm := hall env env' [r] res res' (nodes_root wf) (docSorted_single r) (nodes_root wf') (docSorted_single r)
    (fun s hs => by rw [List.mem_singleton.1 hs]; exact hur) hf hf'
  have o1 := (C18_find_descendants wf ev (basic_findOk ho.basic (by simp)) hd (nodes_root wf) (docSorted_single r) hf).1
  have o2 := (C18_find_descendants wf' ev' (basic_findOk ho.basic (by simp)) hd (nodes_root wf') (docSorted_single r) hf').1
  have kp := unmoved_paths P ok hh wf hD hr wf' hu
  refine docSorted_ext (h := h') (r := r) (o2.filter _) ?_ (fun y hy => kp.within' y (of_decide_eq_true (List.mem_filter.1 hy).2)) (fun y => ?_) wf'
  · refine (o1.filter _).imp_of_mem fun {a b} ha hb hab => ?_
    exact before_kept P ok hh wf hD hr wf' hu (of_decide_eq_true (List.mem_filter.1 ha).2) (of_decide_eq_true (List.mem_filter.1 hb).2) hab
  · rw [List.mem_filter, List.mem_filter]
    constructor
    · rintro ⟨h1, h2⟩; exact ⟨(hm y (of_decide_eq_true h2)).1 h1, h2⟩
    · rintro ⟨h1, h2⟩; exact ⟨(hm y (of_decide_eq_true h2)).2 h1, h2⟩

end

/-! ### Examples -/

/-- A text goes away, an element comes in front, another one gets a new text. -/
def sampleOps : List Op := [.remove 4, .insert .afterBegin 1 9, .setText 6 "x".toList]

theorem sampleOps_history : History ext0 demo2 noneUsed sampleOps := noneUsed_eq ▸ histB_sound _ _ _ (by decide)

theorem sampleOps_touched : ∀ a ∈ [0, 1, 2, 3, 5, 6, 7, 8], ¬ TouchedAny ext0 demo2 sampleOps a := by
  intro a ha ht
  rcases ht with (h1 | h1) | (⟨_, h1, _⟩ | h1) | (h1 | h1) | h1
  · change a = 4 at h1; revert a; decide
  · exact h1
  · change a ∈ moved _ 9 at h1; revert a; decide
  · change a ∈ moved _ 9 at h1; revert a; decide
  · change a ∈ Heap.kids _ 6 at h1; revert a; decide
  · exact h1
  · exact h1

theorem sampleOps_used : ¬ UsedAll ext0 demo2 noneUsed sampleOps 0 := by
  rintro (h | ⟨h, -⟩)
  · exact h
  · cases h

theorem sampleOps_unmoved : ∀ y ∈ [0, 1, 2, 3, 5, 6, 7, 8], Within demo2 0 y → Unmoved ext0 demo2 sampleOps 0 y := by
  refine fun y hy hw => ⟨hw, fun a ha h1 => sampleOps_touched a ?_⟩
  clear hw
  induction h1 with
  | self => exact hy
  | @step p c hp hc ih =>
    refine ih ?_
    have hpar := parent_of_child demo2_wf (ha.trans hp) hc
    have : ∀ c ∈ [0, 1, 2, 3, 5, 6, 7, 8], ∀ p, demo2.parent c = some p → p ∈ [0, 1, 2, 3, 5, 6, 7, 8] := by
      intro c hc
      simp only [List.mem_cons, List.not_mem_nil, or_false] at hc
      rcases hc with rfl | rfl | rfl | rfl | rfl | rfl | rfl | rfl <;> intro p hp <;> cases hp <;> decide
    exact this c hy p hpar

/-- The children `2`, `4`, `5` of the outer `div`: `4` is removed, `9` comes in front of them, `2` and `5` stay as they were. -/
example : ∃ h', runAll ext0 demo2 sampleOps = .ok h' ∧ demo2.kids 1 = [2, 4, 5] ∧ h'.kids 1 = [9, 2, 5] ∧
    (Before h' 0 2 7 ↔ Before demo2 0 2 7) ∧ Before h' 0 2 7 := by
  have w1 : Within demo2 0 1 := .step (p := 0) .self (by decide)
  have w2 : Within demo2 0 2 := w1.step (by decide)
  have w7 : Within demo2 0 7 := .step (p := 5) (w1.step (by decide)) (by decide)
  obtain ⟨h', hr, h1, h2⟩ := C80_order ext0_parse demo2_ok sampleOps_history (r := 0) (by decide) (by decide) id sampleOps_used
  have he : h' = (match runAll ext0 demo2 sampleOps with | .ok h => h | .error _ => demo2) := by rw [hr]
  have hb := h2 2 7 (sampleOps_unmoved 2 (by decide) w2) (sampleOps_unmoved 7 (by decide) w7)
  refine ⟨h', hr, by decide, by rw [he]; decide, hb, hb.2 (.inr ⟨1, 0, 2, 2, 5, w1, by decide, by decide, by decide, .self, .step (p := 5) .self (by decide)⟩)⟩

open scoped Classical in
example : ∃ h', runAll ext0 demo2 sampleOps = .ok h' ∧
    (h'.kids 1).filter (fun y => decide (Within demo2 0 y ∧ ¬ TouchedAny ext0 demo2 sampleOps y)) =
      (demo2.kids 1).filter (fun y => decide (¬ TouchedAny ext0 demo2 sampleOps y)) := by
  obtain ⟨h', hr, hall⟩ := C80_children ext0_parse demo2_ok sampleOps_history demo2_wf id
  exact ⟨h', hr, hall 1 (.step (p := 0) .self (by decide)) (by
    rintro (h | ⟨h, -⟩)
    · exact h
    · cases h)⟩

open scoped Classical in
/-- `div p` finds `2` and `6` in the first tree, and after the calls. -/
example : ∃ h', runAll ext0 demo2 sampleOps = .ok h' ∧ find demo2 env0 [0] [divP] = .ok [2, 6] ∧ find h' env0 [0] [divP] = .ok [2, 6] ∧
    [2, 6].filter (fun y => decide (Unmoved ext0 demo2 sampleOps 0 y)) = [2, 6] := by
  have tb : Tables demo2 := fun x hx _ => by
    have : ∀ x < 14, metaCheck (demo2.node x).attrs = true := by decide
    exact metaCheck_sound (this x hx)
  obtain ⟨h', res, res', hr, hf, hf', he⟩ := C78_history_list_partial ext0_parse ext0_tables demo2_ok tb sampleOps_history (r := 0) (by decide) (by decide)
    id sampleOps_used (sampleOps_touched 0 (by decide)) (cx := divP) ⟨by decide, by decide⟩ (by decide) env0 env0
  have hh : h' = (match runAll ext0 demo2 sampleOps with | .ok h => h | .error _ => demo2) := by rw [hr]
  have w1 : Within demo2 0 1 := .step (p := 0) .self (by decide)
  have k1 : find demo2 env0 [0] [divP] = .ok [2, 6] := by decide
  have k2 : find h' env0 [0] [divP] = .ok [2, 6] := by rw [hh]; decide
  refine ⟨h', hr, k1, k2, List.filter_eq_self.2 fun y hy => ?_⟩
  simp only [List.mem_cons, List.not_mem_nil, or_false] at hy
  rcases hy with rfl | rfl
  · exact decide_eq_true (sampleOps_unmoved 2 (by decide) (w1.step (by decide)))
  · exact decide_eq_true (sampleOps_unmoved 6 (by decide) (.step (p := 5) (w1.step (by decide)) (by decide)))

end Visdom
