import Mathlib.Data.List.NodupEquivFin
import Verif.Proofs.Again
import Verif.Proofs.Html
import Verif.Props.History
import Verif.Props.After
/-!
# C78: searches before and after a change

`Own`: types, classes, attributes and `*`. `Downward`: descendant and child combinators.
-/
namespace Visdom
open Spec

/-- The node is in the tree, and neither it nor a node above it is touched by the calls. -/
def Spec.Unmoved (e : Ext) (h : Heap) (ops : List Op) (r y : Nat) : Prop :=
  Within h r y ∧ ∀ a, Within h r a → Within h a y → ¬ TouchedAny e h ops a

section
variable {h h' : Heap} {r : Nat} {D : Nat → Prop} {X : List Nat}

/-- In a well formed tree of live nodes every node is in place. -/
theorem attached_in (ok : HeapOk h D) (wf : TreeWF h r) (hD : ¬ D r) {x : Nat} (hx : Within h r x) : Attached h D x := by
  intro p hp
  obtain ⟨h1, h2⟩ := parent_some wf hx hp
  exact ⟨within_live ok hD h1, h2⟩

theorem unmoved_paths {e : Ext} (P : ParseOk e) (ok : HeapOk h D) {ops : List Op} (hh : History e h D ops) (wf : TreeWF h r) (hD : ¬ D r)
    (hr : runAll e h ops = .ok h') (wf' : TreeWF h' r) (hu : ¬ UsedAll e h D ops r) : KeptPaths h h' r (Unmoved e h ops r) := by
  have key : ∀ y, Unmoved e h ops r y → y ≠ r → ∃ p, Unmoved e h ops r p ∧ y ∈ h.kids p ∧ y ∈ h'.kids p := by
    rintro y ⟨hy, hn⟩ hne
    obtain ⟨p, h1, h2, h3⟩ := parent_inv wf hy hne
    have hk := List.mem_of_getElem? h3
    obtain ⟨k1, k2⟩ := untouched_history P ops h h' D ok hh hr y (wf.bound y hy) (attached_in ok wf hD hy) (hn y hy .self)
    refine ⟨p, ⟨h2, fun a ha hw => hn a ha (hw.step hk)⟩, hk, ?_⟩
    exact List.mem_of_getElem? (k2 p (k1.trans h1)).2
  refine ⟨fun y hy => hy.1, fun y hy => ?_, key, fun y hy => ?_⟩
  · obtain ⟨hw, hn⟩ := hy
    induction hw with
    | self => exact .self
    | @step p c hp hc ih =>
      have hcw := hp.step hc
      obtain ⟨q, h1, h2, h3⟩ := key c ⟨hcw, hn⟩ (child_ne_root wf hp hc)
      have e1 := parent_of_child wf hp hc
      have e2 := parent_of_child wf h1.1 h2
      rw [e1] at e2
      cases e2
      exact (ih h1.2).step h3
  · obtain ⟨k1, k2, k3, _⟩ := (runAll_same P ops h h' hr).2.1 y (wf.bound y hy.1)
    exact ⟨k1, k2, k3⟩

/-- C78, any history of usable calls: an element which, with everything above it, is not touched by the calls, is found afterwards if and only if
it was found before; for selectors of types, classes and attributes under descendant and child combinators. Missing: selectors that look
at siblings, at children or at positions (`C78_fails_*`). -/
theorem C78_history_partial {e : Ext} (P : ParseOk e) (T : ParseTables e) (ok : HeapOk h D) (t : Tables h) {ops : List Op} (hh : History e h D ops)
    (hk : (h.node r).kind = .root) (hb : r < h.size) (hD : ¬ D r) (hu : ¬ UsedAll e h D ops r) {cx : Complex} (ho : Own cx) (hd : Downward cx) :
    ∃ h', runAll e h ops = .ok h' ∧ ∀ (env env' : Env) (S res res' : List Nat), Nodes h r S → DocSorted h r S → Nodes h' r S → DocSorted h' r S →
      (∀ s ∈ S, Unmoved e h ops r s) → find h env S [cx] = .ok res → find h' env' S [cx] = .ok res' →
      ∀ y, Unmoved e h ops r y → (y ∈ res' ↔ y ∈ res) := by
  obtain ⟨h', hr, wf', ev'⟩ := history_ready P T ok t hh hk hb hu
  have wf := ok.tree hk hD hb
  refine ⟨h', hr, fun env env' S res res' hS hs hS' hs' hSu hf hf' y hy => ?_⟩
  rw [C17_find_basic wf (fun x hx he => t x (wf.bound x hx) he) ho.basic hS hs hf, C17_find_basic wf' ev' ho.basic hS' hs' hf']
  exact ((unmoved_paths P ok hh wf hD hr wf' hu).own wf wf' ho hd hSu hy).symm

/-! ### Removal -/

/-- The tree after a removal: what is not below a removed element. -/
theorem within_left (ok : HeapOk h D) (wf : TreeWF h r) (hD : ¬ D r) (hX : Elems h r X) (hk : ∀ q, ¬ D q → h'.kids q = (h.kids q).filter (· ∉ X))
    {y : Nat} : Within h' r y ↔ Within h r y ∧ ∀ x ∈ X, ¬ Within h x y := by
  constructor
  · intro hw
    induction hw with
    | self =>
      refine ⟨.self, fun x hx hw => ?_⟩
      cases hw with
      | self => exact elem_ne_root wf (hX r hx).2 rfl
      | step hp hc => exact child_ne_root wf ((hX x hx).1.trans hp) hc rfl
    | @step p c hp hc ih =>
      obtain ⟨h1, h2⟩ := ih
      rw [hk p (within_live ok hD h1)] at hc
      obtain ⟨hc, hn⟩ := List.mem_filter.1 hc
      refine ⟨h1.step hc, fun x hx hw => ?_⟩
      cases hw with
      | self => simp at hn; exact hn hx
      | @step q _ hq hcq =>
        have e1 := parent_of_child wf h1 hc
        have e2 := parent_of_child wf ((hX x hx).1.trans hq) hcq
        rw [e1] at e2
        cases e2
        exact h2 x hx hq
  · rintro ⟨hw, hn⟩
    induction hw with
    | self => exact .self
    | @step p c hp hc ih =>
      refine (ih fun x hx h1 => hn x hx (h1.step hc)).step ?_
      rw [hk p (within_live ok hD hp)]
      exact List.mem_filter.2 ⟨hc, by simpa using fun hx => hn c hx .self⟩

theorem removed_paths (ok : HeapOk h D) (wf : TreeWF h r) (hD : ¬ D r) (hX : Elems h r X) (hk : ∀ q, ¬ D q → h'.kids q = (h.kids q).filter (· ∉ X))
    (hs : SameData h h') : KeptPaths h h' r (Within h' r) := by
  refine ⟨fun y hy => ((within_left ok wf hD hX hk).1 hy).1, fun y hy => hy, fun y hy hne => ?_, fun y _ => ⟨(hs y).1, (hs y).2.1, (hs y).2.2.1⟩⟩
  cases hy with
  | self => exact absurd rfl hne
  | @step p _ hp hc =>
    refine ⟨p, hp, ?_, hc⟩
    rw [hk p (within_live ok hD ((within_left ok wf hD hX hk).1 hp).1)] at hc
    exact (List.mem_filter.1 hc).1

theorem filter_pos {p : Nat → Bool} {l : List Nat} {i j a b : Nat} (hij : i < j) (ha : (l.filter p)[i]? = some a) (hb : (l.filter p)[j]? = some b) :
    ∃ i' j' : Nat, i' < j' ∧ l[i']? = some a ∧ l[j']? = some b := by
  obtain ⟨f, hf⟩ := List.sublist_iff_exists_orderEmbedding_getElem?_eq.1 (List.filter_sublist (l := l) (p := p))
  exact ⟨f i, f j, f.strictMono hij, by rw [← hf]; exact ha, by rw [← hf]; exact hb⟩

/-- What comes first after a removal came first before. -/
theorem before_left (ok : HeapOk h D) (wf : TreeWF h r) (hD : ¬ D r) (hX : Elems h r X) (hk : ∀ q, ¬ D q → h'.kids q = (h.kids q).filter (· ∉ X))
    {a b : Nat} (ha : Within h' r a) (hb : Before h' r a b) : Before h r a b := by
  have sub : ∀ {x y}, Within h r x → Within h' x y → Within h x y := by
    intro x y hx hw
    induction hw with
    | self => exact .self
    | step _ hc ih =>
      rw [hk _ (within_live ok hD (hx.trans ih))] at hc
      exact ih.step (List.mem_filter.1 hc).1
  have sub' := fun {x : Nat} (hx : Within h' r x) => ((within_left ok wf hD hX hk).1 hx).1
  rcases hb with ⟨c, hc, hw⟩ | ⟨p, i, j, x, y, hp, hij, hx, hy, h1, h2⟩
  · rw [hk a (within_live ok hD (sub' ha))] at hc
    have hc := (List.mem_filter.1 hc).1
    exact .inl ⟨c, hc, sub ((sub' ha).step hc) hw⟩
  · rw [hk p (within_live ok hD (sub' hp))] at hx hy
    obtain ⟨i', j', k1, k2, k3⟩ := filter_pos hij hx hy
    exact .inr ⟨p, i', j', x, y, sub' hp, k1, k2, k3, sub ((sub' hp).step (List.mem_of_getElem? k2)) h1, sub ((sub' hp).step (List.mem_of_getElem? k3)) h2⟩

theorem left_metas (ok : HeapOk h D) (wf : TreeWF h r) (hD : ¬ D r) (hX : Elems h r X) (hk : ∀ q, ¬ D q → h'.kids q = (h.kids q).filter (· ∉ X))
    (hs : SameData h h') (ev : Metas h r) : Metas h' r := fun x hx he => by
  rw [(hs x).2.2.1]
  refine ev x ((within_left ok wf hD hX hk).1 hx).1 ?_
  unfold Heap.isElem at he ⊢
  rwa [(hs x).1] at he

/-- Where nothing has been removed above, nothing is found anew. -/
theorem left_sel (ok : HeapOk h D) (wf : TreeWF h r) (hD : ¬ D r) (hX : Elems h r X) (hk : ∀ q, ¬ D q → h'.kids q = (h.kids q).filter (· ∉ X))
    (hs : SameData h h') {st st' : List (Comb × (Nat → Bool))}
    (hst : List.Forall₂ (fun s t => s.1 = t.1 ∧ (s.1 = .childrenAll ∨ s.1 = .children ∨ s.1 = .nextAll) ∧ ∀ x, Within h' r x → s.2 x = t.2 x) st st') :
    ∀ {A A' : Nat → Prop}, (∀ y, A' y → Within h' r y) → (∀ y, A' y → A y) → ∀ x, Sel h' r A' st' x → Sel h r A st x := by
  have sub' := fun {x : Nat} (hx : Within h' r x) => ((within_left ok wf hD hX hk).1 hx).1
  have kid : ∀ {p c : Nat}, Within h' r p → c ∈ h'.kids p → c ∈ h.kids p := fun {p c} hp hc => by
    rw [hk p (within_live ok hD (sub' hp))] at hc
    exact (List.mem_filter.1 hc).1
  induction hst with
  | nil => intro A A' _ hAA x hx; exact hAA x hx
  | @cons s t st st' hst _ ih =>
    intro A A' hA hAA x hx
    obtain ⟨c1, c2, c3⟩ := hst
    refine ih (A := Img h r A s) (A' := Img h' r A' t) ?_ ?_ x hx
    · rintro y ⟨_, _, z, hz, hr⟩; exact rel_inside (hA z hz) hr
    · rintro e ⟨h1, h2, y, hy, hr⟩
      have he := rel_inside (hA y hy) hr
      refine ⟨by unfold Heap.isElem at h1 ⊢; rwa [(hs e).1] at h1, by rw [c3 e he]; exact h2, y, hAA y hy, ?_⟩
      rw [← c1] at hr
      rcases c2 with c2 | c2 | c2 <;> rw [c2] at hr ⊢
      · obtain ⟨c, hc, hw⟩ := hr
        have hcw := (hA y hy).step hc
        refine ⟨c, kid (hA y hy) hc, ?_⟩
        clear c3 h1 h2
        induction hw with
        | self => exact .self
        | @step p d hp hc' ih2 => exact (ih2 (hcw.trans hp)).step (kid (hcw.trans hp) hc')
      · exact kid (hA y hy) hr
      · obtain ⟨p, i, j, hp, hij, hi, hj⟩ := hr
        rw [hk p (within_live ok hD (sub' hp))] at hi hj
        obtain ⟨i', j', k1, k2, k3⟩ := filter_pos hij hi hj
        exact ⟨p, i', j', sub' hp, k1, k2, k3⟩

/-- C78: after `remove` a search answers with exactly the elements it found before, without those that were removed or stood inside a removed
one; from every set of nodes that are still there. -/
theorem C78_remove_partial (ok : HeapOk h D) (wf : TreeWF h r) (hD : ¬ D r) (ev : Metas h r) (hX : Elems h r X) (hnd : X.Nodup) {cx : Complex}
    (ho : Own cx) (hd : Downward cx) : ∃ h', removeAll h X = .ok h' ∧ ∀ (env env' : Env) (S res res' : List Nat), Nodes h r S → DocSorted h r S →
      (∀ s ∈ S, ∀ x ∈ X, ¬ Within h x s) → DocSorted h' r S → find h env S [cx] = .ok res → find h' env' S [cx] = .ok res' →
      ∀ y, y ∈ res' ↔ y ∈ res ∧ ∀ x ∈ X, ¬ Within h x y := by
  obtain ⟨h', hr, hk, hs, ok', hsz⟩ := removeAll_ok X h ok (fun x hx => attached_in ok wf hD (hX x hx).1) hnd
  have wf' : TreeWF h' r := ok'.tree (by rw [(hs r).1]; exact wf.rootKind) hD (by rw [hsz]; exact wf.bound r .self)
  have kp := removed_paths ok wf hD hX hk hs
  refine ⟨h', hr, fun env env' S res res' hS hso hl hso' hf hf' y => ?_⟩
  have hSw : ∀ s ∈ S, Within h' r s := fun s hs => (within_left ok wf hD hX hk).2 ⟨(hS s hs).1, hl s hs⟩
  have hS' : Nodes h' r S := fun s hs' => ⟨hSw s hs', by
    unfold Heap.isElem; rw [(hs s).1]; exact (hS s hs').2⟩
  rw [C17_find_basic wf ev ho.basic hS hso hf, C17_find_basic wf' (left_metas ok wf hD hX hk hs ev) ho.basic hS' hso' hf']
  constructor
  · intro h1
    have hy := sel_inside (fun z hz => hSw z hz) y h1
    exact ⟨(kp.own wf wf' ho hd hSw hy).2 h1, ((within_left ok wf hD hX hk).1 hy).2⟩
  · rintro ⟨h1, h2⟩
    have hy : Within h' r y := (within_left ok wf hD hX hk).2 ⟨sel_inside (fun z hz => (hS z hz).1) y h1, h2⟩
    exact (kp.own wf wf' ho hd hSw hy).1 h1

open scoped Classical in
/-- C78 for selectors with descendant combinators, from the document: both searches answer, and the second answer is the first one without what
was removed, in the same order. -/
theorem C78_remove_list_partial (ok : HeapOk h D) (wf : TreeWF h r) (hD : ¬ D r) (ev : Metas h r) (hX : Elems h r X) (hnd : X.Nodup) {cx : Complex}
    (ho : Own cx) (hd : ∀ s ∈ cx, s.1 = Comb.childrenAll) (env env' : Env) : ∃ h' res, removeAll h X = .ok h' ∧ find h env [r] [cx] = .ok res ∧
      find h' env' [r] [cx] = .ok (res.filter fun y => decide (∀ x ∈ X, ¬ Within h x y)) := by
  obtain ⟨h', hr, hall⟩ := C78_remove_partial ok wf hD ev hX hnd ho (fun s hs => .inl (hd s hs))
  obtain ⟨h2, hr2, hk, hs, ok', hsz⟩ := removeAll_ok X h ok (fun x hx => attached_in ok wf hD (hX x hx).1) hnd
  rw [hr] at hr2
  cases hr2
  have wf' : TreeWF h' r := ok'.tree (by rw [(hs r).1]; exact wf.rootKind) hD (by rw [hsz]; exact wf.bound r .self)
  have ev' := left_metas ok wf hD hX hk hs ev
  obtain ⟨res, hf⟩ := C19_find_basic_descendants (env := env) wf ev ho.basic hd (nodes_root wf) (docSorted_single r)
  obtain ⟨res', hf'⟩ := C19_find_basic_descendants (env := env') wf' ev' ho.basic hd (nodes_root wf') (docSorted_single r)
  refine ⟨h', res, hr, hf, hf'.trans (congrArg _ ?_)⟩
  have hroot : ∀ s ∈ [r], ∀ x ∈ X, ¬ Within h x s := fun s hs x hx => by
    rw [List.mem_singleton.1 hs]
    exact ((within_left ok wf hD hX hk).1 .self).2 x hx
  have hm := hall env env' [r] res res' (nodes_root wf) (docSorted_single r) hroot (docSorted_single r) hf hf'
  have o1 := (C18_find_descendants wf ev (basic_findOk ho.basic (by simp)) hd (nodes_root wf) (docSorted_single r) hf).1
  have o2 := (C18_find_descendants wf' ev' (basic_findOk ho.basic (by simp)) hd (nodes_root wf') (docSorted_single r) hf').1
  have hin : ∀ y ∈ res', Within h' r y := fun y hy => (C17_find_elements (ph := .sorted) wf' ev' (basic_findOk ho.basic (by simp)) (nodes_root wf')
    (docSorted_single r) hf' y hy).1
  refine docSorted_ext (h := h) (r := r) ?_ (o1.filter _) (fun y hy => ((within_left ok wf hD hX hk).1 (hin y hy)).1) (fun y => ?_) wf
  · exact o2.imp_of_mem fun {a b} ha _ hab => before_left ok wf hD hX hk (hin a ha) hab
  · rw [hm y, List.mem_filter]
    simp

/-- C78: `let x = doc.find(s); x.remove(); doc.find(s)`: nothing is found the second time; for selectors of types, classes and attributes under
descendant, child and general sibling combinators, when the first answer holds no element twice. Missing: `+`, positions,
`:empty` and the like (`C78_fails_next`, `C78_fails_empty`), and answers that hold an element twice (`C78_fails_twice`). -/
theorem C78_again_partial (ok : HeapOk h D) (wf : TreeWF h r) (hD : ¬ D r) (ev : Metas h r) {cx : Complex} (ho : Own cx)
    (hn : ∀ s ∈ cx, s.1 ≠ Comb.next) {env : Env} {res : List Nat} (hf : find h env [r] [cx] = .ok res) (hnd : res.Nodup) :
    ∃ h', removeAll h res = .ok h' ∧ ∀ env', (∀ res', find h' env' [r] [cx] = .ok res' → res' = []) ∧
      (calm .anti cx = true → find h' env' [r] [cx] = .ok []) := by
  have hX : Elems h r res := C17_find_elements (ph := .sorted) wf ev (basic_findOk ho.basic (by simp)) (nodes_root wf) (docSorted_single r) hf
  obtain ⟨h', hr, hk, hs, ok', hsz⟩ := removeAll_ok res h ok (fun x hx => attached_in ok wf hD (hX x hx).1) hnd
  have wf' : TreeWF h' r := ok'.tree (by rw [(hs r).1]; exact wf.rootKind) hD (by rw [hsz]; exact wf.bound r .self)
  have ev' := left_metas ok wf hD hX hk hs ev
  have key : ∀ env' res', find h' env' [r] [cx] = .ok res' → res' = [] := by
    intro env' res' hf'
    rw [List.eq_nil_iff_forall_not_mem]
    intro y hy
    have h1 := (C17_find_basic wf' ev' ho.basic (nodes_root wf') (docSorted_single r) hf' y).1 hy
    have hyw := sel_inside (fun z hz => by rw [List.mem_singleton.1 hz]; exact .self) y h1
    have h2 : Sel h r (· ∈ [r]) (steps h r env cx) y := by
      refine left_sel ok wf hD hX hk hs ((own_steps (env := env) (env' := env') (V := Within h' r)
        (fun y _ => ⟨(hs y).1, (hs y).2.1, (hs y).2.2.1⟩) (fun s hs => (ho.2 s hs).2.2)).imp ?_)
        (fun z hz => by rw [List.mem_singleton.1 hz]; exact .self) (fun _ hz => hz) y h1
      rintro s t ⟨h1, h2, h3⟩
      obtain ⟨u, hu, he⟩ := List.mem_map.1 h2
      refine ⟨h1, ?_, h3⟩
      rw [← he]
      have k1 := (ho.2 u hu).1
      have k2 := hn u hu
      generalize u.1 = c at k1 k2
      revert k1 k2
      cases c <;> simp [Comb.down]
    have h3 := (C17_find_basic wf ev ho.basic (nodes_root wf) (docSorted_single r) hf y).2 h2
    exact ((within_left ok wf hD hX hk).1 hyw).2 y h3 .self
  refine ⟨h', hr, fun env' => ⟨key env', fun hc => ?_⟩⟩
  obtain ⟨res', hf'⟩ := C19_find_basic_root (env := env') wf' ev' ho.basic hc
  rw [hf', key env' res' hf']

end

/-! ### Examples -/

theorem demo2_wf : TreeWF demo2 0 := demo2_ok.tree rfl id (by decide)

theorem demo2_metas : Metas demo2 0 := fun x hx _ => by
  have : ∀ x < 14, metaCheck (demo2.node x).attrs = true := by decide
  exact metaCheck_sound (this x (demo2_wf.bound x hx))

/-- `div p` -/
def divP : Complex := [(.childrenAll, [ty "div"]), (.childrenAll, [ty "p"])]

/-- `p ~ span` -/
def pSpan : Complex := [(.childrenAll, [ty "p"]), (.nextAll, [ty "span"])]

/-- The inner `div` with one of the two `p` is removed. -/
example : ∃ h' res, removeAll demo2 [5] = .ok h' ∧ find demo2 env0 [0] [divP] = .ok res ∧ res = [2, 6] ∧ find h' env0 [0] [divP] = .ok [2] ∧
    ∀ y, y ∈ [2] ↔ y ∈ res ∧ ∀ x ∈ [5], ¬ Within demo2 x y := by
  have hX : Elems demo2 0 [5] := fun x hx => by
    rw [List.mem_singleton.1 hx]
    exact ⟨.step (p := 1) (.step (p := 0) .self (by decide)) (by decide), rfl⟩
  obtain ⟨h', hr, hall⟩ := C78_remove_partial demo2_ok demo2_wf id demo2_metas hX (by decide) (cx := divP) ⟨by decide, by decide⟩
    (by unfold Downward; decide)
  refine ⟨h', [2, 6], hr, by decide, rfl, ?_⟩
  have he : h' = (match removeAll demo2 [5] with | .ok h => h | .error _ => demo2) := by rw [hr]
  have hf' : find h' env0 [0] [divP] = .ok [2] := by rw [he]; decide
  refine ⟨hf', hall env0 env0 [0] [2, 6] [2] (nodes_root demo2_wf) (docSorted_single 0) ?_ (docSorted_single 0) (by decide) hf'⟩
  intro s hs x hx hw
  rw [List.mem_singleton.1 hs] at hw
  have hxw := (hX x hx).1
  cases hw with
  | self => exact elem_ne_root demo2_wf (hX 0 hx).2 rfl
  | step hp hc => exact child_ne_root demo2_wf (hxw.trans hp) hc rfl

open scoped Classical in
/-- The same as one equation. -/
example : ∃ h' res, removeAll demo2 [5, 9] = .ok h' ∧ find demo2 env0 [0] [divP] = .ok res ∧
    find h' env0 [0] [divP] = .ok (res.filter fun y => decide (∀ x ∈ [5, 9], ¬ Within demo2 x y)) := by
  have hX : Elems demo2 0 [5, 9] := by
    intro x hx
    simp only [List.mem_cons, List.not_mem_nil, or_false] at hx
    rcases hx with rfl | rfl
    · exact ⟨.step (p := 1) (.step (p := 0) .self (by decide)) (by decide), rfl⟩
    · exact ⟨.step (p := 8) (.step (p := 0) .self (by decide)) (by decide), rfl⟩
  obtain ⟨h', res, a, b, c⟩ := C78_remove_list_partial (X := [5, 9]) demo2_ok demo2_wf id demo2_metas hX (by decide) (cx := divP)
    ⟨by decide, by decide⟩ (by decide) env0 env0
  exact ⟨h', res, a, b, by rw [c]; congr; funext y; congr⟩

/-- `doc.find("p ~ span").remove()`, and the search again. -/
example : ∃ h', removeAll demo2 [7] = .ok h' ∧ find demo2 env0 [0] [pSpan] = .ok [7] ∧ find h' env0 [0] [pSpan] = .ok [] := by
  obtain ⟨h', hr, hall⟩ := C78_again_partial demo2_ok demo2_wf id demo2_metas (cx := pSpan) ⟨by decide, by decide⟩ (by decide) (env := env0)
    (res := [7]) (by decide) (by decide)
  exact ⟨h', hr, by decide, (hall env0).2 (by decide)⟩

/-- A move, a removal, a new text: the `p` in the inner `div` is found as before, the one that moved is not. -/
example : ∃ h', runAll ext0 demo2 [.insert .beforeEnd 8 2, .remove 7, .setText 9 "x".toList] = .ok h' ∧ (6 ∈ [6] ↔ 6 ∈ [2, 6]) ∧
    find demo2 env0 [0] [divP] = .ok [2, 6] ∧ find h' env0 [0] [divP] = .ok [6] := by
  have hh : History ext0 demo2 noneUsed [.insert .beforeEnd 8 2, .remove 7, .setText 9 "x".toList] := noneUsed_eq ▸ histB_sound _ _ _ (by decide)
  have hu : ¬ UsedAll ext0 demo2 noneUsed [.insert .beforeEnd 8 2, .remove 7, .setText 9 "x".toList] 0 := by
    rintro (h | ⟨h, -⟩)
    · exact h
    · cases h
  have tb : Tables demo2 := fun x hx _ => by
    have : ∀ x < 14, metaCheck (demo2.node x).attrs = true := by decide
    exact metaCheck_sound (this x hx)
  obtain ⟨h', hr, hall⟩ := C78_history_partial ext0_parse ext0_tables demo2_ok tb hh (r := 0) (by decide) (by decide) id hu (cx := divP)
    ⟨by decide, by decide⟩ (by unfold Downward; decide)
  have he : h' = (match runAll ext0 demo2 [.insert .beforeEnd 8 2, .remove 7, .setText 9 "x".toList] with | .ok h => h | .error _ => demo2) := by
    rw [hr]
  have hf' : find h' env0 [0] [divP] = .ok [6] := by rw [he]; decide
  have w1 : Within demo2 0 1 := .step (p := 0) .self (by decide)
  have w6 : Within demo2 0 6 := .step (p := 5) (w1.step (by decide)) (by decide)
  have nt : ∀ a ∈ [0, 1, 5, 6], ¬ TouchedAny ext0 demo2 [.insert .beforeEnd 8 2, .remove 7, .setText 9 "x".toList] a := by
    intro a ha ht
    rcases ht with (⟨_, h1, _⟩ | h1) | (h1 | h1) | (h1 | h1) | h1
    · revert a; decide
    · revert a; decide
    · change a = 7 at h1; revert a; decide
    · exact h1
    · change a ∈ Heap.kids _ 9 at h1; revert a; decide
    · exact h1
    · exact h1
  have up : ∀ a y, y ∈ [0, 1, 5, 6] → Within demo2 0 a → Within demo2 a y → a ∈ [0, 1, 5, 6] := by
    intro a y hy ha hw
    induction hw with
    | self => exact hy
    | @step p c hp hc ih =>
      refine ih ?_
      have hpar := parent_of_child demo2_wf (ha.trans hp) hc
      have : ∀ c ∈ [0, 1, 5, 6], ∀ p, demo2.parent c = some p → p ∈ [0, 1, 5, 6] := by
        intro c hc
        simp only [List.mem_cons, List.not_mem_nil, or_false] at hc
        rcases hc with rfl | rfl | rfl | rfl <;> intro p hp <;> cases hp <;> decide
      exact this c hy p hpar
  have un : ∀ y ∈ [0, 1, 5, 6], Within demo2 0 y → Unmoved ext0 demo2 [.insert .beforeEnd 8 2, .remove 7, .setText 9 "x".toList] 0 y :=
    fun y hy hw => ⟨hw, fun a ha h1 => nt a (up a y hy ha h1)⟩
  refine ⟨h', hr, ?_, by decide, hf'⟩
  refine hall env0 env0 [0] [2, 6] [6] (nodes_root demo2_wf) (docSorted_single 0) (fun s hs => ?_) (docSorted_single 0) (fun s hs => ?_) (by decide) hf' 6
    (un 6 (by decide) w6)
  · rw [List.mem_singleton.1 hs]; exact ⟨.self, .inr rfl⟩
  · rw [List.mem_singleton.1 hs]; exact un 0 (by decide) .self

/-! ### Where it fails -/

/-- `<div><a></a><b></b><b></b></div>` -/
def abb : Heap := heapOf [rootN [1], el "div" 0 0 [2, 3, 4], el "a" 1 0, el "b" 1 1, el "b" 1 2]

/-- C78 does not hold for `+`: when the `b` next to the `a` is gone, the next one is found. -/
theorem C78_fails_next : ∃ h', find abb env0 [0] [[(.childrenAll, [ty "a"]), (.next, [ty "b"])]] = .ok [3] ∧ removeAll abb [3] = .ok h' ∧
    find h' env0 [0] [[(.childrenAll, [ty "a"]), (.next, [ty "b"])]] = .ok [4] := ⟨_, by decide, rfl, by decide⟩

/-- C78 does not hold for `:empty`: when the empty elements are gone, those that held nothing else are empty. -/
theorem C78_fails_empty : ∃ h', find demo2 env0 [0] [[(.childrenAll, [.empty])]] = .ok [6, 7, 9] ∧ removeAll demo2 [6, 7, 9] = .ok h' ∧
    find h' env0 [0] [[(.childrenAll, [.empty])]] = .ok [5, 8] := ⟨_, by decide, rfl, by decide⟩

/-- C78 does not hold for positions: there is always a first one. -/
theorem C78_fails_first : ∃ h', find abb env0 [0] [[(.childrenAll, [ty "b", .edge false true])]] = .ok [3] ∧ removeAll abb [3] = .ok h' ∧
    find h' env0 [0] [[(.childrenAll, [ty "b", .edge false true])]] = .ok [4] := ⟨_, by decide, rfl, by decide⟩

/-- C78 does not hold when the search answers with an element twice: the removal panics. -/
theorem C78_fails_twice :
    find nest env0 [0] [[(.childrenAll, [ty "div"]), (.children, [ty "div"]), (.childrenAll, [ty "span"])]] = .ok [4, 4] ∧
    removeAll nest [4, 4] = .error .overflow := ⟨by decide, rfl⟩

end Visdom
