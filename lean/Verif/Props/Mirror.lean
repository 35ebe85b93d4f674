import Verif.Proofs.Mirror
import Verif.Props.Same
import Verif.Props.Commute
import Verif.Props.After
/-!
# C82: the same tree gives the same answers
-/
namespace Visdom
open Spec Classical
variable {h h' : Heap} {r r' : Nat} {f g : Nat → Nat} {env env' : Env} {rt : Bool}

theorem Spec.Mirror.nodes (m : Mirror h r h' r' f g) {S : List Nat} (hS : Nodes h r S) : Nodes h' r' (S.map f) := fun z hz => by
  obtain ⟨x, hx, rfl⟩ := List.mem_map.1 hz
  obtain ⟨h1, h2⟩ := hS x hx
  refine ⟨m.inside h1, ?_⟩
  rcases h2 with h2 | rfl
  · exact .inl (by rw [m.isElem h1]; exact h2)
  · exact .inr m.root

theorem Spec.Mirror.elems (m : Mirror h r h' r' f g) {S : List Nat} (hS : Elems h r S) : Elems h' r' (S.map f) := fun z hz => by
  obtain ⟨x, hx, rfl⟩ := List.mem_map.1 hz
  obtain ⟨h1, h2⟩ := hS x hx
  exact ⟨m.inside h1, by rw [m.isElem h1]; exact h2⟩

theorem Spec.Mirror.metas (m : Mirror h r h' r' f g) (ev : Metas h r) : Metas h' r' := fun z hz he => by
  obtain ⟨x, hx, rfl⟩ := m.preimage hz
  rw [(m.data x hx).2.2]
  exact ev x hx (by rw [← m.isElem hx]; exact he)

theorem Spec.Mirror.children (m : Mirror h r h' r' f g) {x : Nat} (hx : Within h r x) : h'.children (f x) = (h.children x).map f := by
  rw [Heap.children, Heap.children, m.kids x hx, List.filter_map]
  congr 1
  exact List.filter_congr fun y hy => m.isElem (hx.step hy)

theorem Spec.Mirror.small (m : Mirror h r h' r' f g) (sm : Small h r) : Small h' r' := fun z hz => by
  obtain ⟨x, hx, rfl⟩ := m.preimage hz
  rw [m.children hx, List.length_map]
  exact sm x hx

theorem within_step {x : Nat} (hx : Within h r x) : x = r ∨ ∃ p, Within h r p ∧ x ∈ h.kids p := by
  cases hx with
  | self => exact .inl rfl
  | @step p _ hp hc => exact .inr ⟨p, hp, hc⟩

/-- Parents and positions correspond. -/
theorem Spec.Mirror.links (m : Mirror h r h' r' f g) (wf : TreeWF h r) (wf' : TreeWF h' r') {x : Nat} (hx : Within h r x) :
    h'.parent (f x) = (h.parent x).map f ∧ (x ≠ r → h'.index (f x) = h.index x) := by
  cases hx with
  | self => rw [m.root, wf'.rootParent, wf.rootParent]; exact ⟨rfl, fun h1 => absurd rfl h1⟩
  | @step p _ hp hc =>
    obtain ⟨i, hi⟩ := List.getElem?_of_mem hc
    obtain ⟨h1, h2⟩ := wf.link p i x hp hi
    obtain ⟨h3, h4⟩ := wf'.link (f p) i (f x) (m.inside hp) (m.get hp hi)
    rw [h1, h2, h3, h4]
    exact ⟨rfl, fun _ => rfl⟩

theorem Spec.Mirror.sibAsc (m : Mirror h r h' r' f g) (wf : TreeWF h r) (wf' : TreeWF h' r') {X : List Nat} (hX : Elems h r X) (hq : SibAsc h X) :
    SibAsc h' (X.map f) := by
  unfold SibAsc at hq ⊢
  rw [List.pairwise_map]
  refine (List.Pairwise.and_mem.1 hq).imp fun {a b} hab he => ?_
  obtain ⟨ha, hb, hlt⟩ := hab
  obtain ⟨l1, l2⟩ := m.links wf wf' (hX a ha).1
  obtain ⟨k1, k2⟩ := m.links wf wf' (hX b hb).1
  rw [l2 (elem_ne_root wf (hX a ha).2), k2 (elem_ne_root wf (hX b hb).2)]
  refine hlt ?_
  rw [l1, k1] at he
  have par : ∀ x, x ∈ X → ∃ p, h.parent x = some p ∧ Within h r p := fun x hx => by
    obtain ⟨hw, he⟩ := hX x hx
    rcases within_step hw with rfl | ⟨p, hp, hc⟩
    · exact absurd rfl (elem_ne_root wf he)
    · obtain ⟨i, hi⟩ := List.getElem?_of_mem hc
      exact ⟨p, (wf.link p i x hp hi).1, hp⟩
  obtain ⟨p, hp, hpw⟩ := par a ha
  obtain ⟨q, hq', hqw⟩ := par b hb
  rw [hp, hq'] at he ⊢
  rw [m.inj hpw hqw (Option.some.inj he)]

section
variable (m : Mirror h r h' r' f g) (v : EnvMirror h r env r' env' f) (wf : TreeWF h r) (wf' : TreeWF h' r') (ev : Metas h r) (sm : Small h r)
  (gr : Grounded h r env rt) (gr' : Grounded h' r' env' rt) (own own' : Nat → Bool)
include m v wf wf' ev sm gr gr'

/-- C82 for `find`: common selectors of descendant combinators, from corresponding sets: the answers correspond, member by member and in order. -/
theorem C82_find_partial {cx : Complex} (hc : Common rt cx) (hst : Steady cx) (hd : ∀ s ∈ cx, s.1 = Comb.childrenAll) {text : List Char}
    (ht : SelText [cx] text) {S : List Nat} (hS : Nodes h r S) (hs : DocSorted h r S) :
    ∃ res, findText h env own S text = .ok (res, 0) ∧ findText h' env' own' (S.map f) text = .ok (res.map f, 0) := by
  have hSw : ∀ x ∈ S, Within h r x := fun x hx => (hS x hx).1
  obtain ⟨res, h1, h2, _, h4⟩ := C29_find_text_common wf ev sm gr own hc hst hd ht hS hs
  obtain ⟨res', h1', h2', _, h4'⟩ := C29_find_text_common wf' (m.metas ev) (m.small sm) gr' own' hc hst hd ht (m.nodes hS) (m.docSorted hSw hs)
  have hin : ∀ x ∈ res, Within h r x := fun x hx => sel_inside hSw x ((h4 x).1 hx)
  have hsel : ∀ x, Within h r x → (f x ∈ res' ↔ x ∈ res) := fun x hx => by
    rw [h4, h4']
    refine m.sel_iff (m.steps_eq v cx) hSw (fun z hz => (m.nodes hS z hz).1) (fun y hy => ?_) hx
    refine ⟨fun h3 => ?_, List.mem_map_of_mem⟩
    obtain ⟨y', h5, h6⟩ := List.mem_map.1 h3
    rw [← m.inj (hSw y' h5) hy h6]; exact h5
  have hin' : ∀ z ∈ res', Within h' r' z := fun z hz => sel_inside (fun z hz => (m.nodes hS z hz).1) z ((h4' z).1 hz)
  have : res' = res.map f := by
    refine docSorted_ext h2' (m.docSorted hin h2) hin' (fun z => ⟨fun hz => ?_, fun hz => ?_⟩) wf'
    · obtain ⟨x, hx, rfl⟩ := m.preimage (hin' z hz)
      exact List.mem_map_of_mem ((hsel x hx).1 hz)
    · obtain ⟨x, hx, rfl⟩ := List.mem_map.1 hz
      exact (hsel x (hin x hx)).2 hx
  subst this
  exact ⟨res, h1, h1'⟩

/-- C82 for `find` from the root of the document, any combinators: the same elements. -/
theorem C82_find_root_partial {cx : Complex} (hc : Common rt cx) (hst : Steady cx) (hcalm : calm .anti cx = true) {text : List Char}
    (ht : SelText [cx] text) :
    ∃ res res', findText h env own [r] text = .ok (res, 0) ∧ findText h' env' own' [r'] text = .ok (res', 0) ∧ ∀ z, z ∈ res' ↔ z ∈ res.map f := by
  obtain ⟨res, h1, h2⟩ := C29_find_root_common wf ev sm gr own hc hst hcalm ht
  obtain ⟨res', h1', h2'⟩ := C29_find_root_common wf' (m.metas ev) (m.small sm) gr' own' hc hst hcalm ht
  have hin : ∀ x ∈ res, Within h r x := fun x hx => sel_inside (by rintro y rfl; exact .self) x ((h2 x).1 hx)
  have hin' : ∀ z ∈ res', Within h' r' z := fun z hz => sel_inside (by rintro y rfl; exact .self) z ((h2' z).1 hz)
  have hsel : ∀ x, Within h r x → (f x ∈ res' ↔ x ∈ res) := fun x hx => by
    rw [h2, h2']
    exact m.sel_iff (A := (· = r)) (A' := (· = r')) (m.steps_eq v cx) (fun y hy => hy ▸ .self) (fun y hy => hy ▸ .self)
      (fun y hy => ⟨fun h1 => m.inj hy .self (h1.trans m.root.symm), fun h1 => h1 ▸ m.root⟩) hx
  refine ⟨res, res', h1, h1', fun z => ⟨fun hz => ?_, fun hz => ?_⟩⟩
  · obtain ⟨x, hx, rfl⟩ := m.preimage (hin' z hz)
    exact List.mem_map_of_mem ((hsel x hx).1 hz)
  · obtain ⟨x, hx, rfl⟩ := List.mem_map.1 hz
    exact (hsel x (hin x hx)).2 hx

/-- C82 for `filter`, `not`, `is` and `is_all`, on sets in which siblings come in order. -/
theorem C82_filter_partial {cx : Complex} (hc : CommonTest rt false cx) {text : List Char} (ht : SelText [cx] text) {X : List Nat} (hX : Elems h r X)
    (hq : SibAsc h X) :
    (∃ F, filterText h env own X text = .ok (F, 0) ∧ filterText h' env' own' (X.map f) text = .ok (F.map f, 0)) ∧
    (∃ N, notText h env own X text = .ok (N, 0) ∧ notText h' env' own' (X.map f) text = .ok (N.map f, 0)) ∧
    (∃ b, isText h env own X text = .ok (b, 0) ∧ isText h' env' own' (X.map f) text = .ok (b, 0)) ∧
    ∃ b, isAllText h env own X text = .ok (b, 0) ∧ isAllText h' env' own' (X.map f) text = .ok (b, 0) := by
  have ev' := m.metas ev
  have hok : innersOk h r env true .sib [cx] := common_alts sm gr [cx] hc .sib (by simp) (by simp)
  have hok' : innersOk h' r' env' true .sib [cx] := common_alts (m.small sm) gr' [cx] hc .sib (by simp) (by simp)
  have hu : UnionOn h r env .sib X [cx] := Or.inl (by simp)
  have hu' : UnionOn h' r' env' .sib (X.map f) [cx] := Or.inl (by simp)
  have hX' := m.elems hX
  have hq' := m.sibAsc wf wf' hX hq
  have hsat : ∀ x ∈ X, (anySat h' r' env' [cx] (f x) ↔ anySat h r env [cx] x) := fun x hx => m.anySat_iff v [cx] x (hX x hx).1
  obtain ⟨e1, e2, e3, e4, _⟩ := C29_filter_text_partial h env own ht X
  obtain ⟨f1, f2, f3, f4, _⟩ := C29_filter_text_partial h' env' own' ht (X.map f)
  have g1 := C22_filter_exact_partial wf ev hok hu hX hq
  have g1' := C22_filter_exact_partial wf' ev' hok' hu' hX' hq'
  have g2 := C23_not_exact_partial wf ev hok hu hX hq
  have g2' := C23_not_exact_partial wf' ev' hok' hu' hX' hq'
  have k1 : (X.map f).filter (fun z => decide (anySat h' r' env' [cx] z)) = (X.filter fun x => decide (anySat h r env [cx] x)).map f := by
    rw [List.filter_map]
    congr 1
    exact List.filter_congr fun x hx => decide_eq_decide.2 (hsat x hx)
  have k2 : (X.map f).filter (fun z => decide (¬ anySat h' r' env' [cx] z)) = (X.filter fun x => decide (¬ anySat h r env [cx] x)).map f := by
    rw [List.filter_map]
    congr 1
    exact List.filter_congr fun x hx => decide_eq_decide.2 (not_congr (hsat x hx))
  refine ⟨⟨_, by rw [e1, g1]; rfl, by rw [f1, g1', k1]; rfl⟩, ⟨_, by rw [e2, g2]; rfl, by rw [f2, g2', k2]; rfl⟩, ?_, ?_⟩
  · obtain ⟨b, h1, h2⟩ := C23_is_exact_partial wf ev hok hX hq
    obtain ⟨b', h1', h2'⟩ := C23_is_exact_partial wf' ev' hok' hX' hq'
    have : b = b' := by
      rw [Bool.eq_iff_iff, h2, h2']
      simp only [List.mem_map, exists_exists_and_eq_and]
      exact exists_congr fun x => and_congr_right fun hx => (hsat x hx).symm
    subst this
    exact ⟨b, by rw [e3, h1]; rfl, by rw [f3, h1']; rfl⟩
  · obtain ⟨b, h1, h2⟩ := C23_is_all_exact_partial wf ev hok hu hX hq
    obtain ⟨b', h1', h2'⟩ := C23_is_all_exact_partial wf' ev' hok' hu' hX' hq'
    have : b = b' := by
      rw [Bool.eq_iff_iff, h2, h2']
      simp only [List.mem_map, forall_exists_index, and_imp, forall_apply_eq_imp_iff₂, List.map_eq_nil_iff, ne_eq]
      exact and_congr_right fun _ => forall_congr' fun x => imp_congr_right fun hx => (hsat x hx).symm
    subst this
    exact ⟨b, by rw [e4, h1]; rfl, by rw [f4, h1']; rfl⟩

/-- C82 for `has`, lists of alternatives, on every set. -/
theorem C82_has_partial {sel : List Complex} (hc : altsCommon rt true sel = true) {text : List Char} (ht : SelText sel text) {X : List Nat}
    (hX : ∀ x ∈ X, Within h r x) :
    ∃ F, hasText h env own X text = .ok (F, 0) ∧ hasText h' env' own' (X.map f) text = .ok (F.map f, 0) := by
  have g := C24_has_exact_partial wf ev (common_alts sm gr sel hc .doc (by simp) fun _ => rfl) hX
  have g' := C24_has_exact_partial wf' (m.metas ev) (common_alts (m.small sm) gr' sel hc .doc (by simp) fun _ => rfl)
    (X := X.map f) (fun z hz => by obtain ⟨x, hx, rfl⟩ := List.mem_map.1 hz; exact m.inside (hX x hx))
  refine ⟨_, by rw [(C29_filter_text_partial h env own ht X).2.2.2.2, g]; rfl, ?_⟩
  rw [(C29_filter_text_partial h' env' own' ht (X.map f)).2.2.2.2, g', List.filter_map]
  have key : X.filter ((fun x => decide (∃ e, Below h' x e ∧ h'.isElem e = true ∧ anySat h' r' env' sel e)) ∘ f) =
      X.filter fun x => decide (∃ e, Below h x e ∧ h.isElem e = true ∧ anySat h r env sel e) :=
    List.filter_congr fun x hx => decide_eq_decide.2 (by
      have := m.sat_iff v (.has sel) x (hX x hx)
      simpa only [Sim.Sat] using this)
  rw [key]; rfl

/-- C82 for `closest`, on sets in document order. -/
theorem C82_closest_partial {sel : List Complex} (hc : altsCommon rt true sel = true) (hl : ∀ cx ∈ sel, looked cx = false) {text : List Char}
    (ht : SelText sel text) {X : List Nat} (hX : Elems h r X) (hs : DocSorted h r X) :
    ∃ res, closestText h env own X text = .ok (res, 0) ∧ closestText h' env' own' (X.map f) text = .ok (res.map f, 0) := by
  have hXw : ∀ x ∈ X, Within h r x := fun x hx => (hX x hx).1
  obtain ⟨res, h1, h2, _, h3, _⟩ := C27_closest_common wf ev sm gr hc hl hX
  obtain ⟨res', h1', h2', _, h3', _⟩ := C27_closest_common wf' (m.metas ev) (m.small sm) gr' hc hl (m.elems hX)
  have near : ∀ {h h' : Heap} {r r' : Nat} {f g : Nat → Nat} {P P' : Nat → Prop} (m : Mirror h r h' r' f g) (_ : ∀ a, Within h r a → (P' (f a) ↔ P a))
      {x e : Nat} (_ : Within h r x), Nearest h r P x e → Nearest h' r' P' (f x) (f e) := by
    intro h h' r r' f g P P' m hP x e hx ⟨n1, n2, n3, n4, n5⟩
    refine ⟨m.inside n1, by rw [m.isElem n1]; exact n2, m.within n1 n3, (hP e n1).2 n4, fun z hb hw hz => ?_⟩
    have hz' : Within h' r' z := by obtain ⟨c, hc, hcw⟩ := hb; exact ((m.inside n1).step hc).trans hcw
    obtain ⟨a, ha, rfl⟩ := m.preimage hz'
    have b1 := m.symm.below (m.inside n1) hb
    have b2 := m.symm.within hz' hw
    rw [m.back e n1, m.back a ha] at b1
    rw [m.back a ha, m.back x hx] at b2
    exact n5 a b1 b2 ((hP a ha).1 hz)
  have hP : ∀ a, Within h r a → (anySat h' r' env' sel (f a) ↔ anySat h r env sel a) := m.anySat_iff v sel
  have hP' : ∀ z, Within h' r' z → (anySat h r env sel (g z) ↔ anySat h' r' env' sel z) := fun z hz => by
    obtain ⟨a, ha, rfl⟩ := m.preimage hz
    rw [m.back a ha]; exact (hP a ha).symm
  have hin : ∀ x ∈ res, Within h r x := fun x hx => by obtain ⟨y, hy, hn⟩ := (h2 x).1 hx; exact hn.1
  have hin' : ∀ x ∈ res', Within h' r' x := fun x hx => by obtain ⟨y, hy, hn⟩ := (h2' x).1 hx; exact hn.1
  have : res' = res.map f := by
    refine docSorted_ext (h3' (m.docSorted hXw hs)) (m.docSorted hin (h3 hs)) hin' (fun z => ⟨fun hz => ?_, fun hz => ?_⟩) wf'
    · obtain ⟨y, hy, hn⟩ := (h2' z).1 hz
      obtain ⟨x, hx, rfl⟩ := List.mem_map.1 hy
      obtain ⟨e, he, rfl⟩ := m.preimage hn.1
      have := near m.symm hP' (m.inside (hXw x hx)) hn
      rw [m.back x (hXw x hx), m.back e he] at this
      exact List.mem_map_of_mem ((h2 e).2 ⟨x, hx, this⟩)
    · obtain ⟨e, he, rfl⟩ := List.mem_map.1 hz
      obtain ⟨x, hx, hn⟩ := (h2 e).1 he
      exact (h2' (f e)).2 ⟨f x, List.mem_map_of_mem hx, near m hP (hXw x hx) hn⟩
  subst this
  exact ⟨res, by rw [(C29_closest_text_partial h env own ht X).1, h1]; rfl, by rw [(C29_closest_text_partial h' env' own' ht (X.map f)).1, h1']; rfl⟩

end

/-! ### The same tree in two states -/

variable {D : Nat → Prop} {e : Ext}

/-- States with the same children and the same data. -/
theorem mirror_states (ok : HeapOk h D) (hD : ¬ D r) (hk : ∀ q, ¬ D q → h'.kids q = h.kids q) (hs : SameData h h') : Mirror h r h' r id id :=
  ⟨rfl, fun x hx => by rw [List.map_id]; exact hk x (within_live ok hD hx), fun x _ => ⟨(hs x).1, (hs x).2.1, (hs x).2.2.1⟩, fun _ _ => rfl⟩

theorem envMirror_self : EnvMirror h r env r env id := ⟨fun _ _ _ => Iff.rfl, rfl, fun _ _ => rfl⟩

/-- Questions to a tree: all of `find`, `filter`, `not`, `is`, `is_all`, `has` and `closest` with common selectors, on the sets for which they are right,
have the same answers in the two states. -/
structure SameAnswers (h h' : Heap) (r : Nat) (env : Env) (rt : Bool) (own : Nat → Bool) : Prop where
  find : ∀ {cx : Complex}, Common rt cx → Steady cx → (∀ s ∈ cx, s.1 = Comb.childrenAll) → ∀ {text : List Char}, SelText [cx] text →
    ∀ {S : List Nat}, Nodes h r S → DocSorted h r S → ∃ res, findText h env own S text = .ok (res, 0) ∧ findText h' env own S text = .ok (res, 0)
  findRoot : ∀ {cx : Complex}, Common rt cx → Steady cx → calm .anti cx = true → ∀ {text : List Char}, SelText [cx] text →
    ∃ res res', findText h env own [r] text = .ok (res, 0) ∧ findText h' env own [r] text = .ok (res', 0) ∧ ∀ z, z ∈ res' ↔ z ∈ res
  filter : ∀ {cx : Complex}, CommonTest rt false cx → ∀ {text : List Char}, SelText [cx] text → ∀ {X : List Nat}, Elems h r X → SibAsc h X →
    (∃ F, filterText h env own X text = .ok (F, 0) ∧ filterText h' env own X text = .ok (F, 0)) ∧
    (∃ N, notText h env own X text = .ok (N, 0) ∧ notText h' env own X text = .ok (N, 0)) ∧
    (∃ b, isText h env own X text = .ok (b, 0) ∧ isText h' env own X text = .ok (b, 0)) ∧
    ∃ b, isAllText h env own X text = .ok (b, 0) ∧ isAllText h' env own X text = .ok (b, 0)
  has : ∀ {sel : List Complex}, altsCommon rt true sel = true → ∀ {text : List Char}, SelText sel text → ∀ {X : List Nat}, (∀ x ∈ X, Within h r x) →
    ∃ F, hasText h env own X text = .ok (F, 0) ∧ hasText h' env own X text = .ok (F, 0)
  closest : ∀ {sel : List Complex}, altsCommon rt true sel = true → (∀ cx ∈ sel, looked cx = false) → ∀ {text : List Char}, SelText sel text →
    ∀ {X : List Nat}, Elems h r X → DocSorted h r X →
    ∃ res, closestText h env own X text = .ok (res, 0) ∧ closestText h' env own X text = .ok (res, 0)

/-- C82: states with the same children and the same data give the same answers, for every document in them. -/
theorem C82_states_partial (ok : HeapOk h D) (ok' : HeapOk h' D) (hk : ∀ q, ¬ D q → h'.kids q = h.kids q) (hs : SameData h h') (hsz : h'.size = h.size)
    (hr : (h.node r).kind = .root) (hb : r < h.size) (hD : ¬ D r) (ev : Metas h r) (sm : Small h r) (gr : Grounded h r env rt) (own : Nat → Bool) :
    SameAnswers h h' r env rt own := by
  have m := mirror_states ok hD hk hs
  have wf := ok.tree hr hD hb
  have wf' : TreeWF h' r := ok'.tree ((hs r).1.trans hr) hD (by omega)
  have wi : ∀ {x}, Within h' r x → Within h r x := fun hx => by obtain ⟨y, hy, rfl⟩ := m.preimage hx; exact hy
  have gr' : Grounded h' r env rt := fun h1 => ⟨fun x hx => (hs x).2.2.2.2.trans ((gr h1).1 x (wi hx)), fun i x hx => by
    obtain ⟨h2, h3⟩ := (gr h1).2 i x hx
    exact ⟨m.inside h2, (m.isElem h2).trans h3⟩⟩
  refine ⟨fun hc hst hd text ht S hS hs => ?_, fun hc hst hcalm text ht => ?_, fun hc text ht X hX hq => ?_, fun hc text ht X hX => ?_,
    fun hc hl text ht X hX hs => ?_⟩
  · have := C82_find_partial m envMirror_self wf wf' ev sm gr gr' own own hc hst hd ht hS hs
    simpa only [List.map_id] using this
  · have := C82_find_root_partial m envMirror_self wf wf' ev sm gr gr' own own hc hst hcalm ht
    simpa only [List.map_id] using this
  · have := C82_filter_partial m envMirror_self wf wf' ev sm gr gr' own own hc ht hX hq
    simpa only [List.map_id] using this
  · have := C82_has_partial m envMirror_self wf wf' ev sm gr gr' own own hc ht hX
    simpa only [List.map_id] using this
  · have := C82_closest_partial m envMirror_self wf wf' ev sm gr gr' own own hc hl ht hX hs
    simpa only [List.map_id] using this

/-- C82 after a move there and back: all answers are what they were before. -/
theorem C82_there_and_back_partial (ok : HeapOk h D) {pos pos' : InsertPosition} {t t' n : Nat} (u : Usable e h D (.insert pos t n))
    (ha : Accepted e h t n) (hk : (h.node n).kind ≠ .root) (w : Welcome e h pos t [n])
    (ht' : Attached h D t' ∧ t' < h.size) (ha' : Accepted e h t' n) (w' : Welcome e h pos' t' [n]) (st : Stands h D t' n pos')
    (hr : (h.node r).kind = .root) (hb : r < h.size) (hD : ¬ D r) (ev : Metas h r) (sm : Small h r) (gr : Grounded h r env rt) (own : Nat → Bool) :
    ∃ h1 h2, h.insertAdjacent e pos t n = .ok h1 ∧ h1.insertAdjacent e pos' t' n = .ok h2 ∧ SameAnswers h h2 r env rt own := by
  obtain ⟨h1, h2, r1, r2, hkids, hdata, ok2⟩ := C75_there_and_back_partial ok u ha hk w ht' ha' w' st
  exact ⟨h1, h2, r1, r2, C82_states_partial ok ok2 hkids hdata (by rw [(data_insertAdjacent r2).size, (data_insertAdjacent r1).size]) hr hb hD ev sm gr own⟩

/-- C82 after removals in any order. -/
theorem C82_removals_partial (ok : HeapOk h D) {X Y : List Nat} (hX : ∀ x ∈ X, Attached h D x) (hnd : X.Nodup) (hp : X.Perm Y) :
    ∃ h1 h2, removeAll h X = .ok h1 ∧ removeAll h Y = .ok h2 ∧ ∀ r < h.size, (h.node r).kind = .root → ¬ D r →
      ∀ (env : Env) (rt : Bool) (own : Nat → Bool), Metas h2 r → Small h2 r → Grounded h2 r env rt → SameAnswers h2 h1 r env rt own := by
  obtain ⟨h1, r1, k1, d1, ok1, z1⟩ := removeAll_ok X h ok hX hnd
  obtain ⟨h2, r2, k2, d2, ok2, z2⟩ := removeAll_ok Y h ok (fun y hy => hX y (hp.mem_iff.2 hy)) (hp.nodup_iff.1 hnd)
  obtain ⟨g1, g2, s1, s2, hkids, hdata, -⟩ := C81_removals (rd := rd0) (e := ext0) ok hX hnd hp
  rw [r1] at s1; rw [r2] at s2; cases s1; cases s2
  exact ⟨h1, h2, r1, r2, fun r hb hr hD env rt own ev sm gr => C82_states_partial ok2 ok1 hkids hdata (by omega) ((d2 r).1.trans hr) (by omega) hD ev sm gr own⟩

/-- C82 after two insertions in either order. -/
theorem C82_inserts_partial (ok : HeapOk h D) {pos pos' : InsertPosition} {t t' n n' : Nat} (u : Usable e h D (.insert pos t n))
    (u' : Usable e h D (.insert pos' t' n')) (ha : Accepted e h t n) (ha' : Accepted e h t' n') (hk : (h.node n).kind ≠ .root)
    (hk' : (h.node n').kind ≠ .root) (w : Welcome e h pos t [n]) (w' : Welcome e h pos' t' [n']) (hn : n ≠ n') (hp : ¬ (pos = pos' ∧ t = t'))
    (f1 : t ≠ n' ∧ ¬ Above h n' t) (f2 : t' ≠ n ∧ ¬ Above h n t') :
    ∃ h1 h2 g1 g2, h.insertAdjacent e pos t n = .ok h1 ∧ h1.insertAdjacent e pos' t' n' = .ok h2 ∧
      h.insertAdjacent e pos' t' n' = .ok g1 ∧ g1.insertAdjacent e pos t n = .ok g2 ∧ ∀ r < h.size, (h.node r).kind = .root → ¬ D r →
      ∀ (env : Env) (rt : Bool) (own : Nat → Bool), Metas g2 r → Small g2 r → Grounded g2 r env rt → SameAnswers g2 h2 r env rt own := by
  obtain ⟨h1, h2, g1, g2, r1, r2, s1, s2, hkids, -, hdata, ok1, ok2, -⟩ := C81_inserts_partial (rd := rd0) ok u u' ha ha' hk hk' w w' hn hp f1 f2
  have z1 : h2.size = h.size := by rw [(data_insertAdjacent r2).size, (data_insertAdjacent r1).size]
  have z2 : g2.size = h.size := by rw [(data_insertAdjacent s2).size, (data_insertAdjacent s1).size]
  refine ⟨h1, h2, g1, g2, r1, r2, s1, s2, fun r hb hr hD env rt own ev sm gr => C82_states_partial ok2 ok1 hkids hdata (by omega) ?_ (by omega) hD ev sm gr own⟩
  rw [((data_insertAdjacent s2).same r).1, ((data_insertAdjacent s1).same r).1]; exact hr

/-- Everything moved up by three identities. -/
def shifted : Heap := ⟨demo.size + 3, fun x => if x < 3 then {} else
  let n := demo.node (x - 3)
  { n with childs := n.childs.map (·.map (· + 3)), parent := n.parent.map (· + 3), root := n.root.map (· + 3) }⟩

theorem shifted_mirror : Mirror demo 0 shifted 3 (· + 3) (· - 3) := by
  refine ⟨rfl, fun x _ => ?_, fun x _ => ?_, fun x _ => by simp⟩
  · simp only [Heap.kids, shifted, Nat.add_sub_cancel, if_neg (show ¬ x + 3 < 3 by omega)]
    cases (demo.node x).childs <;> rfl
  · simp [shifted]

theorem shifted_wf : TreeWF shifted 3 := wfCheck_sound (by decide)

theorem first_text : SelText [[(.childrenAll, [ty "p", .edge false false])]] "p:first-child".toList :=
  ⟨0, [], "p:first-child".toList, [], .mk .desc (.cons (.name (idText_letter (c := 'p') (by simp [NameStart]))) (by simp [Sim.isName]) (.one .edge)) .nil .nil,
    blank_nil, blank_nil, rfl⟩

/-- In the shifted copy of `demo` the answers are shifted. -/
example : (∃ res, findText demo env0 (fun _ => true) [1, 8] "p:first-child".toList = .ok (res, 0) ∧
      findText shifted env0 (fun _ => true) [4, 11] "p:first-child".toList = .ok (res.map (· + 3), 0)) ∧
    findText demo env0 (fun _ => true) [1, 8] "p:first-child".toList = .ok ([2, 6], 0) := by
  refine ⟨C82_find_partial (env := env0) (env' := env0) shifted_mirror ⟨fun _ _ _ => by simp [env0], rfl, fun _ _ => rfl⟩ demo_wf shifted_wf demo_env.metas demo_small
    (rt := false) (nomatch ·) (nomatch ·) (fun _ => true) (fun _ => true) (cx := [(.childrenAll, [ty "p", .edge false false])])
    ⟨by decide, by decide⟩ (fun s hs => by simp at hs; subst hs; exact .inr (by decide)) (by simp) first_text (S := [1, 8]) (fun x hx => ?_) ?_, by decide⟩
  · have : x = 1 ∨ x = 8 := by simpa using hx
    rcases this with rfl | rfl
    · exact ⟨wfCheck_within [0] (by decide) rfl, .inl (by decide)⟩
    · exact ⟨wfCheck_within [0] (by decide) rfl, .inl (by decide)⟩
  · have : Before demo 0 1 8 := .inr ⟨0, 0, 1, 1, 8, .self, by decide, rfl, rfl, .self, .self⟩
    simp only [DocSorted, List.pairwise_cons, List.mem_singleton, forall_eq, List.not_mem_nil, false_imp_iff, implies_true, List.Pairwise.nil, and_true]
    exact this

/-- The `b` goes into the paragraph and back: all answers are as before. -/
example : ∃ h1 h2, spare.insertAdjacent ext0 .beforeEnd 2 3 = .ok h1 ∧ h1.insertAdjacent ext0 .afterEnd 2 3 = .ok h2 ∧
    SameAnswers spare h2 0 env0 false (fun _ => true) := by
  have wf : TreeWF spare 0 := wfCheck_sound (by decide)
  exact C82_there_and_back_partial (e := ext0) spare_ok (pos := .beforeEnd) (pos' := .afterEnd) (t := 2) (t' := 2) (n := 3)
    (spare_usable (by decide)) (spare_accepted (by decide)) (by decide) (by unfold Welcome; decide) ⟨spare_attached (by decide), by decide⟩
    (spare_accepted (by decide)) (by unfold Welcome; decide) ⟨1, [], [4], id, by decide⟩ rfl (by decide) id
    (fun x hx _ => by
      have : ∀ x < spare.size, metaCheck (spare.node x).attrs = true := by decide
      exact metaCheck_sound (this x (wf.bound x hx))) (small_of_size wf (by decide)) (env := env0) (rt := false) (nomatch ·) _

/-- `twoAfter` as if it had been loaded in one piece. -/
def twoWhole : Heap := { twoAfter with node := fun x => { twoAfter.node x with root := some 0 } }

theorem twoWhole_mirror : Mirror twoAfter 0 twoWhole 0 id id :=
  ⟨rfl, fun x _ => by rw [List.map_id]; rfl, fun _ _ => ⟨rfl, rfl, rfl⟩, fun _ _ => rfl⟩

theorem twoAfter_wf : TreeWF twoAfter 0 := by
  obtain ⟨h', hr, wf, -⟩ := history_ready ext0_parse ext0_tables twoTrees_ok twoTrees_tables twoOps_ok (r := 0) (by decide) (by decide) two_unused
  rw [twoRun] at hr
  cases hr
  exact wf

theorem twoWhole_wf : TreeWF twoWhole 0 := by
  have wi : ∀ {x}, Within twoWhole 0 x → Within twoAfter 0 x := fun hx => by obtain ⟨y, hy, rfl⟩ := twoWhole_mirror.preimage hx; exact hy
  have wf := twoAfter_wf
  exact ⟨wf.rootParent, wf.rootKind, fun x hx => wf.onlyRoot x (wi hx), fun x hx => wf.leaf x (wi hx), fun p i c hp => wf.link p i c (wi hp),
    fun x hx => wf.bound x (wi hx)⟩

/-- **C82 fails** for several compounds where a node has come from a fragment: the document after the insertion and the same document loaded in one piece
are the same tree, and `filter("div b")` finds the `b` only in the second one. -/
theorem C82_fails_root : Mirror twoAfter 0 twoWhole 0 id id ∧ TreeWF twoAfter 0 ∧ TreeWF twoWhole 0 ∧
    filterQ twoAfter env0 [4] [divB] = .ok [] ∧ filterQ twoWhole env0 [4] [divB] = .ok [4] :=
  ⟨twoWhole_mirror, twoAfter_wf, twoWhole_wf, by decide, by decide⟩

end Visdom
