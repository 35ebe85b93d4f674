import Verif.Props.Navigate
import Verif.Props.NavComplex
import Verif.Props.Find
import Verif.Props.Filter
/-!
# C64, C65: laws between the query methods

Equations between calls, as a user of the library relies on them: a longer selector is two searches, `find` from the
document agrees with `filter`, `find` of a union is the union, `has` asks whether `find` finds something, and the
navigation methods undo each other.
-/
namespace Visdom
open Spec Classical
variable {h : Heap} {r : Nat} {env : Env}

theorem steps_app (a b : Complex) : steps h r env (a ++ b) = steps h r env a ++ steps h r env b := by
  induction a with
  | nil => rfl
  | cons s a ih => rw [List.cons_append, steps, steps, ih, List.cons_append]

theorem sel_app (A : Nat → Prop) (s t : List (Comb × (Nat → Bool))) : Sel h r A (s ++ t) = Sel h r (Sel h r A s) t := by
  unfold Sel
  rw [List.foldl_append]

theorem sel_congr {A B : Nat → Prop} (hAB : ∀ x, A x ↔ B x) (s : List (Comb × (Nat → Bool))) : Sel h r A s = Sel h r B s := by
  rw [show A = B from funext fun x => propext (hAB x)]

theorem sel_mono {A B : Nat → Prop} (hAB : ∀ x, A x → B x) (s : List (Comb × (Nat → Bool))) {e : Nat} (he : Sel h r A s e) : Sel h r B s e := by
  induction s generalizing A B with
  | nil => exact hAB e he
  | cons s l ih =>
    refine ih (A := Img h r A s) (B := Img h r B s) ?_ he
    rintro x ⟨h1, h2, y, hy, h3⟩
    exact ⟨h1, h2, y, hAB y hy, h3⟩

theorem basic_app {a b : Complex} (ha : Basic a) (hb : Basic b) : Basic (a ++ b) :=
  ⟨by simp [ha.1], fun s hs => (List.mem_append.1 hs).elim (ha.2 s) (hb.2 s)⟩

section
variable (wf : TreeWF h r) (ev : Metas h r)
include wf ev

/-- C64: `find("a b")` is `find("a").find("b")`, the same list, for selectors of basic rules joined by descendant
combinators, from every document-ordered set. -/
theorem C64_find_twice {a b : Complex} (ha : Basic a) (hb : Basic b) (da : ∀ s ∈ a, s.1 = Comb.childrenAll)
    (db : ∀ s ∈ b, s.1 = Comb.childrenAll) {S : List Nat} (hS : Nodes h r S) (hs : DocSorted h r S) :
    ∃ m res, find h env S [a] = .ok m ∧ find h env m [b] = .ok res ∧ find h env S [a ++ b] = .ok res := by
  obtain ⟨m, hm⟩ := C19_find_basic_descendants wf ev ha da hS hs
  have hms := C18_find_descendants wf ev (basic_findOk ha (by simp)) da hS hs hm
  have hme := C17_find_elements (ph := .sorted) wf ev (basic_findOk ha (by simp)) hS hs hm
  have hmi := C17_find_basic wf ev ha hS hs hm
  have dab : ∀ s ∈ a ++ b, s.1 = Comb.childrenAll := fun s hx => (List.mem_append.1 hx).elim (da s) (db s)
  obtain ⟨res, hr⟩ := C19_find_basic_descendants wf ev hb db (Elems.nodes hme) hms.1
  obtain ⟨res', hr'⟩ := C19_find_basic_descendants wf ev (basic_app ha hb) dab hS hs
  have h1 := C18_find_descendants wf ev (basic_findOk hb (by simp)) db (Elems.nodes hme) hms.1 hr
  have h2 := C18_find_descendants wf ev (basic_findOk (basic_app ha hb) (by simp)) dab hS hs hr'
  have h3 := C17_find_basic wf ev hb (Elems.nodes hme) hms.1 hr
  have h4 := C17_find_basic wf ev (basic_app ha hb) hS hs hr'
  have h5 := C17_find_elements (ph := .sorted) wf ev (basic_findOk hb (by simp)) (Elems.nodes hme) hms.1 hr
  have : res = res' := by
    refine docSorted_ext h1.1 h2.1 (fun x hx => (h5 x hx).1) (fun x => ?_) wf
    rw [h3, h4, steps_app, sel_app, sel_congr hmi]
  exact ⟨m, res, hm, hr, this ▸ hr'⟩

/-- C64: with other combinators in the second selector the members are the same, whenever both calls answer. -/
theorem C64_find_twice_members {a b : Complex} (ha : Basic a) (hb : Basic b) (da : ∀ s ∈ a, s.1 = Comb.childrenAll)
    {S m res res' : List Nat} (hS : Nodes h r S) (hs : DocSorted h r S) (hm : find h env S [a] = .ok m)
    (hr : find h env m [b] = .ok res) (hr' : find h env S [a ++ b] = .ok res') : ∀ e, e ∈ res' ↔ e ∈ res := by
  have hms := C18_find_descendants wf ev (basic_findOk ha (by simp)) da hS hs hm
  have hme := C17_find_elements (ph := .sorted) wf ev (basic_findOk ha (by simp)) hS hs hm
  have hmi := C17_find_basic wf ev ha hS hs hm
  intro e
  rw [C17_find_basic wf ev hb (Elems.nodes hme) hms.1 hr, C17_find_basic wf ev (basic_app ha hb) hS hs hr', steps_app, sel_app,
    sel_congr hmi]

/-- C64: what `find` finds from the document is what `filter` keeps of all elements: an element is found by
`find(s)` iff `filter(s)` on it alone keeps it. -/
theorem C64_find_filter {cx : Complex} (hb : BasicTest cx) (roots : 2 ≤ cx.length → Roots h r) {res : List Nat}
    (hr : find h env [r] [cx] = .ok res) {e : Nat} (he : Within h r e) (hel : h.isElem e = true) :
    e ∈ res ↔ filterQ h env [e] [cx] = .ok [e] := by
  rw [C17_find_basic wf ev hb.1 (nodes_root wf) (List.pairwise_singleton _ _) hr,
    C22_filter_basic wf ev hb roots (X := [e]) (fun x hx => by rw [List.mem_singleton.1 hx]; exact ⟨he, hel⟩),
    sel_congr (B := (· = r)) (by simp)]
  constructor
  · intro h1
    simp [h1]
  · intro h1
    by_contra h2
    simp [h2] at h1

/-- C64: `find(s)` from any set finds only elements that `filter(s)` keeps, when `s` begins without a combinator. -/
theorem C64_find_matches {ss : List Sim} {l : Complex} (hb : Basic ((.childrenAll, ss) :: l)) (roots : 1 ≤ l.length → Roots h r)
    {S res : List Nat} (hS : Nodes h r S) (hs : DocSorted h r S) (hr : find h env S [(.childrenAll, ss) :: l] = .ok res) :
    filterQ h env res [(.childrenAll, ss) :: l] = .ok res := by
  have hel := C17_find_elements (ph := .sorted) wf ev (basic_findOk hb (by simp)) hS hs hr
  have hbt : BasicTest ((.childrenAll, ss) :: l) := ⟨hb, by rintro s hs; cases hs; rfl⟩
  rw [C22_filter_basic wf ev hbt (fun hl => roots (by simpa using hl)) hel]
  congr 1
  refine List.filter_eq_self.2 fun e he => decide_eq_true ?_
  have h1 := (C17_find_basic wf ev hb hS hs hr e).1 he
  rw [steps] at h1 ⊢
  refine sel_mono (A := Img h r (· ∈ S) _) (B := Img h r (· = r) _) ?_ _ h1
  rintro x ⟨h2, h3, y, hy, h4⟩
  exact ⟨h2, h3, r, rfl, (within_cases ((hS.within y hy).trans h4.within)).resolve_left fun e => elem_ne_root wf h2 e.symm⟩

/-- C64: `find` of a union of sets finds what it finds from one of them. -/
theorem C64_find_union {cx : Complex} (hb : Basic cx) {S T U rs rt ru : List Nat} (hS : Nodes h r S) (hT : Nodes h r T)
    (sS : DocSorted h r S) (sT : DocSorted h r T) (sU : DocSorted h r U) (hU : ∀ x, x ∈ U ↔ x ∈ S ∨ x ∈ T)
    (h1 : find h env S [cx] = .ok rs) (h2 : find h env T [cx] = .ok rt) (h3 : find h env U [cx] = .ok ru) :
    ∀ e, e ∈ ru ↔ e ∈ rs ∨ e ∈ rt := by
  have hUn : Nodes h r U := fun x hx => ((hU x).1 hx).elim (hS x) (hT x)
  intro e
  rw [C17_find_basic wf ev hb hS sS h1, C17_find_basic wf ev hb hT sT h2, C17_find_basic wf ev hb hUn sU h3,
    sel_congr (B := fun x => ∃ i : Bool, (bif i then x ∈ S else x ∈ T)) (by intro x; rw [hU]; simp [or_comm]), sel_union]
  simp [or_comm]

/-- C64: `has(s)` keeps the elements from which `find(s)` finds something, for a single compound. -/
theorem C64_has_find {ss : List Sim} (hb : Basic [(.childrenAll, ss)]) {X : List Nat} (hX : Nodes h r X) :
    ∃ K, hasQ h env X [[(.childrenAll, ss)]] = .ok K ∧ K.Sublist X ∧
      ∀ x ∈ X, ∃ res, find h env [x] [[(.childrenAll, ss)]] = .ok res ∧ (x ∈ K ↔ res ≠ []) := by
  refine ⟨_, C24_has_basic wf ev (sel := [[(.childrenAll, ss)]]) (by simpa [BasicTest] using hb) (by simp) hX.within,
    List.filter_sublist, fun x hx => ?_⟩
  have hN : Nodes h r [x] := by intro y hy; rw [List.mem_singleton.1 hy]; exact hX x hx
  obtain ⟨res, hr⟩ := C19_find_basic_descendants wf ev hb (by simp) hN (List.pairwise_singleton _ _)
  have hi := C17_find_basic wf ev hb hN (List.pairwise_singleton _ _) hr
  refine ⟨res, hr, ?_⟩
  simp only [List.mem_filter, hx, true_and, decide_eq_true_eq]
  rw [show res ≠ [] ↔ ∃ e, e ∈ res from ⟨List.exists_mem_of_ne_nil _, fun ⟨e, he⟩ h0 => by simp [h0] at he⟩]
  refine exists_congr fun e => ?_
  rw [hi, anySat, anySat, steps, steps, step]
  simp only [Sel, List.foldl_cons, List.foldl_nil, or_false, Img, Rel, List.mem_singleton, exists_eq_left, decide_eq_true_eq]
  constructor
  · rintro ⟨h1, h2, -, h3, -⟩
    exact ⟨h2, h3, h1⟩
  · rintro ⟨h1, h2, h3⟩
    exact ⟨h3, h1, h1, h2, (within_cases ((hX.within x hx).trans h3.within)).resolve_left fun e => elem_ne_root wf h1 e.symm⟩

/-! ## Navigation -/

omit ev in
theorem prevSib_unique {a b y : Nat} (ha : NextSib h r a y) (hb : NextSib h r b y) (hea : h.isElem a = true)
    (heb : h.isElem b = true) : a = b := by
  rw [nextSib_index wf] at ha hb
  obtain ⟨a1, a2, ⟨p, a3, a4⟩, a5⟩ := (laterSib_index wf).1 ha.1
  obtain ⟨b1, b2, ⟨q, b3, b4⟩, b5⟩ := (laterSib_index wf).1 hb.1
  rw [a4] at b4
  obtain rfl : p = q := by simpa using b4
  rcases Nat.lt_trichotomy (h.index a) (h.index b) with h1 | h1 | h1
  · have := ha.2 b ((laterSib_index wf).2 ⟨a1, b1, ⟨p, a3, b3⟩, h1⟩) hb.1
    rw [heb] at this; cases this
  · exact sib_eq wf a1 b1 a3 b3 h1
  · have := hb.2 a ((laterSib_index wf).2 ⟨b1, a1, ⟨p, b3, a3⟩, h1⟩) ha.1
    rw [hea] at this; cases this

/-- C64: `children().parent()` gives back exactly the members that have an element child. -/
theorem C64_children_parent {X : List Nat} (hX : Elems h r X) :
    ∃ c res, childrenQ h env X none = .ok c ∧ parentQ h env c none = .ok res ∧ res.Nodup ∧
      ∀ e, e ∈ res ↔ e ∈ X ∧ ∃ k ∈ h.kids e, h.isElem k = true := by
  obtain ⟨c, h1, h2⟩ := C25_children wf ev (env := env) (Elems.nodes hX)
  have hc : Elems h r c := fun x hx => by
    obtain ⟨k1, y, k2, k3⟩ := (h2 x).1 hx
    exact ⟨.step (hX y k2).1 k3, k1⟩
  obtain ⟨res, h3, h4, h5⟩ := C25_parent wf ev (env := env) (Elems.nodes hc)
  refine ⟨c, res, h1, h3, h4, fun e => ?_⟩
  rw [h5]
  constructor
  · rintro ⟨k1, y, k2, k3, k4⟩
    obtain ⟨k5, x, k6, k7⟩ := (h2 y).1 k2
    have := parent_of_child wf k4 k3
    rw [parent_of_child wf (hX x k6).1 k7] at this
    cases this
    exact ⟨k6, y, k3, k5⟩
  · rintro ⟨k1, k, k2, k3⟩
    exact ⟨(hX e k1).2, k, (h2 k).2 ⟨k3, e, k1, k2⟩, k2, (hX e k1).1⟩

/-- C64: `next().prev()` gives back exactly the members that have a next element sibling; and `prev().next()` those that
have a previous one. -/
theorem C64_next_prev {X : List Nat} (hX : Elems h r X) :
    (∃ n res, nextQ h env X none = .ok n ∧ prevQ h env n none = .ok res ∧
      ∀ e, e ∈ res ↔ e ∈ X ∧ ∃ k, NextSib h r e k ∧ h.isElem k = true) ∧
    (∃ p res, prevQ h env X none = .ok p ∧ nextQ h env p none = .ok res ∧
      ∀ e, e ∈ res ↔ e ∈ X ∧ ∃ k, NextSib h r k e ∧ h.isElem k = true) := by
  constructor
  · obtain ⟨c, h1, h2⟩ := C25_next wf ev (env := env) (Elems.nodes hX)
    have hc : Elems h r c := fun x hx => by
      obtain ⟨k1, y, k2, k3⟩ := (h2 x).1 hx
      exact ⟨((laterSib_index wf).1 (nextSib_later k3)).2.1, k1⟩
    obtain ⟨res, h3, h5⟩ := C25_prev wf ev (env := env) (Elems.nodes hc)
    refine ⟨c, res, h1, h3, fun e => ?_⟩
    rw [h5]
    constructor
    · rintro ⟨k1, y, k2, k3⟩
      obtain ⟨k5, x, k6, k7⟩ := (h2 y).1 k2
      obtain rfl := prevSib_unique wf k3 k7 k1 (hX x k6).2
      exact ⟨k6, y, k3, k5⟩
    · rintro ⟨k1, k, k2, k3⟩
      exact ⟨(hX e k1).2, k, (h2 k).2 ⟨k3, e, k1, k2⟩, k2⟩
  · obtain ⟨c, h1, h2⟩ := C25_prev wf ev (env := env) (Elems.nodes hX)
    have hc : Elems h r c := fun x hx => by
      obtain ⟨k1, y, k2, k3⟩ := (h2 x).1 hx
      exact ⟨((laterSib_index wf).1 (nextSib_later k3)).1, k1⟩
    obtain ⟨res, h3, h5⟩ := C25_next wf ev (env := env) (Elems.nodes hc)
    refine ⟨c, res, h1, h3, fun e => ?_⟩
    rw [h5]
    constructor
    · rintro ⟨k1, y, k2, k3⟩
      obtain ⟨k5, x, k6, k7⟩ := (h2 y).1 k2
      obtain rfl := nextSib_unique wf k3 k7 k1 (hX x k6).2
      exact ⟨k6, y, k3, k5⟩
    · rintro ⟨k1, k, k2, k3⟩
      exact ⟨(hX e k1).2, k, (h2 k).2 ⟨k3, e, k1, k2⟩, k2⟩

/-- C64: `parents()` is `parent()` together with `parent().parents()`. -/
theorem C64_parents {X : List Nat} (hX : Nodes h r X) :
    ∃ p a aa, parentQ h env X none = .ok p ∧ parentsQ h env X none = .ok a ∧ parentsQ h env p none = .ok aa ∧
      ∀ e, e ∈ a ↔ e ∈ p ∨ e ∈ aa := by
  obtain ⟨p, h1, -, h2⟩ := C25_parent wf ev (env := env) hX
  have hp : Elems h r p := fun x hx => by
    obtain ⟨k1, y, k2, k3, k4⟩ := (h2 x).1 hx
    exact ⟨k4, k1⟩
  obtain ⟨a, h3, -, h4⟩ := C25_parents wf ev (env := env) hX
  obtain ⟨aa, h5, -, h6⟩ := C25_parents wf ev (env := env) (Elems.nodes hp)
  refine ⟨p, a, aa, h1, h3, h5, fun e => ?_⟩
  rw [h4, h2, h6]
  constructor
  · rintro ⟨k1, k2, y, k3, k4⟩
    obtain ⟨q, k5, k6⟩ := k4.last
    rcases within_cases k5 with rfl | k5
    · exact .inl ⟨k1, y, k3, k6, k2⟩
    · have hq : Within h r q := k2.trans k5.within
      have hne : q ≠ r := by
        rintro rfl
        obtain ⟨w, k7, k8⟩ := k5.last
        have := parent_of_child wf (k2.trans k7) k8
        rw [wf.rootParent] at this
        cases this
      have hqe : h.isElem q = true := by
        by_contra hq'
        have := wf.leaf q hq (fun hk => hne (wf.onlyRoot q hq hk)) (fun hk => hq' (by simp [Heap.isElem, hk]))
        rw [this] at k6
        cases k6
      exact .inr ⟨k1, k2, q, (h2 q).2 ⟨hqe, y, k3, k6, hq⟩, k5⟩
  · rintro (⟨k1, y, k3, k6, k2⟩ | ⟨k1, k2, q, k3, k4⟩)
    · exact ⟨k1, k2, y, k3, .of_child k6⟩
    · obtain ⟨-, y, k5, k6, -⟩ := (h2 q).1 k3
      exact ⟨k1, k2, y, k5, k4.trans (.of_child k6)⟩

/-- C64: an element is among the `parents()` of another one exactly if the other one is among what `find("*")` finds
from it. -/
theorem C64_parents_find {x y : Nat} (hx : Within h r x) (hxe : h.isElem x = true) (hy : Within h r y) (hye : h.isElem y = true) :
    ∃ a d, parentsQ h env [y] none = .ok a ∧ find h env [x] [[(.childrenAll, [.all])]] = .ok d ∧ (x ∈ a ↔ y ∈ d) := by
  have hN : ∀ z, Within h r z → h.isElem z = true → Nodes h r [z] := by
    intro z h1 h2 w hw; rw [List.mem_singleton.1 hw]; exact ⟨h1, .inl h2⟩
  have hb : Basic [(.childrenAll, [.all])] := ⟨by simp, by simp [Comb.down, Sim.basic]⟩
  obtain ⟨a, h3, -, h4⟩ := C25_parents wf ev (env := env) (hN y hy hye)
  obtain ⟨d, hd⟩ := C19_find_basic_descendants wf ev (env := env) hb (by simp) (hN x hx hxe) (List.pairwise_singleton _ _)
  refine ⟨a, d, h3, hd, ?_⟩
  rw [h4, C17_find_basic wf ev hb (hN x hx hxe) (List.pairwise_singleton _ _) hd, steps, steps, step]
  simp [Sel, Img, Rel, hx, hxe, hye, cmpdSat, Sim.Sat]

/-- C64: `next_all()` is `next()` together with `next().next_all()`. -/
theorem C64_next_all {X : List Nat} (hX : Nodes h r X) (hs : DocSorted h r X) :
    ∃ n a na, nextQ h env X none = .ok n ∧ nextAllQ h env X none = .ok a ∧ nextAllQ h env n none = .ok na ∧
      ∀ e, e ∈ a ↔ e ∈ n ∨ e ∈ na := by
  obtain ⟨n, h0, -, h2, h1, -⟩ := nav_pair (env := env) wf ev (c := .next) (by simp) (by simp) (q := .any)
    (all_cmpdOk .any _) hX trivial (fun _ _ => trivial)
  have hasc : SibAsc h n := by
    simp only [cands, Except.ok.injEq] at h0
    subst h0
    exact filterMap_next_sibAsc wf hX (docSorted_sibAsc wf hX.within hs)
  have hn : Elems h r n := fun x hx => by
    obtain ⟨k1, y, k2, k3⟩ := (h2 x).1 hx
    exact ⟨((laterSib_index wf).1 (nextSib_later k3)).2.1, k1⟩
  obtain ⟨a, h3, -, h4⟩ := C25_next_all_partial wf ev (env := env) hX (docSorted_sibAsc wf hX.within hs)
  obtain ⟨na, h5, -, h6⟩ := C25_next_all_partial wf ev (env := env) (Elems.nodes hn) hasc
  refine ⟨n, a, na, h1, h3, h5, fun e => ?_⟩
  rw [h4, h2, h6]
  constructor
  · rintro ⟨k1, y, k2, k3⟩
    obtain ⟨z, k4, k5, k6⟩ := exists_nextSib wf k3 k1
    rcases k6 with rfl | k6
    · exact .inl ⟨k1, y, k2, k4⟩
    · exact .inr ⟨k1, z, (h2 z).2 ⟨k5, y, k2, k4⟩, k6⟩
  · rintro (⟨k1, y, k2, k3⟩ | ⟨k1, z, k2, k3⟩)
    · exact ⟨k1, y, k2, nextSib_later k3⟩
    · obtain ⟨-, y, k4, k5⟩ := (h2 z).1 k2
      exact ⟨k1, y, k4, laterSib_trans wf (nextSib_later k5) k3⟩

/-- C64: `siblings()` of an element together with the element are the `children()` of its `parent()`. -/
theorem C64_siblings {x p : Nat} (hx : Within h r x) (hxe : h.isElem x = true) (hp : h.parent x = some p) (hpe : h.isElem p = true) :
    ∃ s q c, siblingsQ h env [x] none = .ok s ∧ parentQ h env [x] none = .ok q ∧ childrenQ h env q none = .ok c ∧
      x ∉ s ∧ ∀ e, e ∈ c ↔ e = x ∨ e ∈ s := by
  have hN : Nodes h r [x] := by intro w hw; rw [List.mem_singleton.1 hw]; exact ⟨hx, .inl hxe⟩
  obtain ⟨hpw, hpx⟩ := parent_some wf hx hp
  have hxk : x ∈ h.kids p := List.mem_of_getElem? hpx
  obtain ⟨s, h1, -, h2⟩ := C25_siblings_partial wf ev (env := env) hN (by simp)
  obtain ⟨q, h3, -, h4⟩ := C25_parent wf ev (env := env) hN
  have hq : ∀ e, e ∈ q ↔ e = p := by
    intro e
    rw [h4]
    constructor
    · rintro ⟨k1, y, k2, k3, k4⟩
      rw [List.mem_singleton.1 k2] at k3
      have := parent_of_child wf k4 k3
      rw [hp] at this
      cases this
      rfl
    · rintro rfl
      exact ⟨hpe, x, by simp, hxk, hpw⟩
  have hqN : Nodes h r q := fun e he => by rw [(hq e).1 he]; exact ⟨hpw, .inl hpe⟩
  obtain ⟨c, h5, h6⟩ := C25_children wf ev (env := env) hqN
  refine ⟨s, q, c, h1, h3, h5, ?_, fun e => ?_⟩
  · rw [h2]
    rintro ⟨-, y, k1, z, k2, k3, k4, k5⟩
    exact k5 (List.mem_singleton.1 k1)
  · rw [h6, h2]
    constructor
    · rintro ⟨k1, y, k2, k3⟩
      rw [(hq y).1 k2] at k3
      by_cases he : e = x
      · exact .inl he
      · exact .inr ⟨k1, x, by simp, p, hpw, hxk, k3, fun k => he k.symm⟩
    · rintro (rfl | ⟨k1, y, k2, z, k3, k4, k5, k6⟩)
      · exact ⟨hxe, p, (hq p).2 rfl, hxk⟩
      · rw [List.mem_singleton.1 k2] at k4
        have := parent_of_child wf k3 k4
        rw [hp] at this
        cases this
        exact ⟨k1, p, (hq p).2 rfl, k5⟩

/-! ## contains -/

/-- C65: `contains(x, comb)` holds exactly if `x` is related to a member of the set by the combinator, for the four
combinators of selectors. -/
theorem C65_contains_partial {c : Comb} (hc : c = .childrenAll ∨ c = .children ∨ c = .next ∨ c = .nextAll) {S : List Nat}
    (hS : Nodes h r S) {x : Nat} (hx : Within h r x) :
    ∃ b, containsQ h S x c = .ok b ∧ (b = true ↔ ∃ y ∈ S, Rel h r c y x) := by
  have hd : Comb.down c = true := by rcases hc with rfl | rfl | rfl | rfl <;> rfl
  obtain ⟨b, h1, h2⟩ := hasRelated_ok wf hd hS (l := [x]) (by simpa using hx)
  refine ⟨b, ?_, by simpa using h2⟩
  unfold containsQ hasEle0
  rw [(reverse_down hd).1]
  exact h1

end

/-- With `Chain` it is membership. -/
theorem C65_contains_chain (S : List Nat) (x : Nat) : containsQ h S x .chain = .ok (decide (x ∈ S)) := by
  simp [containsQ, hasEle0, Comb.reverse, hasRelated]

/-- The other combinators, which the public type also has, panic on every set. -/
theorem C65_fails_contains (S : List Nat) (x : Nat) {c : Comb}
    (hc : c = .parent ∨ c = .parentAll ∨ c = .prev ∨ c = .prevAll ∨ c = .siblings) : containsQ h S x c = .error .explicit := by
  rcases hc with rfl | rfl | rfl | rfl | rfl <;> rfl

/-- `has` and `find` disagree for several compounds: the `div` around the set counts for `has` and not for `find`. -/
theorem C64_has_several : hasQ demo env0 [5] [[(.childrenAll, [ty "div"]), (.childrenAll, [ty "p"])]] = .ok [5] ∧
    find demo env0 [5] [[(.childrenAll, [ty "div"]), (.childrenAll, [ty "p"])]] = .ok [] := by decide

/-! Cases. -/

example : find demo env0 [0] [[(.childrenAll, [ty "div"])]] = .ok [1, 5] ∧ find demo env0 [1, 5] [[(.childrenAll, [ty "p"])]] = .ok [2, 6] ∧
    find demo env0 [0] [[(.childrenAll, [ty "div"]), (.childrenAll, [ty "p"])]] = .ok [2, 6] := by decide

/-- The hypotheses of the laws on the sample document. -/
example : BasicTest [(.childrenAll, [ty "div"]), (.children, [ty "p"])] ∧ Roots demo 0 ∧
    find demo env0 [0] [[(.childrenAll, [ty "div"]), (.children, [ty "p"])]] = .ok [2, 6] ∧
    filterQ demo env0 [6] [[(.childrenAll, [ty "div"]), (.children, [ty "p"])]] = .ok [6] ∧
    filterQ demo env0 [9] [[(.childrenAll, [ty "div"]), (.children, [ty "p"])]] = .ok [] ∧
    hasQ demo env0 [5, 8] [[(.childrenAll, [ty "p"])]] = .ok [5] ∧ find demo env0 [8] [[(.childrenAll, [ty "p"])]] = .ok [] :=
  ⟨⟨⟨by decide, by decide⟩, by simp⟩, demo_env.roots, by decide, by decide, by decide, by decide, by decide⟩

example : childrenQ demo env0 [1, 6, 8] none = .ok [2, 5, 9] ∧ parentQ demo env0 [2, 5, 9] none = .ok [1, 8] := by decide

example : containsQ demo [5, 8] 7 .childrenAll = .ok true ∧ containsQ demo [6] 7 .next = .ok true ∧
    containsQ demo [7] 6 .next = .ok false := by decide

end Visdom
