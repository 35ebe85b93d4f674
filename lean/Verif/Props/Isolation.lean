import Mathlib.Data.Fintype.Card
import Mathlib.Data.Fintype.EquivFin
import Verif.Proofs.Apart
import Verif.Proofs.Agree
import Verif.Proofs.ParseSample
import Verif.Props.Find
import Verif.Props.SetAttrs
import Verif.Props.TextContent
/-!
# C63: mutations stay in their document; clones are independent
-/
namespace Visdom
open Spec

section
variable {h h' : Heap} {w : World}

/-- C63: let a part of the heap have no links to and from the rest. Calls that are not given a node of it, any number in any order, even with
handles that are out of place and fragments used twice, leave every node of it exactly as it was, and do not link it with anything. -/
theorem C63_isolated (ok : w.Ok) {Z : Nat → Prop} (a : Separate h Z) {cs : List Call} (hg : ∀ c ∈ cs, ∀ x ∈ c.given, ¬ Z x)
    (hr : callAll w h cs = .ok h') : (∀ z, Z z → h'.node z = h.node z) ∧ Separate h' Z :=
  have k := keep_callAll ok cs h a.out hg hr
  ⟨k.same, k.apart a⟩

theorem belongs_separate (ok : HeapOk h noneUsed) {r : Nat} (hk : (h.node r).kind = .root) (hb : r < h.size) :
    Separate h (Belongs h r) := by
  have hp : ∀ x p, h.parent x = some p → (Belongs h r x ↔ Belongs h r p) := by
    intro x p hp
    constructor
    · rintro (rfl | h1)
      · rw [ok.top x hk] at hp; cases hp
      · rcases above_cases h1 hp with rfl | h2
        · exact .inl rfl
        · exact .inr h2
    · rintro (rfl | h1)
      · exact .inr (.parent hp)
      · exact .inr (.step h1 hp)
  refine ⟨hp, fun x c hc => ?_, ?_⟩
  · obtain ⟨i, hi⟩ := List.mem_iff_getElem?.1 hc
    exact (hp c x (ok.link x i c (fun h => h) hi).1).symm
  · rintro x (rfl | h1)
    · exact hb
    · cases h1 with
      | parent h2 => exact (ok.bound _ _ h2).1
      | step _ h2 => exact (ok.bound _ _ h2).1

theorem within_belongs (ok : HeapOk h noneUsed) {r x : Nat} (hw : Within h r x) : Belongs h r x := by
  induction hw with
  | self => exact .inl rfl
  | step _ hc ih =>
    obtain ⟨i, hi⟩ := List.mem_iff_getElem?.1 hc
    have hp := (ok.link _ i _ (fun h => h) hi).1
    rcases ih with rfl | h1
    · exact .inr (.parent hp)
    · exact .inr (.step h1 hp)

/-- C63: whatever is done with nodes of other documents and fragments, a document stays as it is: each of its nodes, the tree, what every
selector means in it, and so what `find` returns (selectors of basic rules; the same list when they look for descendants). Missing: heaps in
which a fragment has been used before; its root still lists the nodes that are now in the document (`C63_fails_used`). -/
theorem C63_document_partial (ok : w.Ok) (hok : HeapOk h noneUsed) {r : Nat} (hk : (h.node r).kind = .root) (hb : r < h.size) {cs : List Call}
    (hg : ∀ c ∈ cs, ∀ x ∈ c.given, ¬ Belongs h r x) (hr : callAll w h cs = .ok h') :
    (∀ x, Belongs h r x → h'.node x = h.node x) ∧ TreeWF h' r ∧ (∀ x, Within h' r x ↔ Within h r x) ∧
      (∀ (env : Env) (S : List Nat) (cx : Complex), (∀ x ∈ S, Within h r x) →
        ∀ x, Sel h' r (· ∈ S) (steps h' r env cx) x ↔ Sel h r (· ∈ S) (steps h r env cx) x) ∧
      (Metas h r → ∀ (env : Env) (S : List Nat) (cx : Complex), Basic cx → Nodes h r S → DocSorted h r S →
        (∀ res res', find h env S [cx] = .ok res → find h' env S [cx] = .ok res' → ∀ x, x ∈ res' ↔ x ∈ res) ∧
        ((∀ s ∈ cx, s.1 = Comb.childrenAll) → find h' env S [cx] = find h env S [cx])) := by
  have k := keep_callAll ok cs h (belongs_separate hok hk hb).out hg hr
  have wf : TreeWF h r := hok.tree hk (fun h => h) hb
  have a : Agree h h' r := fun x hx => k.same x (within_belongs hok hx)
  have wf' : TreeWF h' r := a.treeWF k.size wf
  have hsel : ∀ (env : Env) (S : List Nat) (cx : Complex), (∀ x ∈ S, Within h r x) →
      ∀ x, Sel h' r (· ∈ S) (steps h' r env cx) x ↔ Sel h r (· ∈ S) (steps h r env cx) x :=
    fun env S cx hS => a.sel_iff (a.steps_eq cx) hS fun _ => Iff.rfl
  refine ⟨k.same, wf', fun x => a.within_iff .self, hsel, fun ev env S cx hc hS hs => ?_⟩
  have hS' : Nodes h' r S := fun x hx => ⟨a.within .self (hS x hx).1, by rw [a.isElem (hS x hx).1]; exact (hS x hx).2⟩
  have hs' : DocSorted h' r S := by
    refine List.Pairwise.imp_of_mem (fun {x y} hx _ hb => ?_) hs
    exact (a.before_iff (hS x hx).1).2 hb
  have hmem : ∀ res res', find h env S [cx] = .ok res → find h' env S [cx] = .ok res' → ∀ x, x ∈ res' ↔ x ∈ res := by
    intro res res' h1 h2 x
    rw [C17_find_basic wf ev hc hS hs h1 x, C17_find_basic wf' (a.metas ev) hc hS' hs' h2 x]
    exact hsel env S cx (fun y hy => (hS y hy).1) x
  refine ⟨hmem, fun hd => ?_⟩
  obtain ⟨res, h1⟩ := C19_find_basic_descendants (env := env) wf ev hc hd hS hs
  obtain ⟨res', h2⟩ := C19_find_basic_descendants (env := env) wf' (a.metas ev) hc hd hS' hs'
  rw [h1, h2]
  congr 1
  have d1 := (C18_find_descendants wf ev (basic_findOk hc (by simp)) hd hS hs h1).1
  have d2 := (C18_find_descendants wf' (a.metas ev) (basic_findOk hc (by simp)) hd hS' hs' h2).1
  have e1 := C17_find_elements (ph := .sorted) wf ev (basic_findOk hc (by simp)) hS hs h1
  have d2' : DocSorted h r res' := List.Pairwise.imp_of_mem (fun {x y} hx _ hb => (a.before_iff (e1 x ((hmem res res' h1 h2 x).1 hx)).1).1 hb) d2
  exact docSorted_ext d2' d1 (fun x hx => (e1 x ((hmem res res' h1 h2 x).1 hx)).1) (hmem res res' h1 h2) wf

theorem Spec.Added.refl (h : Heap) : Added h h := ⟨Nat.le_refl _, fun _ _ => rfl, fun _ h1 h2 => by omega, fun _ _ => rfl⟩

theorem Spec.Added.trans {h1 h2 : Heap} (a : Added h h1) (b : Added h1 h2) : Added h h2 := by
  have h3 := a.size
  have h4 := b.size
  refine ⟨a.size.trans b.size, fun y hy => (b.old y (Nat.lt_of_lt_of_le hy a.size)).trans (a.old y hy), fun y hy1 hy2 => ?_,
    fun y hy => (b.rest y hy).trans (a.rest y (by omega))⟩
  by_cases hb : y < h1.size
  · have h6 := a.new y hy1 hb
    unfold Heap.parent Heap.kids
    rw [b.old y hb]
    exact ⟨fun p hp => ⟨(h6.1 p hp).1, by have := (h6.1 p hp).2; omega⟩, fun c hc => ⟨(h6.2 c hc).1, by have := (h6.2 c hc).2; omega⟩⟩
  · have h5 := b.new y (by omega) hy2
    exact ⟨fun p hp => ⟨by have := (h5.1 p hp).1; omega, (h5.1 p hp).2⟩, fun c hc => ⟨by have := (h5.2 c hc).1; omega, (h5.2 c hc).2⟩⟩

theorem Spec.Added.agree {h1 : Heap} (a : Added h h1) {x : Nat} (f : FiniteTree h x) : Agree h h1 x := fun y hy => a.old y (f.1 y hy)

theorem Spec.FiniteTree.kid {x c : Nat} (f : FiniteTree h x) (hc : c ∈ h.kids x) : FiniteTree h c :=
  ⟨fun y hy => f.1 y (Within.trans (.step .self hc) hy), f.2.inv hc⟩

theorem Spec.FiniteTree.added {h1 : Heap} (a : Added h h1) {x : Nat} (f : FiniteTree h x) : FiniteTree h1 x := by
  obtain ⟨f1, f2⟩ := f
  induction f2 with
  | intro x _ ih =>
    have ag : Agree h h1 x := a.agree ⟨f1, .intro x (by assumption)⟩
    refine ⟨fun y hy => Nat.lt_of_lt_of_le (f1 y (ag.within' .self hy)) a.size, .intro x fun c hc => ?_⟩
    rw [ag.kids .self] at hc
    exact (ih c hc (fun y hy => f1 y (Within.trans (.step .self hc) hy))).2

/-- The original is read in an older heap. -/
theorem sameTo_old {h1 h2 : Heap} (a : Added h h1) : ∀ (k x c : Nat), FiniteTree h x → SameTo h1 h2 k x c → SameTo h h2 k x c
  | 0, _, _, _, _ => trivial
  | k + 1, x, c, f, s => by
    obtain ⟨s1, s2, s3, s4, s5, s6⟩ := s
    have e := a.agree f x .self
    have ek := (a.agree f).kids .self
    rw [e] at s1 s2 s3 s4
    rw [ek] at s5 s6
    exact ⟨s1, s2, s3, s4, s5, fun i u v hu hv => sameTo_old a k u v (f.kid (mem_of_get hu)) (s6 i u v hu hv)⟩

/-- The copy is read in a newer heap. -/
theorem sameTo_new {h0 h1 h2 : Heap} (a : Added h0 h1) (b : Added h1 h2) : ∀ (k x c : Nat), h0.size ≤ c → c < h1.size →
    (∀ y, h0.size ≤ y → y < h1.size → ∀ d ∈ h1.kids y, h0.size ≤ d ∧ d < h1.size) → SameTo h h1 k x c → SameTo h h2 k x c
  | 0, _, _, _, _, _, _ => trivial
  | k + 1, x, c, hc1, hc2, hn, s => by
    obtain ⟨s1, s2, s3, s4, s5, s6⟩ := s
    have e := b.old c hc2
    have ek : h2.kids c = h1.kids c := by unfold Heap.kids; rw [e]
    rw [← e] at s1 s2 s3 s4
    rw [← ek] at s5
    refine ⟨s1, s2, s3, s4, s5, fun i u v hu hv => ?_⟩
    rw [ek] at hv
    have := hn c hc1 hc2 v (mem_of_get hv)
    exact sameTo_new a b k u v this.1 this.2 hn (s6 i u v hu hv)

mutual
theorem textOf_same {dec : List Char → List Char} {x : Nat} {s : List Char} : TextOf dec h x s → ∀ c, SameTree h h' x c → TextOf dec h' c s
  | .text hk, c, st => by
    obtain ⟨s1, _, _, s4, _, _⟩ := st 1
    rw [← s4]
    exact .text (by rw [s1]; exact hk)
  | .elem hk ht, c, st => by
    obtain ⟨s1, _, _, _, s5, _⟩ := st 1
    refine .elem (by rw [s1]; exact hk) (textsOf_same ht (h'.kids c) s5 fun i a b ha hb k => ?_)
    exact (st (k + 1)).2.2.2.2.2 i a b ha hb

theorem textsOf_same {dec : List Char → List Char} {l : List Nat} {s : List Char} : TextsOf dec h l s → ∀ (l' : List Nat), l'.length = l.length →
    (∀ (i a b : Nat), l[i]? = some a → l'[i]? = some b → SameTree h h' a b) → TextsOf dec h' l' s
  | .nil, l', hl, _ => by
    obtain rfl := List.length_eq_zero_iff.1 hl
    exact .nil
  | .cons h1 h2, [], hl, _ => by simp at hl
  | .cons h1 h2, b :: l', hl, hs => by
    refine .cons (textOf_same h1 b (hs 0 _ b rfl rfl)) (textsOf_same h2 l' (by simpa using hl) fun i a b ha hb => ?_)
    exact hs (i + 1) a b (by simpa using ha) (by simpa using hb)
end

theorem heapOk_finite (ok : HeapOk h noneUsed) {x : Nat} (hx : x < h.size) : FiniteTree h x := by
  have hp : ∀ p c, c ∈ h.kids p → h.parent c = some p := by
    intro p c hc
    obtain ⟨i, hi⟩ := List.mem_iff_getElem?.1 hc
    exact (ok.link p i c (fun h => h) hi).1
  have hin : ∀ y, Within h x y → y < h.size := by
    intro y hy
    cases hy with
    | self => exact hx
    | step _ hc => exact (ok.bound _ _ (hp _ _ hc)).1
  refine ⟨hin, ?_⟩
  let R : Fin h.size → Fin h.size → Prop := fun c p => Above h p c
  haveI : IsTrans (Fin h.size) R := ⟨fun a b c hab hbc => Above.trans hbc hab⟩
  haveI : Std.Irrefl R := ⟨fun a => ok.not_above_self a⟩
  have wf : WellFounded R := Finite.wellFounded_of_trans_of_irrefl R
  have key : ∀ y : Fin h.size, Acc (fun c p => c ∈ h.kids p) (y : Nat) := by
    intro y
    induction y using wf.induction with
    | _ y ih =>
      refine .intro _ fun c hc => ?_
      have hpc := hp _ _ hc
      exact ih ⟨c, (ok.bound _ _ hpc).1⟩ (.parent hpc)
  exact key ⟨x, hx⟩

theorem copyAll_spec (ok : w.Ok) : ∀ (X : List Nat) (h : Heap), (∀ x ∈ X, FiniteTree h x) →
    Added h (copyAll w.copy h X).1 ∧
      List.Forall₂ (fun x y => h.size ≤ y ∧ y < (copyAll w.copy h X).1.size ∧ SameTree h (copyAll w.copy h X).1 x y) X (copyAll w.copy h X).2
  | [], h, _ => ⟨.refl h, .nil⟩
  | x :: X, h, hX => by
    have a := ok.added h x
    have c := ok.copy h x ((hX x (by simp)).1 x .self)
    obtain ⟨i1, i2⟩ := copyAll_spec ok X (w.copy h x).1 fun y hy => (hX y (by simp [hy])).added a
    refine ⟨a.trans i1, .cons ⟨c.1, Nat.lt_of_lt_of_le c.2 i1.size, fun k => ?_⟩ ?_⟩
    · exact sameTo_new a i1 k x _ c.1 c.2 (fun y hy1 hy2 d hd => (a.new y hy1 hy2).2 d hd) (ok.same h x (hX x (by simp)) k)
    · have hX' : ∀ y ∈ X, FiniteTree h y := fun y hy => hX y (by simp [hy])
      show List.Forall₂ (fun x' y => h.size ≤ y ∧ y < (copyAll w.copy (w.copy h x).1 X).1.size ∧
        SameTree h (copyAll w.copy (w.copy h x).1 X).1 x' y) X (copyAll w.copy (w.copy h x).1 X).2
      generalize (copyAll w.copy (w.copy h x).1 X).1 = g at i2 ⊢
      generalize (copyAll w.copy (w.copy h x).1 X).2 = Y at i2 ⊢
      clear hX i1
      induction i2 with
      | nil => exact .nil
      | cons h1 _ ih =>
        refine .cons ⟨a.size.trans h1.1, h1.2.1, fun k => ?_⟩ (ih fun y hy => hX' y (by simp [hy]))
        exact sameTo_old a k _ _ (hX' _ (by simp)) (h1.2.2 k)

theorem separate_added {h1 : Heap} (hok : HeapOk h noneUsed) (a : Added h h1) :
    Separate h1 (· < h.size) ∧ Separate h1 fun z => h.size ≤ z ∧ z < h1.size := by
  have hk : ∀ p c, c ∈ h.kids p → h.parent c = some p := by
    intro p c hc
    obtain ⟨i, hi⟩ := List.mem_iff_getElem?.1 hc
    exact (hok.link p i c (fun h => h) hi).1
  have key : ∀ x y, (h1.parent x = some y ∨ y ∈ h1.kids x) →
      (x < h.size ∧ y < h.size) ∨ (h.size ≤ x ∧ x < h1.size ∧ h.size ≤ y ∧ y < h1.size) := by
    intro x y hxy
    by_cases hx : x < h.size
    · left
      unfold Heap.parent Heap.kids at hxy
      rw [a.old x hx] at hxy
      rcases hxy with h2 | h2
      · exact ⟨hx, (hok.bound x y h2).2⟩
      · exact ⟨hx, (hok.bound y x (hk x y h2)).1⟩
    · by_cases hx1 : x < h1.size
      · right
        have := a.new x (by omega) hx1
        rcases hxy with h2 | h2
        · exact ⟨by omega, hx1, (this.1 y h2).1, (this.1 y h2).2⟩
        · exact ⟨by omega, hx1, (this.2 y h2).1, (this.2 y h2).2⟩
      · exfalso
        unfold Heap.parent Heap.kids at hxy
        rw [a.rest x (by omega)] at hxy
        rcases hxy with h2 | h2
        · exact hx (hok.bound x y h2).1
        · exact hx (hok.bound y x (hk x y h2)).2
  have hs := a.size
  refine ⟨⟨fun x p hp => ?_, fun x c hc => ?_, fun x hx => Nat.lt_of_lt_of_le hx a.size⟩, ⟨fun x p hp => ?_, fun x c hc => ?_, fun x hx => hx.2⟩⟩
  · have := key x p (.inl hp); omega
  · have := key x c (.inr hc); omega
  · have := key x p (.inl hp); omega
  · have := key x c (.inr hc); omega

theorem forall₂_right {R : Nat → Nat → Prop} {P : Nat → Prop} {X Y : List Nat} (f : List.Forall₂ R X Y) (hp : ∀ x y, R x y → P y) :
    ∀ y ∈ Y, P y := by
  induction f with
  | nil => simp
  | cons h1 _ ih =>
    intro y hy
    rcases List.mem_cons.1 hy with rfl | h2
    · exact hp _ _ h1
    · exact ih y h2

/-- C63: `clone` of a set makes a new node for each member, whose subtree looks like that of the member; the old nodes are unchanged. What is
done afterwards to nodes other than the copies does not change the copies, and what is done to nodes that are not old does not change
anything old; so their texts stay. Missing: heaps in which a fragment has been used before, as for `C63_document_partial`. -/
theorem C63_clone_partial (ok : w.Ok) (hok : HeapOk h noneUsed) {X : List Nat} (hX : ∀ x ∈ X, x < h.size) {h1 : Heap} {Y : List Nat}
    (hc : copyAll w.copy h X = (h1, Y)) :
    (∀ z < h.size, h1.node z = h.node z) ∧
      List.Forall₂ (fun x y => h.size ≤ y ∧ y < h1.size ∧ SameTree h h1 x y ∧ ∀ dec s, TextOf dec h x s → TextOf dec h1 y s) X Y ∧
      (∀ (cs : List Call) (h2 : Heap), callAll w h1 cs = .ok h2 → (∀ c ∈ cs, ∀ x ∈ c.given, x < h.size ∨ h1.size ≤ x) →
        (∀ z, h.size ≤ z → z < h1.size → h2.node z = h1.node z) ∧ ∀ y ∈ Y, ∀ dec s, TextOf dec h1 y s → TextOf dec h2 y s) ∧
      (∀ (cs : List Call) (h2 : Heap), callAll w h1 cs = .ok h2 → (∀ c ∈ cs, ∀ x ∈ c.given, h.size ≤ x) →
        (∀ z < h.size, h2.node z = h.node z) ∧ ∀ z < h.size, ∀ dec s, TextOf dec h z s → TextOf dec h2 z s) := by
  have hX' : ∀ x ∈ X, FiniteTree h x := fun x hx => heapOk_finite hok (hX x hx)
  obtain ⟨a, f⟩ := copyAll_spec ok X h hX'
  rw [hc] at a f
  dsimp only at a f
  obtain ⟨sOld, sNew⟩ := separate_added hok a
  have same_of : ∀ {g g' : Heap} {Z : Nat → Prop}, (∀ z, Z z → g'.node z = g.node z) → (∀ x c, Z x → c ∈ g.kids x → Z c) →
      ∀ (k x : Nat), Z x → SameTo g g' k x x := by
    intro g g' Z hn hz k
    induction k with
    | zero => intro x _; trivial
    | succ k ih =>
      intro x hx
      have e := hn x hx
      have ek : g'.kids x = g.kids x := by unfold Heap.kids; rw [e]
      refine ⟨by rw [e], by rw [e], by rw [e], by rw [e], by rw [ek], fun i u v hu hv => ?_⟩
      rw [ek, hu] at hv
      cases hv
      exact ih u (hz x u hx (mem_of_get hu))
  refine ⟨a.old, ?_, fun cs h2 hr hg => ?_, fun cs h2 hr hg => ?_⟩
  · exact f.imp fun x y h1 => ⟨h1.1, h1.2.1, h1.2.2, fun dec s ht => textOf_same ht y h1.2.2⟩
  · have r := (C63_isolated ok sNew (fun c hc x hx => by have := hg c hc x hx; omega) hr).1
    have hY : ∀ y ∈ Y, h.size ≤ y ∧ y < h1.size := forall₂_right f fun _ _ h3 => ⟨h3.1, h3.2.1⟩
    refine ⟨fun z h3 h4 => r z ⟨h3, h4⟩, fun y hy dec s ht => textOf_same ht y fun k => ?_⟩
    exact same_of r (fun x c hx hc => (sNew.kids x c hc).1 hx) k y (hY y hy)
  · have r := (C63_isolated ok sOld (fun c hc x hx => by have := hg c hc x hx; omega) hr).1
    have r' : ∀ z, z < h.size → h2.node z = h.node z := fun z hz => (r z hz).trans (a.old z hz)
    refine ⟨r', fun z hz dec s ht => textOf_same ht z fun k => ?_⟩
    refine same_of r' (fun x c hx hc => ?_) k z hz
    exact (heapOk_finite hok hx).1 c (.step .self hc)

end

/-- A copier for examples: it copies all nodes. -/
def copy0 : Copier := fun h x =>
  ({ size := h.size + h.size
     node := fun y => if h.size ≤ y ∧ y < h.size + h.size then
         { h.node (y - h.size) with
           childs := (h.node (y - h.size)).childs.map fun l => (l.filter fun c => decide (c < h.size)).map fun c => c + h.size
           parent := ((h.node (y - h.size)).parent.filter fun p => decide (p < h.size)).map fun p => p + h.size }
       else h.node y },
   x + h.size)

/-- A world for examples. -/
def world0 : World := ⟨ext0, quoteEnc, copy0⟩

theorem world0_ok : world0.Ok := by
  have hnew : ∀ (h : Heap) (y x : Nat), h.size ≤ y → y < h.size + h.size → (copy0 h x).1.node y =
      { h.node (y - h.size) with
        childs := (h.node (y - h.size)).childs.map fun l => (l.filter fun c => decide (c < h.size)).map fun c => c + h.size
        parent := ((h.node (y - h.size)).parent.filter fun p => decide (p < h.size)).map fun p => p + h.size } :=
    fun h y x h1 h2 => if_pos ⟨h1, h2⟩
  refine ⟨fun h s h' r hp => ?_, fun h x => ⟨Nat.le_add_left _ _, fun y hy => if_neg (by omega), fun y h1 h2 => ?_,
    fun y hy => if_neg (by simp only [world0, copy0] at hy; omega)⟩, fun h x hx => ?_, fun h x hf => ?_⟩
  · simp only [world0, ext0, parse0] at hp
    split at hp
    · cases hp
      refine ⟨⟨Nat.le_succ _, fun y hy => if_neg (by omega), fun y h1 h2 => ?_, fun y hy => if_neg (by simp only [] at hy; omega)⟩, Nat.le_refl _, Nat.lt_succ_self _⟩
      simp only [] at h2
      obtain rfl : y = h.size := by omega
      simp [Heap.parent, Heap.kids]
    · cases hp
      refine ⟨⟨by simp, fun y hy => ?_, fun y h1 h2 => ?_, fun y hy => ?_⟩, Nat.le_refl _, by simp⟩
      · simp only []; rw [if_neg (by omega), if_neg (by omega)]
      · simp only [] at h2
        by_cases e1 : y = h.size
        · subst e1
          simp [Heap.parent, Heap.kids]
        · obtain rfl : y = h.size + 1 := by omega
          simp [Heap.parent, Heap.kids]
      · simp only [] at hy ⊢; rw [if_neg (by omega), if_neg (by omega)]
  · simp only [world0, Heap.parent, Heap.kids]
    have h2' : y < h.size + h.size := h2
    rw [hnew h y x h1 h2']
    refine ⟨fun p hp => ?_, fun c hc => ?_⟩
    · simp only [Option.map_eq_some_iff, Option.filter_eq_some_iff, decide_eq_true_eq] at hp
      obtain ⟨q, ⟨_, hq⟩, rfl⟩ := hp
      exact ⟨Nat.le_add_left _ _, by simp only [copy0]; omega⟩
    · cases hch : (h.node (y - h.size)).childs with
      | none => rw [hch] at hc; simp at hc
      | some l =>
        rw [hch] at hc
        simp only [Option.map_some, Option.getD_some, List.mem_map, List.mem_filter, decide_eq_true_eq] at hc
        obtain ⟨q, ⟨_, hq⟩, rfl⟩ := hc
        exact ⟨Nat.le_add_left _ _, by simp only [copy0]; omega⟩
  · exact ⟨Nat.le_add_left _ _, by simp only [world0, copy0]; omega⟩
  · have key : ∀ (k y : Nat), FiniteTree h y → SameTo h (copy0 h x).1 k y (y + h.size) := by
      intro k
      induction k with
      | zero => intro y _; trivial
      | succ k ih =>
        intro y hf
        have hy := hf.1 y .self
        have e := hnew h (y + h.size) x (Nat.le_add_left _ _) (by omega)
        rw [Nat.add_sub_cancel] at e
        have ek : (copy0 h x).1.kids (y + h.size) = (h.kids y).map fun c => c + h.size := by
          unfold Heap.kids
          rw [e]
          cases hch : (h.node y).childs with
          | none => simp
          | some l =>
            simp only [Option.map_some, Option.getD_some]
            rw [List.filter_eq_self.2]
            intro c hc
            exact decide_eq_true (hf.1 c (.step .self (by unfold Heap.kids; rw [hch]; exact hc)))
        refine ⟨by rw [e], by rw [e], by rw [e], by rw [e], by rw [ek, List.length_map], fun i u v hu hv => ?_⟩
        rw [ek, List.getElem?_map, hu] at hv
        cases hv
        exact ih u (hf.kid (mem_of_get hu))
    exact fun k => key k x hf

/-- The fragment of `demo2` is changed in many ways, also with a node that was removed, with the fragment's root twice, and with copies of nodes of the
document. -/
def farCalls : List Call :=
  [.insert .beforeEnd [12] [11, 13], .one (.remove 11), .setText [11] "x".toList, .one (.insert .beforeEnd 11 10), .one (.insert .beforeEnd 13 10),
   .setAttr [12] "id".toList (some "y".toList), .addClass [12, 13] "c d".toList, .setHtml [12] "z".toList, .clone [2, 12], .setText [19] "new".toList]

/-- The heap afterwards. -/
def farAfter : Heap := match callAll world0 demo2 farCalls with | .ok h => h | .error _ => demo2

set_option maxRecDepth 100000 in
theorem farRun : callAll world0 demo2 farCalls = .ok farAfter := rfl

theorem demo2_far : ∀ x, Belongs demo2 0 x → x < 10 := by
  rintro x (rfl | h1)
  · decide
  · have : ∀ p, p < 10 → ∀ x, demo2.parent x = some p → x < 10 := by
      intro p hp x hx
      have hb := (demo2_ok.bound x p hx).1
      have : ∀ x, x < 14 → ∀ p, p < 10 → demo2.parent x = some p → x < 10 := by decide
      exact this x hb p hp hx
    induction h1 with
    | parent h2 => exact this 0 (by decide) _ h2
    | step _ h2 ih => exact this _ ih _ h2

set_option maxRecDepth 100000 in
example : (∀ x, Belongs demo2 0 x → farAfter.node x = demo2.node x) ∧ find farAfter env0 [0] [[(.childrenAll, [ty "p"])]] = .ok [2, 6] ∧
    farAfter.kids 12 = [16] ∧ demo2.kids 12 = [13] ∧ (farAfter.node 12).attrs.attrs.length = 2 ∧ farAfter.kids 19 = [68] ∧ farAfter.kids 2 = [3] := by
  have hc := C63_document_partial world0_ok demo2_ok (r := 0) (by decide) (by decide) (cs := farCalls) (fun c hc x hx hb => ?_) farRun
  · have m : Metas demo2 0 := by
      have : ∀ x, x < 14 → metaCheck (demo2.node x).attrs = true := by decide
      exact fun x hx _ => metaCheck_sound (this x ((demo2_ok.tree (r := 0) (by decide) id (by decide)).bound x hx))
    have hf := ((hc.2.2.2.2 m env0 [0] [(.childrenAll, [ty "p"])] ⟨by decide, by decide⟩ (fun x hx => by rw [List.mem_singleton.1 hx]; exact ⟨.self, .inr rfl⟩)
      (docSorted_single 0)).2 (by simp))
    exact ⟨hc.1, hf.trans (by decide), by decide, by decide, by decide, by decide, by decide⟩
  · have h1 := demo2_far x hb
    have : ∀ c ∈ farCalls, ∀ x ∈ c.given, 10 ≤ x := by
      simp only [farCalls, List.mem_cons, List.not_mem_nil, or_false, forall_eq_or_imp, forall_eq]
      decide
    have := this c hc x hx
    omega

/-- `clone` of two elements, one inside the other, then `set_text` on a copy, and `remove` on an original. -/
example : ∃ h1 Y, copyAll world0.copy demo2 [1, 2] = (h1, Y) ∧ Y = [15, 30] ∧
    (∃ h2, callAll world0 h1 [.setText [30] "new".toList] = .ok h2 ∧ ∀ dec s, TextOf dec demo2 2 s → TextOf dec h2 2 s) ∧
    ∃ h2, callAll world0 h1 [.remove [2]] = .ok h2 ∧ ∀ dec s, TextOf dec h1 15 s → TextOf dec h2 15 s := by
  obtain ⟨h1, Y, hc⟩ : ∃ h1 Y, copyAll world0.copy demo2 [1, 2] = (h1, Y) := ⟨_, _, rfl⟩
  have hs : h1.size = 56 ∧ Y = [15, 30] := by
    have h3 : (copyAll world0.copy demo2 [1, 2]).1.size = 56 := by decide
    have h4 : (copyAll world0.copy demo2 [1, 2]).2 = [15, 30] := by decide
    rw [hc] at h3 h4
    exact ⟨h3, h4⟩
  obtain ⟨-, -, c3, c4⟩ := C63_clone_partial world0_ok demo2_ok (X := [1, 2]) (by decide) hc
  refine ⟨h1, Y, hc, hs.2, ⟨_, rfl, (c4 [.setText [30] "new".toList] _ rfl ?_).2 2 (by decide)⟩, ?_⟩
  · simp only [List.mem_singleton, forall_eq, Call.given]; decide
  · obtain ⟨h2, h5⟩ : ∃ h2, callAll world0 h1 [.remove [2]] = .ok h2 := by
      cases hc
      exact ⟨_, rfl⟩
    refine ⟨h2, h5, (c3 _ _ h5 ?_).2 15 (by rw [hs.2]; simp)⟩
    simp only [List.mem_singleton, forall_eq, Call.given]
    exact .inl (by decide)

/-- `demo2` and a third tree `[ u(15) ]` with root 14. -/
def demo3 : Heap := heapOf (demoFrag ++ [rootN [15], el "u" 14 0])

/-- C63 does not hold in full: a fragment is appended to an element of the document, and then to an element of a third tree. The second call is given
no node of the document, but the document's nodes 11 and 12 change: they are still listed in it, and have their parent elsewhere. -/
theorem C63_fails_used : HeapOk demo3 noneUsed ∧ ∃ h1 h2, callAll world0 demo3 [.one (.insert .beforeEnd 8 10)] = .ok h1 ∧
    callAll world0 h1 [.one (.insert .beforeEnd 15 10)] = .ok h2 ∧ ¬ Belongs h1 0 15 ∧ ¬ Belongs h1 0 10 ∧ Belongs h1 0 11 ∧
    h1.parent 11 = some 8 ∧ h2.parent 11 = some 15 ∧ 11 ∈ h2.kids 8 := by
  refine ⟨okCheck_sound (by decide), _, _, rfl, rfl, ?_, ?_, .inr (.step (.parent (x := 8) (by decide)) (by decide)), by decide, by decide, by decide⟩
  · rintro (h1 | h1)
    · cases h1
    · rcases above_cases h1 (p := 14) (by decide) with h2 | h2
      · cases h2
      · cases h2 with
        | parent h3 => revert h3; decide
        | @step p _ _ h3 => exact absurd (show some p = none from h3.symm) (by simp)
  · rintro (h1 | h1)
    · cases h1
    · cases h1 with
      | parent h3 => revert h3; decide
      | @step p _ _ h3 => exact absurd (show some p = none from h3.symm) (by simp)

end Visdom
