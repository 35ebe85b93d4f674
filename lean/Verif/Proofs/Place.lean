import Verif.Spec.Place
import Verif.Proofs.Html
import Verif.Proofs.Mirror
/-!
# Trees that look alike
-/
namespace Visdom
open Spec

section
variable {h h' : Heap} {r r' : Nat}

/-! ## Shapes -/

theorem shapeOf_inv {x : Nat} {k : Kind} {n : List Char} {a : Meta} {c : Option (List Char)} {l : List Shape} (hs : ShapeOf h x (.mk k n a c l)) :
    (h.node x).kind = k ∧ (h.node x).name = n ∧ (h.node x).attrs = a ∧ (h.node x).content = c ∧ ShapesOf h (h.kids x) l := by
  generalize hS : Shape.mk k n a c l = S at hs
  cases hs with
  | mk hl =>
    injection hS with h1 h2 h3 h4 h5
    subst h5
    exact ⟨h1.symm, h2.symm, h3.symm, h4.symm, hl⟩

theorem shapesOf_get {F : List Shape} : ∀ {l m : List Nat}, ShapesOf h l F → ShapesOf h' m F →
    m.length = l.length ∧ ∀ i a b : Nat, l[i]? = some a → m[i]? = some b → ∃ S, ShapeOf h a S ∧ ShapeOf h' b S := by
  induction F with
  | nil => intro l m h1 h2; cases h1; cases h2; simp
  | cons S F ih =>
    intro l m h1 h2
    cases h1 with
    | cons a1 a2 =>
      cases h2 with
      | cons b1 b2 =>
        obtain ⟨i1, i2⟩ := ih a2 b2
        refine ⟨by simp [i1], fun i a b ha hb => ?_⟩
        cases i with
        | zero =>
          simp only [List.getElem?_cons_zero, Option.some.injEq] at ha hb
          subst ha; subst hb
          exact ⟨S, a1, b1⟩
        | succ i => exact i2 i a b (by simpa using ha) (by simpa using hb)

/-- Subtrees of the same shape are the same. -/
theorem sameTree_of_shape {x y : Nat} {S : Shape} (h1 : ShapeOf h x S) (h2 : ShapeOf h' y S) : SameTree h h' x y := by
  intro k
  induction k generalizing x y S with
  | zero => trivial
  | succ k ih =>
    cases S with
    | mk kd n a c l =>
      obtain ⟨a1, a2, a3, a4, a5⟩ := shapeOf_inv h1
      obtain ⟨b1, b2, b3, b4, b5⟩ := shapeOf_inv h2
      obtain ⟨c1, c2⟩ := shapesOf_get a5 b5
      refine ⟨b1.trans a1.symm, b2.trans a2.symm, b3.trans a3.symm, b4.trans a4.symm, c1, fun i p q hp hq => ?_⟩
      obtain ⟨S, d1, d2⟩ := c2 i p q hp hq
      exact ih d1 d2

theorem shapesOf_all {l : List Nat} (hl : ∀ c ∈ l, ∃ S, ShapeOf h c S) : ∃ F, ShapesOf h l F := by
  induction l with
  | nil => exact ⟨[], .nil⟩
  | cons c l ih =>
    obtain ⟨S, hS⟩ := hl c (by simp)
    obtain ⟨F, hF⟩ := ih fun d hd => hl d (by simp [hd])
    exact ⟨S :: F, .cons hS hF⟩

/-- Every finite subtree has a shape. -/
theorem shapeOf_finite {x : Nat} (hf : FiniteTree h x) : ∃ S, ShapeOf h x S := by
  have ha := hf.2
  clear hf
  induction ha with
  | intro x _ ih =>
    obtain ⟨F, hF⟩ := shapesOf_all (l := h.kids x) fun c hc => ih c hc
    exact ⟨_, .mk hF⟩

/-! ## Places -/

theorem Spec.SamePlace.symm {x y : Nat} (hp : SamePlace h r h' r' x y) : SamePlace h' r' h r y x := by
  induction hp with
  | top => exact .top
  | kid _ h1 h2 ih => exact .kid ih h2 h1

theorem Spec.SamePlace.within {x y : Nat} (hp : SamePlace h r h' r' x y) : Within h r x := by
  induction hp with
  | top => exact .self
  | kid _ h1 _ ih => exact ih.step (List.mem_of_getElem? h1)

theorem Spec.SamePlace.unique (wf : TreeWF h r) {x y z : Nat} (hp : SamePlace h r h' r' x y) (hq : SamePlace h r h' r' x z) : y = z := by
  induction hp generalizing z with
  | top =>
    cases hq with
    | top => rfl
    | kid q h1 _ =>
      have := (wf.link _ _ _ q.within h1).1
      rw [wf.rootParent] at this; cases this
  | @kid x y i a b p h1 h2 ih =>
    have hl := wf.link _ _ _ p.within h1
    cases hq with
    | top => have := hl.1; rw [wf.rootParent] at this; cases this
    | @kid x' y' i' _ _ q h3 h4 =>
      have hl' := wf.link _ _ _ q.within h3
      have e1 : x = x' := by have := hl.1.symm.trans hl'.1; cases this; rfl
      have e2 : i = i' := hl.2.symm.trans hl'.2
      subst e1; subst e2
      have := ih q
      subst this
      rw [h2] at h4; cases h4; rfl

theorem SameTree.kids {x y : Nat} (st : SameTree h h' x y) : (h'.kids y).length = (h.kids x).length ∧
    ∀ i a b : Nat, (h.kids x)[i]? = some a → (h'.kids y)[i]? = some b → SameTree h h' a b := by
  obtain ⟨_, _, _, _, s5, _⟩ := st 1
  refine ⟨s5, fun i a b ha hb k => ?_⟩
  obtain ⟨_, _, _, _, _, s6⟩ := st (k + 1)
  exact s6 i a b ha hb

theorem Spec.SamePlace.same (st : SameTree h h' r r') {x y : Nat} (hp : SamePlace h r h' r' x y) : SameTree h h' x y := by
  induction hp with
  | top => exact st
  | kid _ h1 h2 ih => exact (SameTree.kids ih).2 _ _ _ h1 h2

theorem samePlace_exists (st : SameTree h h' r r') {x : Nat} (hx : Within h r x) : ∃ y, SamePlace h r h' r' x y := by
  induction hx with
  | self => exact ⟨r', .top⟩
  | step _ hc ih =>
    obtain ⟨y, hy⟩ := ih
    obtain ⟨i, hi⟩ := List.getElem?_of_mem hc
    have hl := (SameTree.kids (hy.same st)).1
    have hlt : i < (h'.kids y).length := by
      rw [hl]; exact (List.getElem?_eq_some_iff.1 hi).1
    exact ⟨_, .kid hy hi (List.getElem?_eq_getElem hlt)⟩

open scoped Classical in
/-- The node at the same place (the node itself when there is none). -/
noncomputable def placeOf (h : Heap) (r : Nat) (h' : Heap) (r' : Nat) (x : Nat) : Nat :=
  if hp : ∃ y, SamePlace h r h' r' x y then hp.choose else x

theorem placeOf_spec (st : SameTree h h' r r') {x : Nat} (hx : Within h r x) : SamePlace h r h' r' x (placeOf h r h' r' x) := by
  have hp := samePlace_exists st hx
  unfold placeOf
  rw [dif_pos hp]
  exact hp.choose_spec

theorem SameTree.symm {x y : Nat} (st : SameTree h h' x y) : SameTree h' h y x := by
  intro k
  induction k generalizing x y with
  | zero => trivial
  | succ k ih =>
    obtain ⟨s1, s2, s3, s4, s5, _⟩ := st 1
    exact ⟨s1.symm, s2.symm, s3.symm, s4.symm, s5.symm, fun i a b ha hb => ih ((SameTree.kids st).2 i b a hb ha)⟩

/-- Two trees that look alike are mirror images, by the nodes at the same places. -/
theorem mirror_of_same (wf : TreeWF h r) (wf' : TreeWF h' r') (st : SameTree h h' r r') :
    Mirror h r h' r' (placeOf h r h' r') (placeOf h' r' h r) where
  root := (placeOf_spec st .self).unique wf .top
  kids := fun x hx => by
    have hp := placeOf_spec st hx
    have hk := SameTree.kids (hp.same st)
    refine List.ext_getElem? fun i => ?_
    rw [List.getElem?_map]
    cases hi : (h.kids x)[i]? with
    | none =>
      rw [List.getElem?_eq_none_iff] at hi
      simp only [Option.map_none, List.getElem?_eq_none_iff, hk.1]
      exact hi
    | some a =>
      have hlt : i < (h'.kids (placeOf h r h' r' x)).length := by rw [hk.1]; exact (List.getElem?_eq_some_iff.1 hi).1
      have h1 : SamePlace h r h' r' a _ := .kid hp hi (List.getElem?_eq_getElem hlt)
      rw [List.getElem?_eq_getElem hlt, Option.map_some, h1.unique wf (placeOf_spec st (hx.step (List.mem_of_getElem? hi)))]
  data := fun x hx => by
    obtain ⟨s1, s2, s3, _, _, _⟩ := (placeOf_spec st hx).same st 1
    exact ⟨s1, s2, s3⟩
  back := fun x hx => by
    have hp := placeOf_spec st hx
    exact (placeOf_spec (SameTree.symm st) hp.symm.within).unique wf' hp.symm

end

end Visdom
