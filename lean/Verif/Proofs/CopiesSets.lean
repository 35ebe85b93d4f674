import Verif.Proofs.Copies
/-!
# Queries on copies: order and set operations
-/
namespace Visdom
open Spec

variable {h h' : Heap} {T : Nat → Prop} {f : Nat → Nat} {env env' : Env} (cp : Copies h h' T f env env')
include cp

theorem Spec.Copies.sortElems {l l' : List Nat} (hl : LRel h T f l l') : LRel h T f (sortElems h l) (sortElems h' l') := by
  obtain ⟨rfl, h1⟩ := hl
  refine ⟨?_, fun x hx => h1 x ((List.mem_insertionSort _).1 hx)⟩
  unfold Visdom.sortElems
  rw [List.map_insertionSort (notAfter h) (notAfter h')]
  intro a ha b hb
  unfold notAfter
  rw [cp.treeIndexs (h1 a ha), cp.treeIndexs (h1 b hb)]

theorem Spec.Copies.dedupFrom {l : List Nat} {p : Nat} (hp : Among h T p) (hl : ∀ x ∈ l, Among h T x) :
    dedupFrom (f p) (l.map f) = (dedupFrom p l).map f := by
  induction l generalizing p with
  | nil => rfl
  | cons a l ih =>
    have ha := hl a List.mem_cons_self
    have hl' : ∀ x ∈ l, Among h T x := fun x hx => hl x (List.mem_cons_of_mem _ hx)
    rw [List.map_cons, Visdom.dedupFrom, Visdom.dedupFrom]
    by_cases he : a = p
    · rw [if_pos he, if_pos (he ▸ rfl), ih hp hl']
    · rw [if_neg he, if_neg (fun e => he ((cp.inj ha hp).1 e)), ih ha hl', List.map_cons]

omit cp in
theorem dedupFrom_mem {l : List Nat} {p x : Nat} (hx : x ∈ dedupFrom p l) : x ∈ l := by
  induction l generalizing p with
  | nil => cases hx
  | cons a l ih =>
    rw [dedupFrom] at hx
    split at hx
    · exact List.mem_cons_of_mem _ (ih hx)
    · rcases List.mem_cons.1 hx with rfl | hx
      · exact List.mem_cons_self
      · exact List.mem_cons_of_mem _ (ih hx)

theorem Spec.Copies.uniqueElems {l l' : List Nat} (hl : LRel h T f l l') : LRel h T f (uniqueElems l) (uniqueElems l') := by
  obtain ⟨rfl, h1⟩ := hl
  cases l with
  | nil => exact .nil
  | cons a l =>
    have hl' : ∀ x ∈ l, Among h T x := fun x hx => h1 x (List.mem_cons_of_mem _ hx)
    rw [List.map_cons, Visdom.uniqueElems, Visdom.uniqueElems, cp.dedupFrom (h1 a List.mem_cons_self) hl']
    exact .cons (h1 a List.mem_cons_self) ⟨rfl, fun x hx => hl' x (dedupFrom_mem hx)⟩

theorem Spec.Copies.sortAndUnique {l l' : List Nat} (hl : LRel h T f l l') : LRel h T f (sortAndUnique h l) (sortAndUnique h' l') :=
  cp.uniqueElems (cp.sortElems hl)

omit cp in
/-- The states of the loop correspond. -/
def SibRel (h : Heap) (T : Nat → Prop) (f : Nat → Nat) (s s' : SibState) : Prop :=
  s'.seen = s.seen ∧ LRel h T f s.kept s'.kept ∧ s'.prev = s.prev.map f ∧ (∀ p, s.prev = some p → Among h T p) ∧ s'.hasRoot = s.hasRoot

theorem Spec.Copies.some_eq {o : Option Nat} (ho : ∀ p, o = some p → Among h T p) {q : Nat} (hq : Among h T q) : o.map f = some (f q) ↔ o = some q := by
  cases o with
  | none => simp
  | some p => simp only [Option.map_some, Option.some.injEq]; exact cp.inj (ho p rfl) hq

theorem Spec.Copies.sibStep {s s' : SibState} (hs : SibRel h T f s s') {x : Nat} (hx : Among h T x) : SibRel h T f (sibStep h s x) (sibStep h' s' (f x)) := by
  obtain ⟨h1, h2, h3, h4, h5⟩ := hs
  have hk : LRel h T f (s.kept ++ [x]) (s'.kept ++ [f x]) := h2.append ⟨rfl, by simpa using hx⟩
  unfold Visdom.sibStep
  rw [cp.parent hx]
  cases hp : h.parent x with
  | none =>
    simp only [Option.map_none]
    rw [h5]
    split
    · exact ⟨h1, h2, h3, h4, h5⟩
    · exact ⟨h1, hk, h3, h4, rfl⟩
  | some p =>
    have hpa := (cp.up hx hp).1
    simp only [Option.map_some]
    rw [h3]
    by_cases he : s.prev = some p
    · rw [if_pos he, if_pos ((cp.some_eq h4 hpa).2 he)]
      exact ⟨h1, h2, h3, h4, h5⟩
    · rw [if_neg he, if_neg fun e => he ((cp.some_eq h4 hpa).1 e), cp.treeIndexs hpa, h1]
      split
      · exact ⟨rfl, h2, rfl, fun q hq => by cases hq; exact hpa, h5⟩
      · exact ⟨rfl, hk, rfl, fun q hq => by cases hq; exact hpa, h5⟩

theorem Spec.Copies.sibFold {l : List Nat} {s s' : SibState} (hs : SibRel h T f s s') (hl : ∀ x ∈ l, Among h T x) :
    SibRel h T f (l.foldl (Visdom.sibStep h) s) ((l.map f).foldl (Visdom.sibStep h') s') := by
  induction l generalizing s s' with
  | nil => exact hs
  | cons a l ih => exact ih (cp.sibStep hs (hl a List.mem_cons_self)) fun x hx => hl x (List.mem_cons_of_mem _ hx)

omit cp in
theorem SibRel.start : SibRel h T f {} {} := ⟨rfl, .nil, rfl, by simp, rfl⟩

theorem Spec.Copies.uniqueSiblingFirst {l l' : List Nat} (hl : LRel h T f l l') : LRel h T f (uniqueSiblingFirst h l) (uniqueSiblingFirst h' l') := by
  obtain ⟨rfl, h1⟩ := hl
  exact (cp.sibFold .start h1).2.1

theorem Spec.Copies.uniqueSiblingLast {l l' : List Nat} (hl : LRel h T f l l') : LRel h T f (uniqueSiblingLast h l) (uniqueSiblingLast h' l') := by
  obtain ⟨h0, h1⟩ := hl.reverse
  unfold Visdom.uniqueSiblingLast
  rw [h0]
  exact (cp.sibFold .start h1).2.1.reverse

omit cp in
/-- The states of the loop correspond. -/
def AllSibRel (h : Heap) (T : Nat → Prop) (f : Nat → Nat) (s s' : AllSibState) : Prop :=
  s'.seen = s.seen.map (fun e => (e.1, e.2.1, e.2.2.1, f e.2.2.2)) ∧ (∀ e ∈ s.seen, Among h T e.2.2.2) ∧
  s'.kept = s.kept.map (fun e => (f e.1, e.2)) ∧ ∀ e ∈ s.kept, Among h T e.1

theorem Spec.Copies.allSibStep {s s' : AllSibState} (hs : AllSibRel h T f s s') {x : Nat} (hx : Among h T x) :
    AllSibRel h T f (allSibStep h s x) (allSibStep h' s' (f x)) := by
  obtain ⟨h1, h2, h3, h4⟩ := hs
  unfold Visdom.allSibStep
  rw [cp.parent hx]
  cases hp : h.parent x with
  | none => exact ⟨h1, h2, h3, h4⟩
  | some p =>
    have hpa := (cp.up hx hp).1
    simp only [Option.map_some]
    rw [cp.treeIndexs hpa, h1, List.find?_map]
    have hcomp : ((fun e : List Nat × Nat × Bool × Nat => e.1 == h.treeIndexs p) ∘ fun e : List Nat × Nat × Bool × Nat => (e.1, e.2.1, e.2.2.1, f e.2.2.2)) =
        fun e => e.1 == h.treeIndexs p := rfl
    rw [hcomp]
    cases hf : s.seen.find? (fun e => e.1 == h.treeIndexs p) with
    | none =>
      simp only [Option.map_none]
      refine ⟨by simp [h3], fun e he => ?_, by simp [h3], fun e he => ?_⟩
      · rcases List.mem_append.1 he with he | he
        · exact h2 e he
        · rw [List.mem_singleton] at he; subst he; exact hpa
      · rcases List.mem_append.1 he with he | he
        · exact h4 e he
        · rw [List.mem_singleton] at he; subst he; exact hx
    | some e =>
      obtain ⟨path, pos, changed, par⟩ := e
      have hpar := h2 _ (List.mem_of_find?_eq_some hf)
      simp only [Option.map_some]
      cases changed with
      | true => exact ⟨h1, h2, h3, h4⟩
      | false =>
        simp only [Bool.false_eq_true, if_false]
        refine ⟨?_, fun e he => ?_, ?_, fun e he => ?_⟩
        · simp only [List.map_map]
          refine List.map_congr_left fun e _ => ?_
          simp only [Function.comp_apply]
          split <;> rfl
        · obtain ⟨e', he', rfl⟩ := List.mem_map.1 he
          have := h2 e' he'
          split <;> exact this
        · simp only [h3, List.map_set]
        · rcases List.mem_or_eq_of_mem_set he with he | rfl
          · exact h4 e he
          · exact hpar

theorem Spec.Copies.uniqueAllSiblings {l l' : List Nat} (hl : LRel h T f l l') :
    uniqueAllSiblings h' l' = (uniqueAllSiblings h l).map (fun e => (f e.1, e.2)) ∧ ∀ e ∈ uniqueAllSiblings h l, Among h T e.1 := by
  obtain ⟨rfl, h1⟩ := hl
  have key : ∀ (l : List Nat) (s s' : AllSibState), AllSibRel h T f s s' → (∀ x ∈ l, Among h T x) →
      AllSibRel h T f (l.foldl (Visdom.allSibStep h) s) ((l.map f).foldl (Visdom.allSibStep h') s') := by
    intro l
    induction l with
    | nil => exact fun _ _ hs _ => hs
    | cons a l ih => exact fun s s' hs hl => ih _ _ (cp.allSibStep hs (hl a List.mem_cons_self)) fun x hx => hl x (List.mem_cons_of_mem _ hx)
  exact (key l {} {} ⟨rfl, by simp, rfl, by simp⟩ h1).2.2

theorem Spec.Copies.uniqueParentsFrom {l : List Nat} {t : Nat} (ht : Among h T t) (hl : ∀ x ∈ l, Among h T x) :
    ERel (LRel h T f) (uniqueParentsFrom h t l) (uniqueParentsFrom h' (f t) (l.map f)) := by
  induction l generalizing t with
  | nil => exact .ok .nil
  | cons a l ih =>
    have ha := hl a List.mem_cons_self
    have hl' : ∀ x ∈ l, Among h T x := fun x hx => hl x (List.mem_cons_of_mem _ hx)
    rw [List.map_cons, Visdom.uniqueParentsFrom, Visdom.uniqueParentsFrom, cp.treeIndexs ha, cp.treeIndexs ht]
    cases relationOf (h.treeIndexs a) (h.treeIndexs t) with
    | other => exact (ih ha hl').map fun _ _ hr => .cons ha hr
    | descendant => exact ih ht hl'
    | ancestor => exact .err _
    | equal => exact .err _

theorem Spec.Copies.uniqueParents {l l' : List Nat} (hl : LRel h T f l l') : ERel (LRel h T f) (uniqueParents h l) (uniqueParents h' l') := by
  obtain ⟨rfl, h1⟩ := hl
  cases l with
  | nil => exact .ok .nil
  | cons a l =>
    exact (cp.uniqueParentsFrom (h1 a List.mem_cons_self) fun x hx => h1 x (List.mem_cons_of_mem _ hx)).map
      fun _ _ hr => .cons (h1 a List.mem_cons_self) hr

theorem Spec.Copies.cmpE {a b : Nat} (ha : Among h T a) (hb : Among h T b) : cmpE h' (f a) (f b) = cmpE h a b := by
  unfold Visdom.cmpE; rw [cp.treeIndexs ha, cp.treeIndexs hb]

theorem Spec.Copies.bsearch {F : List Nat} (hF : ∀ x ∈ F, Among h T x) {x : Nat} (hx : Among h T x) (n l r : Nat) :
    bsearch h' (F.map f) (f x) n l r = bsearch h F x n l r := by
  induction n generalizing l r with
  | zero => rfl
  | succ n ih =>
    rw [Visdom.bsearch, Visdom.bsearch, List.getElem?_map]
    split
    · rfl
    · cases hg : F[(l + r) / 2]? with
      | none => rfl
      | some y =>
        simp only [Option.map_some]
        rw [cp.cmpE hx (hF y (List.mem_of_getElem? hg)), ih, ih]

omit cp in
/-- Positions for elements that correspond. -/
def MidRel (h : Heap) (T : Nat → Prop) (f : Nat → Nat) (l l' : List (Nat × Nat)) : Prop := l' = l.map (fun e => (f e.1, e.2)) ∧ ∀ e ∈ l, Among h T e.1

omit cp in
theorem MidRel.cons {x i : Nat} {l l' : List (Nat × Nat)} (hx : Among h T x) (hl : MidRel h T f l l') : MidRel h T f ((x, i) :: l) ((f x, i) :: l') := by
  obtain ⟨rfl, h1⟩ := hl
  refine ⟨rfl, fun e he => ?_⟩
  rcases List.mem_cons.1 he with rfl | he
  · exact hx
  · exact h1 e he

omit cp in
theorem MidRel.const {l : List Nat} (i : Nat) (hl : ∀ x ∈ l, Among h T x) : MidRel h T f (l.map (·, i)) ((l.map f).map (·, i)) := by
  refine ⟨by simp, fun e he => ?_⟩
  obtain ⟨x, hx, rfl⟩ := List.mem_map.1 he
  exact hl x hx

theorem Spec.Copies.addMids {F : List Nat} (hF : ∀ x ∈ F, Among h T x) (sn : Nat) {l : List Nat} (hl : ∀ x ∈ l, Among h T x) (fl : Nat) :
    ERel (MidRel h T f) (addMids h F sn l fl) (addMids h' (F.map f) sn (l.map f) fl) := by
  induction l generalizing fl with
  | nil => exact .ok ⟨rfl, fun _ he => nomatch he⟩
  | cons x xs ih =>
    have hx := hl x List.mem_cons_self
    have hl' : ∀ y ∈ xs, Among h T y := fun y hy => hl y (List.mem_cons_of_mem _ hy)
    have ih := ih hl'
    have hlast : (f x :: xs.map f).getLast (by simp) = f ((x :: xs).getLast (by simp)) := by
      have := List.getLast_map (f := f) (l := x :: xs) (by simp)
      simpa using this
    have hlm : Among h T ((x :: xs).getLast (by simp)) := hl _ (List.getLast_mem _)
    rw [List.map_cons, Visdom.addMids, Visdom.addMids, List.getElem?_map]
    cases hg : F[fl]? with
    | none => exact .ok ⟨rfl, fun _ he => nomatch he⟩
    | some y =>
      have hy := hF y (List.mem_of_getElem? hg)
      simp only [Option.map_some]
      rw [cp.cmpE hx hy]
      cases Visdom.cmpE h x y with
      | eq => exact ih _
      | lt =>
        simp only
        rw [hlast, cp.cmpE hlm hy]
        cases Visdom.cmpE h ((x :: xs).getLast (by simp)) y with
        | lt => exact .ok (MidRel.const (l := x :: xs) fl hl)
        | gt => exact (ih fl).map fun _ _ hr => hr.cons hx
        | eq =>
          have : (f x :: xs.map f).dropLast = ((x :: xs).dropLast).map f := by rw [List.map_dropLast]; rfl
          simp only
          rw [this]
          exact .ok (MidRel.const fl fun z hz => hl z ((List.dropLast_sublist _).subset hz))
      | gt =>
        simp only
        rw [List.getLast?_map]
        cases hg2 : F.getLast? with
        | none => exact .err _
        | some e =>
          have he := hF e (List.mem_of_getLast? hg2)
          simp only [Option.map_some]
          rw [cp.cmpE hx he, List.length_map]
          cases Visdom.cmpE h x e with
          | gt => exact .ok (MidRel.const (l := x :: xs) _ hl)
          | eq => exact .ok (MidRel.const _ hl')
          | lt =>
            simp only
            rw [cp.bsearch hF hx]
            cases Visdom.bsearch h F x F.length fl (F.length - 1) with
            | error p => exact .err p
            | ok m =>
              obtain ⟨mid, b⟩ := m
              cases b with
              | true => exact ih mid
              | false => exact (ih mid).map fun _ _ hr => hr.cons hx

omit cp in
theorem assemble_map {F : List Nat} {i : Nat} {mids : List (Nat × Nat)} : assemble (F.map f) i (mids.map fun e => (f e.1, e.2)) = (assemble F i mids).map f := by
  induction F generalizing i mids with
  | nil => simp [assemble]
  | cons a F ih =>
    have h1 : ((fun e : Nat × Nat => e.2 == i) ∘ fun e : Nat × Nat => (f e.1, e.2)) = fun e => e.2 == i := rfl
    rw [List.map_cons, assemble, assemble, List.takeWhile_map, List.dropWhile_map, h1, ih]
    simp

omit cp in
theorem assemble_among {F : List Nat} {i : Nat} {mids : List (Nat × Nat)} {x : Nat} (hx : x ∈ assemble F i mids) : x ∈ F ∨ ∃ e ∈ mids, e.1 = x := by
  induction F generalizing i mids with
  | nil => simp only [assemble, List.mem_map] at hx; exact .inr hx
  | cons a F ih =>
    rw [assemble, List.mem_append, List.mem_cons] at hx
    rcases hx with hx | rfl | hx
    · obtain ⟨e, he, rfl⟩ := List.mem_map.1 hx
      exact .inr ⟨e, (List.takeWhile_sublist _).subset he, rfl⟩
    · exact .inl List.mem_cons_self
    · rcases ih hx with h1 | ⟨e, h1, h2⟩
      · exact .inl (List.mem_cons_of_mem _ h1)
      · exact .inr ⟨e, (List.dropWhile_sublist _).subset h1, h2⟩

theorem Spec.Copies.addElems {F F' S S' : List Nat} (hF : LRel h T f F F') (hS : LRel h T f S S') : ERel (LRel h T f) (addElems h F S) (addElems h' F' S') := by
  have e1 := hF.isEmpty
  have e2 := hS.isEmpty
  unfold Visdom.addElems
  rw [e1, e2]
  split
  · exact .ok hS
  · split
    · exact .ok hF
    · obtain ⟨rfl, hF⟩ := hF
      obtain ⟨rfl, hS⟩ := hS
      rw [List.length_map]
      refine (cp.addMids hF S.length hS 0).map fun m m' hm => ?_
      obtain ⟨rfl, hm⟩ := hm
      rw [assemble_map]
      refine ⟨rfl, fun x hx => ?_⟩
      rcases assemble_among hx with h1 | ⟨e, h1, rfl⟩
      · exact hF x h1
      · exact hm e h1

theorem Spec.Copies.idxOf {l : List Nat} (hl : ∀ x ∈ l, Among h T x) {x : Nat} (hx : Among h T x) : (l.map f).idxOf? (f x) = l.idxOf? x := by
  induction l with
  | nil => rfl
  | cons a l ih =>
    rw [List.map_cons, List.idxOf?_cons, List.idxOf?_cons, ih fun y hy => hl y (List.mem_cons_of_mem _ hy)]
    have : (f a == f x) = (a == x) := by
      rw [Bool.eq_iff_iff, beq_iff_eq, beq_iff_eq]
      exact cp.inj (hl a List.mem_cons_self) hx
    rw [this]

theorem Spec.Copies.indexOf {l : List Nat} (hl : ∀ x ∈ l, Among h T x) {x : Nat} (hx : Among h T x) (i : Nat) : indexOf (l.map f) (f x) i = indexOf l x i := by
  unfold Visdom.indexOf
  rw [← List.map_drop, cp.idxOf (fun y hy => hl y (List.mem_of_mem_drop hy)) hx]

theorem Spec.Copies.notIn {X S X' S' : List Nat} (hX : LRel h T f X X') (hS : LRel h T f S S') : LRel h T f (notIn X S) (notIn X' S') := by
  obtain ⟨rfl, hX⟩ := hX
  obtain ⟨rfl, hS⟩ := hS
  unfold Visdom.notIn
  generalize 0 = i
  induction X generalizing i with
  | nil => exact .nil
  | cons a X ih =>
    have ha := hX a List.mem_cons_self
    have ih := ih fun y hy => hX y (List.mem_cons_of_mem _ hy)
    rw [List.map_cons, notInFrom, notInFrom, cp.indexOf hS ha]
    cases Visdom.indexOf S a i with
    | none => exact .cons ha (ih i)
    | some j => exact ih _

theorem Spec.Copies.filterIn {X S X' S' : List Nat} (hX : LRel h T f X X') (hS : LRel h T f S S') : LRel h T f (filterIn X S) (filterIn X' S') := by
  obtain ⟨rfl, hX⟩ := hX
  obtain ⟨rfl, hS⟩ := hS
  unfold Visdom.filterIn
  generalize 0 = i
  induction X generalizing i with
  | nil => exact .nil
  | cons a X ih =>
    have ha := hX a List.mem_cons_self
    have ih := ih fun y hy => hX y (List.mem_cons_of_mem _ hy)
    rw [List.map_cons, filterInFrom, filterInFrom, cp.indexOf hS ha, List.length_map]
    cases Visdom.indexOf S a i with
    | none => exact ih i
    | some j =>
      simp only
      split
      · exact .cons ha .nil
      · exact .cons ha (ih _)

theorem Spec.Copies.isIn {X S X' S' : List Nat} (hX : LRel h T f X X') (hS : LRel h T f S S') : isIn X' S' = isIn X S := by
  obtain ⟨rfl, hX⟩ := hX
  obtain ⟨rfl, hS⟩ := hS
  rw [Bool.eq_iff_iff]
  simp only [Visdom.isIn, List.any_eq_true, beq_iff_eq, List.mem_map]
  constructor
  · rintro ⟨_, ⟨x, hx, rfl⟩, _, ⟨y, hy, rfl⟩, he⟩
    exact ⟨x, hx, y, hy, (cp.inj (hX x hx) (hS y hy)).1 he⟩
  · rintro ⟨x, hx, y, hy, rfl⟩
    exact ⟨f x, ⟨x, hx, rfl⟩, f x, ⟨x, hy, rfl⟩, rfl⟩

theorem Spec.Copies.isAllIn {X S X' S' : List Nat} (hX : LRel h T f X X') (hS : LRel h T f S S') : isAllIn X' S' = isAllIn X S := by
  obtain ⟨rfl, hX⟩ := hX
  obtain ⟨rfl, hS⟩ := hS
  have key : ∀ (X : List Nat), (∀ x ∈ X, Among h T x) → ∀ i, allInFrom (S.map f) (X.map f) i = allInFrom S X i := by
    intro X
    induction X with
    | nil => exact fun _ _ => rfl
    | cons a X ih =>
      intro hX i
      rw [List.map_cons, allInFrom, allInFrom, cp.indexOf hS (hX a List.mem_cons_self)]
      cases Visdom.indexOf S a i with
      | none => rfl
      | some j => exact ih (fun y hy => hX y (List.mem_cons_of_mem _ hy)) _
  unfold Visdom.isAllIn
  rw [List.length_map, List.length_map, key X hX]

end Visdom
