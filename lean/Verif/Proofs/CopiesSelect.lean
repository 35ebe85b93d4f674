import Verif.Proofs.CopiesEngine
/-!
# Queries on copies: compounds, lookups, whole selectors and their preparation
-/
namespace Visdom
open Spec

/-- A node of the trees, or one that a node of the trees takes for its root. -/
def Wide (h : Heap) (T : Nat → Prop) (x : Nat) : Prop := Among h T x ∨ ∃ z, Among h T z ∧ (h.node z).root = some x

variable {h h' : Heap} {T : Nat → Prop} {f : Nat → Nat} {env env' : Env} {m m' : Matcher}

theorem allMatcher_rel : MRel h T f allMatcher allMatcher :=
  ⟨.none, .some fun _ _ hl => .ok ⟨rfl, hl⟩, .none, rfl, rfl, by intro s hs; cases hs⟩

theorem any_mem_congr {α : Type} {p q : α → Bool} {l : List α} (hl : ∀ x ∈ l, p x = q x) : l.any p = l.any q := by
  induction l with
  | nil => rfl
  | cons a l ih => rw [List.any_cons, List.any_cons, hl a List.mem_cons_self, ih fun x hx => hl x (List.mem_cons_of_mem _ hx)]

section
variable (cp : Copies h h' T f env env')
include cp

theorem Spec.Copies.memW {x : Nat} (hx : Among h T x) {S : List Nat} (hS : ∀ y ∈ S, Wide h T y) : f x ∈ S.map f ↔ x ∈ S := by
  refine ⟨fun hm => ?_, List.mem_map_of_mem⟩
  obtain ⟨y, h1, h2⟩ := List.mem_map.1 hm
  rw [← cp.apart y x (hS y h1) (.inl hx) h2]; exact h1

theorem Spec.Copies.hasAncestor {S : List Nat} (hS : ∀ y ∈ S, Wide h T y) {n n' x : Nat} (d : UpOk h T n n' x) :
    hasAncestor h' (S.map f) n' (f x) = hasAncestor h S n x := by
  induction n generalizing n' x with
  | zero => obtain ⟨_, _, h1, _⟩ := d.pos; cases h1
  | succ n ih =>
    obtain ⟨_, k', _, rfl⟩ := d.pos
    have hx := d.among
    rw [Visdom.hasAncestor, Visdom.hasAncestor, cp.parent hx]
    cases hp : h.parent x with
    | none => rfl
    | some p =>
      have hpa := (cp.up hx hp).1
      simp only [Option.map_some]
      rw [cp.parent hpa]
      by_cases h1 : p ∈ S
      · rw [if_pos h1, if_pos ((cp.memW hpa hS).2 h1)]
      · rw [if_neg h1, if_neg fun h2 => h1 ((cp.memW hpa hS).1 h2)]
        cases hq : h.parent p with
        | none => rfl
        | some a =>
          have haa := (cp.up hpa hq).1
          simp only [Option.map_some]
          by_cases h1 : a ∈ S
          · rw [if_pos h1, if_pos ((cp.memW haa hS).2 h1)]
          · rw [if_neg h1, if_neg fun h2 => h1 ((cp.memW haa hS).1 h2)]
            have d1 := cp.upOk_parent d hp
            obtain ⟨r, π, hr, hπ, k1, k2⟩ := d1
            have d2 : UpOk h T (n + 1) (k' + 1) p := ⟨r, π, hr, hπ, by omega, by omega⟩
            exact ih (cp.upOk_parent d2 hq)

theorem Spec.Copies.hasRelated {S : List Nat} (hS : ∀ y ∈ S, Wide h T y) (c : Comb) {l : List Nat} (hl : ∀ x ∈ l, Among h T x) :
    hasRelated h' (S.map f) c (l.map f) = hasRelated h S c l := by
  have hd : ∀ y, Among h T y → decide (f y ∈ S.map f) = decide (y ∈ S) := fun y hy => decide_eq_decide.2 (cp.memW hy hS)
  cases c with
  | parent =>
    simp only [Visdom.hasRelated, List.any_map]
    congr 1
    induction l with
    | nil => rfl
    | cons a l ih =>
      have ha := hl a List.mem_cons_self
      rw [List.any_cons, List.any_cons, ih fun x hx => hl x (List.mem_cons_of_mem _ hx)]
      simp only [Function.comp_apply, cp.parent ha]
      cases hp : h.parent a with
      | none => rfl
      | some p => simp only [Option.map_some, hd p (cp.up ha hp).1]
  | parentAll => exact anyR_map f fun x hx => cp.hasAncestor hS (cp.upOk (hl x hx))
  | prev =>
    refine anyR_map f fun x hx => ?_
    have h1 := cp.prevElem (hl x hx)
    generalize h.prevElem x = A, h'.prevElem (f x) = A' at h1
    cases h1 with
    | err p => rfl
    | @ok a b hab =>
      obtain ⟨rfl, h2⟩ := hab
      cases a with
      | none => rfl
      | some y => simp only [Except.map, Option.map_some, hd y (h2 y rfl)]
  | prevAll =>
    refine anyR_map f fun x hx => ?_
    have h1 := cp.prevElems (hl x hx)
    generalize h.prevElems x = A, h'.prevElems (f x) = A' at h1
    cases h1 with
    | err p => rfl
    | @ok a b hab =>
      obtain ⟨rfl, h2⟩ := hab
      simp only [Except.map, List.any_map]
      congr 1
      exact any_mem_congr fun y hy => hd y (h2 y hy)
  | chain =>
    simp only [Visdom.hasRelated, List.any_map]
    congr 1
    exact any_mem_congr fun y hy => hd y (hl y hy)
  | _ => rfl

theorem Spec.Copies.hasEle0 {S : List Nat} (hS : ∀ y ∈ S, Wide h T y) {x : Nat} (hx : Among h T x) (c : Comb) :
    hasEle0 h' (S.map f) (f x) c = hasEle0 h S x c := by
  unfold Visdom.hasEle0
  cases c.reverse with
  | error p => rfl
  | ok c' => exact cp.hasRelated hS c' (l := [x]) (by simpa using hx)

theorem Spec.Copies.selectRest {ss ss' : List Seg} (hs : List.Forall₂ (SegRel h T f) ss ss') {l l' : List Nat} (hl : LRel h T f l l') :
    ERel (LRel h T f) (selectRest h l ss) (selectRest h' l' ss') := by
  induction hs generalizing l l' with
  | nil => exact .ok hl
  | @cons s s' ss ss' h1 h2 ih =>
    rw [Visdom.selectRest, Visdom.selectRest, hl.isEmpty]
    split
    · exact .ok hl
    · have h3 := cp.selectByRule h1.1 hl s.2
      rw [h1.2]
      generalize Visdom.selectByRule h l s.1 s.2 = A, Visdom.selectByRule h' l' s'.1 s.2 = A' at h3
      cases h3 with
      | err p => exact .err p
      | ok hr => exact ih hr

theorem Spec.Copies.selectFirst (hm : MRel h T f m m') {l l' : List Nat} (hl : LRel h T f l l') (c : Comb) :
    ERel (LRel h T f) (selectFirst h l m c) (selectFirst h' l' m' c) := by
  unfold Visdom.selectFirst
  rw [hm.inCache]
  split
  · have h3 := hm.apply hl (some true)
    generalize m.apply l (some true) = A, m'.apply l' (some true) = A' at h3
    cases h3 with
    | err p => exact .err p
    | ok hr =>
      obtain ⟨rfl, hr⟩ := hr
      obtain ⟨rfl, hl⟩ := hl
      exact (filterR_rel hr fun x hx => cp.hasEle0 (fun y hy => .inl (hl y hy)) (hr x hx) c).map fun _ _ hab => cp.sortAndUnique hab
  · exact cp.selectByRule hm hl c

theorem Spec.Copies.select {r r' : Cmpd} (hr : CmpdRel h T f r r') {l l' : List Nat} (hl : LRel h T f l l') (c : Option Comb) :
    ERel (LRel h T f) (select h l r c) (select h' l' r' c) := by
  cases hr with
  | nil => exact .err _
  | @cons s s' ss ss' h1 h2 =>
    have h3 := cp.selectFirst h1.1 hl (c.getD s.2)
    rw [Visdom.select, Visdom.select, h1.2]
    generalize Visdom.selectFirst h l s.1 (c.getD s.2) = A, Visdom.selectFirst h' l' s'.1 (c.getD s.2) = A' at h3
    cases h3 with
    | err p => exact .err p
    | ok hr => exact cp.selectRest h2 hr

/-- What the walk up finds corresponds. -/
def UpRel (h : Heap) (T : Nat → Prop) (f : Nat → Nat) : Option (List Nat × Comb) → Option (List Nat × Comb) → Prop :=
  ORel fun a b => LRel h T f a.1 b.1 ∧ b.2 = a.2

theorem Spec.Copies.lookUp {g g' : List Cmpd} (hg : CplxRel h T f g g') {l l' : List Nat} (hl : LRel h T f l l') (c : Comb) :
    ERel (UpRel h T f) (lookUp h l c g) (lookUp h' l' c g') := by
  induction hg generalizing l l' c with
  | nil => exact .ok (.some ⟨hl, rfl⟩)
  | @cons r r' g g' h1 h2 ih =>
    have h3 := cp.select h1 hl (some c)
    rw [Visdom.lookUp, Visdom.lookUp]
    generalize Visdom.select h l r (some c) = A, Visdom.select h' l' r' (some c) = A' at h3
    cases h3 with
    | err p => exact .err p
    | ok hr =>
      simp only
      rw [hr.isEmpty]
      split
      · exact .ok .none
      · cases h1 with
        | nil => exact .err _
        | @cons s s' ss ss' k1 k2 =>
          simp only
          rw [k1.2]
          cases s.2.reverse with
          | error p => exact .err p
          | ok c' => exact ih hr c'

omit cp in
theorem forall2_reverse {α β : Type} {P : α → β → Prop} {l : List α} {l' : List β} (hl : List.Forall₂ P l l') : List.Forall₂ P l.reverse l'.reverse := by
  induction hl with
  | nil => exact .nil
  | cons h1 h2 ih =>
    rw [List.reverse_cons, List.reverse_cons]
    exact List.rel_append ih (.cons h1 .nil)

theorem Spec.Copies.hasEle {S : List Nat} (hS : ∀ y ∈ S, Wide h T y) {x : Nat} (hx : Among h T x) (c : Comb) {g g' : List Cmpd} (hg : CplxRel h T f g g') :
    hasEle h' (S.map f) (f x) c g' = hasEle h S x c g := by
  unfold Visdom.hasEle
  cases c.reverse with
  | error p => rfl
  | ok c' =>
    have h1 := cp.lookUp (forall2_reverse hg) (l := [x]) (l' := [f x]) ⟨rfl, by simpa using hx⟩ c'
    simp only
    generalize Visdom.lookUp h [x] c' g.reverse = A, Visdom.lookUp h' [f x] c' g'.reverse = A' at h1
    cases h1 with
    | err p => rfl
    | ok hr =>
      cases hr with
      | none => rfl
      | @some a b hab =>
        obtain ⟨l, c1⟩ := a
        obtain ⟨l', c2⟩ := b
        obtain ⟨⟨h1, h2⟩, h3⟩ := hab
        simp only at h1 h2 h3
        subst h1; subst h3
        exact cp.hasRelated hS c2 h2

theorem Spec.Copies.selectChain {g g' : List Cmpd} (hg : CplxRel h T f g g') {l l' : List Nat} (hl : LRel h T f l l') :
    ERel (LRel h T f) (selectChain h l g) (selectChain h' l' g') := by
  induction hg generalizing l l' with
  | nil => exact .ok hl
  | @cons r r' g g' h1 h2 ih =>
    have h3 := cp.select h1 hl none
    rw [Visdom.selectChain, Visdom.selectChain, hl.isEmpty]
    split
    · exact .ok hl
    · generalize Visdom.select h l r none = A, Visdom.select h' l' r' none = A' at h3
      cases h3 with
      | err p => exact .err p
      | ok hr => exact ih hr

theorem Spec.Copies.findFirst {o o' : Option (List Cmpd)} (ho : ORel (CplxRel h T f) o o') {r r' : Cmpd} (hr : CmpdRel h T f r r') {l l' : List Nat}
    (hl : LRel h T f l l') : ERel (LRel h T f) (findFirst h l o r) (findFirst h' l' o' r') := by
  cases ho with
  | none => exact cp.select hr hl none
  | @some a b hab =>
    have h3 := cp.select hr hl (some .childrenAll)
    rw [Visdom.findFirst, Visdom.findFirst]
    generalize Visdom.select h l r (some .childrenAll) = A, Visdom.select h' l' r' (some .childrenAll) = A' at h3
    cases h3 with
    | err p => exact .err p
    | ok hf =>
      cases hr with
      | nil => exact .err _
      | @cons s s' ss ss' k1 k2 =>
        obtain ⟨rfl, hf⟩ := hf
        obtain ⟨rfl, hl⟩ := hl
        simp only
        rw [k1.2]
        exact filterR_rel hf fun x hx => cp.hasEle (fun y hy => .inl (hl y hy)) (hf x hx) s.2 hab

theorem Spec.Copies.findProc {p p' : Proc} (hp : ProcRel h T f p p') {l l' : List Nat} (hl : LRel h T f l l') :
    ERel (LRel h T f) (findProc h l p) (findProc h' l' p') := by
  obtain ⟨h1, h2⟩ := hp
  unfold Visdom.findProc
  generalize p.query = Q, p'.query = Q' at h2
  cases h2 with
  | nil => exact .err _
  | @cons r r' g g' k1 k2 =>
    have h3 := cp.findFirst h1 k1 hl
    simp only
    generalize Visdom.findFirst h l p.shouldIn r = A, Visdom.findFirst h' l' p'.shouldIn r' = A' at h3
    cases h3 with
    | err p => exact .err p
    | ok hr => exact cp.selectChain k2 hr

theorem Spec.Copies.findProcs {ps ps' : List Proc} (hp : ProcsRel h T f ps ps') {l l' : List Nat} (hl : LRel h T f l l') {res res' : List Nat}
    (hres : LRel h T f res res') : ERel (LRel h T f) (findProcs h l ps res) (findProcs h' l' ps' res') := by
  induction hp generalizing res res' with
  | nil => exact .ok hres
  | @cons p p' ps ps' h1 h2 ih =>
    have h3 := cp.findProc h1 hl
    rw [Visdom.findProcs, Visdom.findProcs]
    generalize Visdom.findProc h l p = A, Visdom.findProc h' l' p' = A' at h3
    cases h3 with
    | err p => exact .err p
    | @ok g g' hr =>
      simp only
      rw [hr.isEmpty]
      split
      · exact ih hres
      · have h4 := cp.addElems hres hr
        generalize Visdom.addElems h res g = A, Visdom.addElems h' res' g' = A' at h4
        cases h4 with
        | err p => exact .err p
        | ok hr => exact ih hr

/-- **A selector finds the copies of what it finds.** -/
theorem Spec.Copies.findSelector {ps ps' : List Proc} (hp : ProcsRel h T f ps ps') {l l' : List Nat} (hl : LRel h T f l l') :
    ERel (LRel h T f) (findSelector h l ps) (findSelector h' l' ps') := by
  unfold Visdom.findSelector
  rw [hl.isEmpty]
  split
  · exact .ok .nil
  · exact cp.findProcs hp hl .nil

end

theorem forall2_insertionSort {α β : Type} {P : α → β → Prop} {r : α → α → Prop} {r' : β → β → Prop} [DecidableRel r] [DecidableRel r']
    (hr : ∀ a b a' b', P a a' → P b b' → (r a b ↔ r' a' b')) {l : List α} {l' : List β} (hl : List.Forall₂ P l l') :
    List.Forall₂ P (l.insertionSort r) (l'.insertionSort r') := by
  have ins : ∀ {a : α} {a' : β} {l : List α} {l' : List β}, P a a' → List.Forall₂ P l l' → List.Forall₂ P (l.orderedInsert r a) (l'.orderedInsert r' a') := by
    intro a a' l l' ha hl
    induction hl with
    | nil => exact .cons ha .nil
    | @cons b b' l l' h1 h2 ih =>
      rw [List.orderedInsert, List.orderedInsert]
      by_cases h3 : r a b
      · rw [if_pos h3, if_pos ((hr _ _ _ _ ha h1).1 h3)]; exact .cons ha (.cons h1 h2)
      · rw [if_neg h3, if_neg fun h4 => h3 ((hr _ _ _ _ ha h1).2 h4)]; exact .cons h1 ih
  induction hl with
  | nil => exact .nil
  | cons h1 h2 ih => exact ins h1 ih

theorem sortPriority_rel {r r' : Cmpd} (hr : CmpdRel h T f r r') : CmpdRel h T f (sortPriority r) (sortPriority r') := by
  refine forall2_insertionSort (fun a b a' b' ha hb => ?_) hr
  rw [ha.1.priority, hb.1.priority]

theorem chained_rel {r r' : Cmpd} (hr : CmpdRel h T f r r') : CmpdRel h T f (r.map fun n => (n.1, Comb.chain)) (r'.map fun n => (n.1, Comb.chain)) := by
  induction hr with
  | nil => exact .nil
  | cons h1 h2 ih => exact .cons ⟨h1.1, rfl⟩ ih

theorem optimizeCmpd_rel {r r' : Cmpd} (hr : CmpdRel h T f r r') : CmpdRel h T f (optimizeCmpd r) (optimizeCmpd r') := by
  cases hr with
  | nil => exact .nil
  | @cons s s' ss ss' h1 h2 =>
    cases h2 with
    | nil => exact .cons h1 .nil
    | @cons t t' ss ss' h2 h3 =>
      have h4 : CmpdRel h T f (sortPriority (s :: t :: ss)) (sortPriority (s' :: t' :: ss')) := sortPriority_rel (.cons h1 (.cons h2 h3))
      rw [optimizeCmpd, optimizeCmpd]
      generalize sortPriority (s :: t :: ss) = A, sortPriority (s' :: t' :: ss') = A' at h4
      cases h4 with
      | nil => exact .nil
      | @cons a a' as as' k1 k2 =>
        simp only
        rw [k1.2, h1.2]
        split
        · exact .cons ⟨k1.1, rfl⟩ (chained_rel k2)
        · exact .cons k1 k2

theorem cmpdPriority_rel {r r' : Cmpd} (hr : CmpdRel h T f r r') : cmpdPriority r' = cmpdPriority r := by
  unfold cmpdPriority
  induction hr with
  | nil => rfl
  | @cons s s' ss ss' h1 h2 ih => rw [List.map_cons, List.map_cons, List.sum_cons, List.sum_cons, ih, h1.1.priority]

theorem maxIndex_rel {g g' : List Cmpd} (hg : CplxRel h T f g g') (i mi mp : Nat) : maxIndex g' i mi mp = maxIndex g i mi mp := by
  induction hg generalizing i mi mp with
  | nil => rfl
  | @cons r r' g g' h1 h2 ih =>
    rw [maxIndex, maxIndex, cmpdPriority_rel h1, ih, ih]

theorem optimizeAll_rel {g g' : List Cmpd} (hg : CplxRel h T f g g') : CplxRel h T f (g.map optimizeCmpd) (g'.map optimizeCmpd) := by
  induction hg with
  | nil => exact .nil
  | cons h1 h2 ih => exact .cons (optimizeCmpd_rel h1) ih

theorem optimizeGroup_rel (lookup : Bool) {g g' : List Cmpd} (hg : CplxRel h T f g g') : ProcRel h T f (optimizeGroup lookup g) (optimizeGroup lookup g') := by
  have h1 := optimizeAll_rel hg
  unfold optimizeGroup
  generalize g.map optimizeCmpd = A, g'.map optimizeCmpd = A' at h1
  simp only
  rw [maxIndex_rel h1]
  generalize (if lookup = true then maxIndex A 0 0 0 else 0) = mi
  have h2 := List.forall₂_take mi h1
  have h3 := List.forall₂_drop mi h1
  have fin : ∀ b : Bool, ProcRel h T f (if b = true then { shouldIn := some (A.take mi), query := A.drop mi } else { query := A })
      (if b = true then { shouldIn := some (A'.take mi), query := A'.drop mi } else { query := A' }) := by
    intro b
    split
    · exact ⟨.some h2, h3⟩
    · exact ⟨.none, h1⟩
  cases h1 with
  | nil => exact fin _
  | cons k1 k2 =>
    cases k1 with
    | nil => exact fin _
    | @cons s s' ss ss' k3 k4 =>
      obtain ⟨a, b⟩ := s
      obtain ⟨a', b'⟩ := s'
      have := k3.2
      simp only at this
      subst this
      exact fin _

theorem headCmpds_rel (c : Comb) {g g' : List Cmpd} (hg : CplxRel h T f g g') : CplxRel h T f (headCmpds c g) (headCmpds c g') := by
  have ha : CmpdRel h T f [(allMatcher, c)] [(allMatcher, c)] := .cons ⟨allMatcher_rel, rfl⟩ .nil
  cases hg with
  | nil => exact .nil
  | cons k1 k2 =>
    cases k1 with
    | nil => exact .cons ha (.cons .nil k2)
    | @cons s s' ss ss' k3 k4 =>
      obtain ⟨a, b⟩ := s
      obtain ⟨a', b'⟩ := s'
      have := k3.2
      simp only at this
      subst this
      cases b' <;> first
        | exact .cons (.cons ⟨k3.1, rfl⟩ k4) k2
        | exact .cons ha (.cons (.cons k3 k4) k2)

theorem headComb_rel (c : Comb) {p p' : Proc} (hp : ProcRel h T f p p') : ProcRel h T f (headComb c p) (headComb c p') := by
  obtain ⟨h1, h2⟩ := hp
  obtain ⟨si, q⟩ := p
  obtain ⟨si', q'⟩ := p'
  simp only at h1 h2
  cases h1 with
  | none => exact ⟨.none, headCmpds_rel c h2⟩
  | some h3 => exact ⟨.some (headCmpds_rel c h3), h2⟩

theorem headCombs_rel (c : Comb) {ps ps' : List Proc} (hp : ProcsRel h T f ps ps') : ProcsRel h T f (ps.map (headComb c)) (ps'.map (headComb c)) := by
  induction hp with
  | nil => exact .nil
  | cons h1 h2 ih => exact .cons (headComb_rel c h1) ih

end Visdom
