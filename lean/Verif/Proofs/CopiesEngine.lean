import Verif.Proofs.CopiesSets
/-!
# Queries on copies: the evaluation of selectors
-/
namespace Visdom
open Spec

/-- Both are absent, or both are there and related. -/
inductive ORel {α β : Type} (P : α → β → Prop) : Option α → Option β → Prop
  | none : ORel P none none
  | some {a : α} {b : β} : P a b → ORel P (some a) (some b)

/-- Callbacks of the handles used in a walk are called for children. -/
def KidSpec (h : Heap) (T : Nat → Prop) (m : Matcher) : Prop :=
  ∀ s, m.spec = some s → ∀ x l, Among h T x → s x = .ok l → ∀ e ∈ l, e.1 ∈ h.kids x

section
variable (h : Heap) (T : Nat → Prop) (f : Nat → Nat)

/-- The two matchers give corresponding answers to corresponding questions. -/
structure MRel (m m' : Matcher) : Prop where
  one : ORel (fun g g' => ∀ x, Among h T x → g' (f x) = g x) m.one m'.one
  all : ORel (fun F F' => ∀ l c, (∀ x ∈ l, Among h T x) → ERel (LRel h T f) (F l c) (F' (l.map f) c)) m.all m'.all
  spec : ORel (fun s s' => ∀ x, Among h T x → ERel (SRel h T f) (s x) (s' (f x))) m.spec m'.spec
  priority : m'.priority = m.priority
  inCache : m'.inCache = m.inCache
  kid : KidSpec h T m

/-- Segments that correspond. -/
def SegRel (s s' : Seg) : Prop := MRel h T f s.1 s'.1 ∧ s'.2 = s.2
/-- Compounds that correspond. -/
def CmpdRel : Cmpd → Cmpd → Prop := List.Forall₂ (SegRel h T f)
/-- Lists of compounds that correspond. -/
def CplxRel : List Cmpd → List Cmpd → Prop := List.Forall₂ (CmpdRel h T f)
/-- Processes that correspond. -/
def ProcRel (p p' : Proc) : Prop := ORel (CplxRel h T f) p.shouldIn p'.shouldIn ∧ CplxRel h T f p.query p'.query
/-- Selectors that correspond. -/
def ProcsRel : List Proc → List Proc → Prop := List.Forall₂ (ProcRel h T f)
end

variable {h h' : Heap} {T : Nat → Prop} {f : Nat → Nat} {env env' : Env} {m m' : Matcher}

theorem MRel.apply (hm : MRel h T f m m') {l l' : List Nat} (hl : LRel h T f l l') (c : Option Bool) : ERel (LRel h T f) (m.apply l c) (m'.apply l' c) := by
  obtain ⟨rfl, hl⟩ := hl
  have h1 := hm.all
  have h2 := hm.one
  unfold Matcher.apply
  generalize m.all = A, m'.all = A' at h1
  generalize m.one = O, m'.one = O' at h2
  cases h1 with
  | some h3 => exact h3 l c hl
  | none =>
    cases h2 with
    | none => exact .err _
    | some h4 => exact filterR_rel hl fun x hx => h4 x (hl x hx)

theorem MRel.getAll (hm : MRel h T f m m') {l l' : List Nat} (hl : LRel h T f l l') (c : Option Bool) : ERel (LRel h T f) (m.getAll l c) (m'.getAll l' c) := by
  obtain ⟨rfl, hl⟩ := hl
  have h1 := hm.all
  unfold Matcher.getAll
  generalize m.all = A, m'.all = A' at h1
  cases h1 with
  | some h3 => exact h3 l c hl
  | none => exact .err _

section
variable (cp : Copies h h' T f env env')
include cp

theorem Spec.Copies.dfsOne {g g' : Nat → R Bool} (hg : ∀ x, Among h T x → g' (f x) = g x) {n n' x : Nat} (d : DownOk h h' T n n' x) :
    ERel (LRel h T f) (dfsOne h g n x) (dfsOne h' g' n' (f x)) := by
  induction n generalizing n' x with
  | zero => obtain ⟨_, _, h1, _⟩ := cp.down_pos d; cases h1
  | succ n ih =>
    obtain ⟨_, m', _, rfl⟩ := cp.down_pos d
    have hx := d.among
    rw [Visdom.dfsOne, Visdom.dfsOne, cp.children hx]
    refine flatMapR_rel f fun c hc => ?_
    have hca := hx.child hc
    rw [hg c hca, cp.childLen hca]
    cases g c with
    | error p => exact .err p
    | ok b =>
      have : ERel (LRel h T f) (if 0 < h.childLen c then Visdom.dfsOne h g n c else .ok []) (if 0 < h.childLen c then Visdom.dfsOne h' g' m' (f c) else .ok []) := by
        split
        · exact ih (d.child hc)
        · exact .ok .nil
      simp only
      generalize (if 0 < h.childLen c then Visdom.dfsOne h g n c else .ok []) = A, (if 0 < h.childLen c then Visdom.dfsOne h' g' m' (f c) else .ok []) = A' at this
      cases this with
      | err p => exact .err p
      | ok hr =>
        cases b with
        | true => exact .ok (.cons hca hr)
        | false => exact .ok hr

/-- The calls of the callback are for children. -/
theorem Spec.Copies.dfsSpec {s s' : Nat → R (List (Nat × Bool × Bool))} (hs : ∀ x, Among h T x → ERel (SRel h T f) (s x) (s' (f x)))
    (hk : ∀ x l, Among h T x → s x = .ok l → ∀ e ∈ l, e.1 ∈ h.kids x) {n n' x : Nat} (d : DownOk h h' T n n' x) :
    ERel (LRel h T f) (dfsSpec h s n x) (dfsSpec h' s' n' (f x)) := by
  induction n generalizing n' x with
  | zero => obtain ⟨_, _, h1, _⟩ := cp.down_pos d; cases h1
  | succ n ih =>
    obtain ⟨_, m', _, rfl⟩ := cp.down_pos d
    have hx := d.among
    have h1 := hs x hx
    have h2 := hk x
    rw [Visdom.dfsSpec, Visdom.dfsSpec]
    generalize s x = A, s' (f x) = A' at h1 h2
    cases h1 with
    | err p => exact .err p
    | @ok l l' hl =>
      obtain ⟨rfl, hl⟩ := hl
      have h2 := h2 l hx rfl
      refine flatMapR_rel (fun e : Nat × Bool × Bool => (f e.1, e.2)) fun e he => ?_
      obtain ⟨c, b, b2⟩ := e
      have hca := hl _ he
      simp only at hca ⊢
      rw [cp.childLen hca]
      have : ERel (LRel h T f) (if (b2 && decide (0 < h.childLen c)) = true then Visdom.dfsSpec h s n c else .ok [])
          (if (b2 && decide (0 < h.childLen c)) = true then Visdom.dfsSpec h' s' m' (f c) else .ok []) := by
        split
        · exact ih (d.kid (h2 _ he))
        · exact .ok .nil
      generalize (if (b2 && decide (0 < h.childLen c)) = true then Visdom.dfsSpec h s n c else .ok []) = A,
        (if (b2 && decide (0 < h.childLen c)) = true then Visdom.dfsSpec h' s' m' (f c) else .ok []) = A' at this
      cases this with
      | err p => exact .err p
      | ok hr =>
        cases b with
        | true => exact .ok (.cons hca hr)
        | false => exact .ok hr

theorem Spec.Copies.markMatched {cs ms : List Nat} (hc : ∀ x ∈ cs, Among h T x) (hm : ∀ x ∈ ms, Among h T x) :
    markMatched (cs.map f) (ms.map f) = (markMatched cs ms).map fun e => (f e.1, e.2) := by
  induction cs generalizing ms with
  | nil => simp [Visdom.markMatched]
  | cons a cs ih =>
    have ih := @ih
    have hc' : ∀ x ∈ cs, Among h T x := fun x hx => hc x (List.mem_cons_of_mem _ hx)
    cases ms with
    | nil =>
      have := ih (ms := []) hc' (by simp)
      simp only [List.map_cons, List.map_nil, Visdom.markMatched] at this ⊢
      rw [this]
    | cons b ms =>
      have h1 := ih (ms := ms) hc' fun x hx => hm x (List.mem_cons_of_mem _ hx)
      have h2 := ih (ms := b :: ms) hc' hm
      simp only [List.map_cons, Visdom.markMatched] at h2 ⊢
      by_cases he : a = b
      · rw [if_pos he, if_pos (he ▸ rfl), h1, List.map_cons]
      · rw [if_neg he, if_neg fun e => he ((cp.inj (hc a List.mem_cons_self) (hm b List.mem_cons_self)).1 e), h2, List.map_cons]

omit cp in
theorem markMatched_mem {cs ms : List Nat} {e : Nat × Bool} (he : e ∈ markMatched cs ms) : e.1 ∈ cs := by
  induction cs generalizing ms with
  | nil => simp [markMatched] at he
  | cons a cs ih =>
    cases ms with
    | nil =>
      simp only [markMatched, List.mem_cons] at he
      rcases he with rfl | he
      · exact List.mem_cons_self
      · exact List.mem_cons_of_mem _ (ih he)
    | cons b ms =>
      simp only [markMatched] at he
      split at he <;> rcases List.mem_cons.1 he with rfl | he
      · exact List.mem_cons_self
      · exact List.mem_cons_of_mem _ (ih he)
      · exact List.mem_cons_self
      · exact List.mem_cons_of_mem _ (ih he)

theorem Spec.Copies.dfsAll {F F' : List Nat → Option Bool → R (List Nat)}
    (hF : ∀ l c, (∀ x ∈ l, Among h T x) → ERel (LRel h T f) (F l c) (F' (l.map f) c)) {n n' x : Nat} (d : DownOk h h' T n n' x) :
    ERel (LRel h T f) (dfsAll h F n x) (dfsAll h' F' n' (f x)) := by
  induction n generalizing n' x with
  | zero => obtain ⟨_, _, h1, _⟩ := cp.down_pos d; cases h1
  | succ n ih =>
    obtain ⟨_, m', _, rfl⟩ := cp.down_pos d
    have hx := d.among
    have hch : ∀ c ∈ h.children x, Among h T c := fun c hc => hx.child hc
    rw [Visdom.dfsAll, Visdom.dfsAll, cp.children hx, List.isEmpty_map]
    split
    · exact .ok .nil
    · have h1 := hF (h.children x) (some false) hch
      generalize F (h.children x) (some false) = A, F' ((h.children x).map f) (some false) = A' at h1
      cases h1 with
      | err p => exact .err p
      | @ok l l' hl =>
        obtain ⟨rfl, hl⟩ := hl
        simp only
        rw [cp.markMatched hch hl]
        refine flatMapR_rel (fun e : Nat × Bool => (f e.1, e.2)) fun e he => ?_
        obtain ⟨c, b⟩ := e
        have hcm : c ∈ h.children x := markMatched_mem he
        have hca := hch c hcm
        simp only
        rw [cp.childLen hca]
        have : ERel (LRel h T f) (if 0 < h.childLen c then Visdom.dfsAll h F n c else .ok []) (if 0 < h.childLen c then Visdom.dfsAll h' F' m' (f c) else .ok []) := by
          split
          · exact ih (d.child hcm)
          · exact .ok .nil
        generalize (if 0 < h.childLen c then Visdom.dfsAll h F n c else .ok []) = A, (if 0 < h.childLen c then Visdom.dfsAll h' F' m' (f c) else .ok []) = A' at this
        cases this with
        | err p => exact .err p
        | ok hr =>
          cases b with
          | true => exact .ok (.cons hca hr)
          | false => exact .ok hr

theorem Spec.Copies.overTops {E E' : Nat → R (List Nat)} (hE : ∀ x, Among h T x → ERel (LRel h T f) (E x) (E' (f x))) {l l' : List Nat} (hl : LRel h T f l l') :
    ERel (LRel h T f) (overTops h E l) (overTops h' E' l') := by
  have h1 := cp.uniqueParents hl
  obtain ⟨rfl, hl⟩ := hl
  unfold Visdom.overTops
  rw [List.length_map]
  split
  · generalize Visdom.uniqueParents h l = A, Visdom.uniqueParents h' (l.map f) = A' at h1
    cases h1 with
    | err p => exact .err p
    | @ok u u' hu =>
      obtain ⟨rfl, hu⟩ := hu
      exact flatMapR_rel f fun x hx => hE x (hu x hx)
  · exact flatMapR_rel f fun x hx => hE x (hl x hx)

theorem Spec.Copies.ancestorsFuel {n n' x : Nat} (d : UpOk h T n n' x) : ERel (LRel h T f) (ancestorsFuel h n x) (ancestorsFuel h' n' (f x)) := by
  induction n generalizing n' x with
  | zero => obtain ⟨_, _, h1, _⟩ := d.pos; cases h1
  | succ n ih =>
    obtain ⟨_, m', _, rfl⟩ := d.pos
    have hx := d.among
    rw [Visdom.ancestorsFuel, Visdom.ancestorsFuel, cp.parent hx]
    cases hp : h.parent x with
    | none => exact .ok .nil
    | some p =>
      have hpa := (cp.up hx hp).1
      simp only [Option.map_some]
      rw [cp.isRoot hpa]
      split
      · exact .ok .nil
      · have h1 := ih (cp.upOk_parent d hp)
        generalize Visdom.ancestorsFuel h n p = A, Visdom.ancestorsFuel h' m' (f p) = A' at h1
        cases h1 with
        | err p => exact .err p
        | ok hr => exact .ok (hr.append ⟨rfl, by simpa using hpa⟩)

theorem Spec.Copies.parentsOf {l l' : List Nat} (hl : LRel h T f l l') : LRel h T f (parentsOf h l) (parentsOf h' l') := by
  obtain ⟨rfl, hl⟩ := hl
  unfold Visdom.parentsOf
  induction l with
  | nil => exact .nil
  | cons a l ih =>
    have ha := hl a List.mem_cons_self
    have ih := ih fun x hx => hl x (List.mem_cons_of_mem _ hx)
    rw [List.map_cons, List.filterMap_cons, List.filterMap_cons, cp.parent ha]
    cases hp : h.parent a with
    | none => exact ih
    | some p =>
      have hpa := (cp.up ha hp).1
      simp only [Option.map_some, Option.bind_some, cp.isRoot hpa]
      cases h.isRoot p with
      | true => exact ih
      | false => exact .cons hpa ih

theorem Spec.Copies.nexts {l l' : List Nat} (hl : LRel h T f l l') : LRel h T f (l.filterMap h.nextElem) (l'.filterMap h'.nextElem) := by
  obtain ⟨rfl, hl⟩ := hl
  induction l with
  | nil => exact .nil
  | cons a l ih =>
    have ih := ih fun x hx => hl x (List.mem_cons_of_mem _ hx)
    obtain ⟨h1, h2⟩ := cp.nextElem (hl a List.mem_cons_self)
    rw [List.map_cons, List.filterMap_cons, List.filterMap_cons, h1]
    cases hn : h.nextElem a with
    | none => exact ih
    | some y => exact .cons (h2 y hn) ih

theorem Spec.Copies.prevs {l : List Nat} (hl : ∀ x ∈ l, Among h T x) :
    ERel (LRel h T f) (flatMapR (fun x => (h.prevElem x).map Option.toList) l) (flatMapR (fun x => (h'.prevElem x).map Option.toList) (l.map f)) := by
  refine flatMapR_rel f fun x hx => (cp.prevElem (hl x hx)).map fun a b hab => ?_
  obtain ⟨rfl, h1⟩ := hab
  cases a with
  | none => exact .nil
  | some y => exact .cons (h1 y rfl) .nil

theorem Spec.Copies.selectByRule (hm : MRel h T f m m') {l l' : List Nat} (hl : LRel h T f l l') (c : Comb) :
    ERel (LRel h T f) (selectByRule h l m c) (selectByRule h' l' m' c) := by
  have h1 := hm.one
  have h2 := hm.all
  have h3 := hm.spec
  have hk := hm.kid
  have hl0 := hl
  obtain ⟨rfl, hla⟩ := hl
  cases c with
  | chain => exact hm.apply hl0 none
  | siblings =>
    obtain ⟨e1, e2⟩ := cp.uniqueAllSiblings hl0
    simp only [Visdom.selectByRule]
    rw [e1]
    refine flatMapR_rel (fun e : Nat × Bool => (f e.1, e.2)) fun e he => ?_
    obtain ⟨x, b⟩ := e
    have hx := e2 _ he
    simp only at hx ⊢
    have : ERel (LRel h T f) (if b = true then .ok (h.children x) else h.siblings x) (if b = true then .ok (h'.children (f x)) else h'.siblings (f x)) := by
      split
      · exact .ok ⟨cp.children hx, fun y hy => hx.child hy⟩
      · exact cp.siblings hx
    generalize (if b = true then .ok (h.children x) else h.siblings x) = A, (if b = true then .ok (h'.children (f x)) else h'.siblings (f x)) = A' at this
    cases this with
    | err p => exact .err p
    | ok hr => exact hm.apply hr none
  | next =>
    have hn := cp.nexts hl0
    have happ := hm.apply hn none
    simp only [Visdom.selectByRule]
    generalize m.one = O, m'.one = O' at h1
    cases h1 with
    | none => exact happ
    | some h4 =>
      simp only
      rw [hn.1]
      exact filterR_rel hn.2 fun x hx => h4 x (hn.2 x hx)
  | prev =>
    have hn := cp.prevs hla
    simp only [Visdom.selectByRule]
    generalize flatMapR (fun x => (h.prevElem x).map Option.toList) l = A, flatMapR (fun x => (h'.prevElem x).map Option.toList) (l.map f) = A' at hn
    cases hn with
    | err p => exact .err p
    | ok hr =>
      have happ := hm.apply hr none
      simp only
      generalize m.one = O, m'.one = O' at h1
      cases h1 with
      | none => exact happ
      | some h4 =>
        simp only
        rw [hr.1]
        exact filterR_rel hr.2 fun x hx => h4 x (hr.2 x hx)
  | nextAll =>
    have hu := cp.uniqueSiblingFirst hl0
    simp only [Visdom.selectByRule]
    rw [hu.1]
    refine flatMapR_rel f fun x hx => ?_
    have := cp.nextElems (hu.2 x hx)
    generalize h.nextElems x = A, h'.nextElems (f x) = A' at this
    cases this with
    | err p => exact .err p
    | ok hr => exact hm.apply hr none
  | prevAll =>
    have hu := cp.uniqueSiblingLast hl0
    simp only [Visdom.selectByRule]
    rw [hu.1]
    refine flatMapR_rel f fun x hx => ?_
    have := cp.prevElems (hu.2 x hx)
    generalize h.prevElems x = A, h'.prevElems (f x) = A' at this
    cases this with
    | err p => exact .err p
    | ok hr => exact hm.apply hr none
  | parent =>
    have hu := cp.parentsOf (cp.uniqueSiblingFirst hl0)
    have hg := hm.getAll hu none
    simp only [Visdom.selectByRule]
    generalize m.one = O, m'.one = O' at h1
    cases h1 with
    | none => exact hg
    | some h4 =>
      simp only
      rw [hu.1]
      exact filterR_rel hu.2 fun x hx => h4 x (hu.2 x hx)
  | parentAll =>
    have hu : ERel (LRel h T f) (flatMapR (Visdom.ancestorsFuel h h.fuel) l) (flatMapR (Visdom.ancestorsFuel h' h'.fuel) (l.map f)) :=
      flatMapR_rel f fun x hx => cp.ancestorsFuel (cp.upOk (hla x hx))
    simp only [Visdom.selectByRule]
    generalize flatMapR (Visdom.ancestorsFuel h h.fuel) l = A, flatMapR (Visdom.ancestorsFuel h' h'.fuel) (l.map f) = A' at hu
    cases hu with
    | err p => exact .err p
    | ok hr =>
      have hg := hm.getAll (cp.sortAndUnique hr) none
      simp only
      generalize m.one = O, m'.one = O' at h1
      cases h1 with
      | none => exact hg
      | some h4 =>
        simp only
        obtain ⟨rfl, hr⟩ := hr
        exact (filterR_rel hr fun x hx => h4 x (hr x hx)).map fun _ _ hab => cp.sortAndUnique hab
  | children =>
    simp only [Visdom.selectByRule]
    generalize m.one = O, m'.one = O' at h1
    generalize m.all = A, m'.all = A' at h2
    generalize m.spec = S, m'.spec = S' at h3
    cases h1 with
    | some h4 =>
      simp only
      refine flatMapR_rel f fun x hx => ?_
      rw [cp.children (hla x hx)]
      exact filterR_rel (fun y hy => (hla x hx).child hy) fun y hy => h4 y ((hla x hx).child hy)
    | none =>
      cases h3 with
      | some h4 =>
        simp only
        refine flatMapR_rel f fun x hx => (h4 x (hla x hx)).map fun a b hab => ?_
        obtain ⟨rfl, h5⟩ := hab
        refine ⟨?_, fun y hy => ?_⟩
        · rw [List.filter_map, List.map_map, List.map_map]; rfl
        · obtain ⟨e, he, rfl⟩ := List.mem_map.1 hy
          exact h5 e (List.mem_filter.1 he).1
      | none =>
        cases h2 with
        | none => exact .err _
        | some h4 =>
          simp only
          refine flatMapR_rel f fun x hx => ?_
          rw [cp.children (hla x hx)]
          exact h4 _ _ fun y hy => (hla x hx).child hy
  | childrenAll =>
    unfold KidSpec at hk
    simp only [Visdom.selectByRule]
    generalize m.one = O, m'.one = O' at h1
    generalize m.all = A, m'.all = A' at h2
    generalize m.spec = S, m'.spec = S' at h3 hk
    cases h1 with
    | some h4 => exact cp.overTops (fun x hx => cp.dfsOne h4 (cp.down hx)) hl0
    | none =>
      cases h3 with
      | some h4 => exact cp.overTops (fun x hx => cp.dfsSpec h4 (hk _ rfl) (cp.down hx)) hl0
      | none =>
        cases h2 with
        | none => exact .err _
        | some h4 => exact cp.overTops (fun x hx => cp.dfsAll h4 (cp.down hx)) hl0

end
end Visdom
