import Verif.Proofs.CopiesSelect
/-!
# Queries on copies: filtering and navigation
-/
namespace Visdom
open Spec

variable {h h' : Heap} {T : Nat → Prop} {f : Nat → Nat} {env env' : Env}

section
variable (cp : Copies h h' T f env env')
include cp

theorem Spec.Copies.rootElem {x : Nat} (hx : Among h T x) : rootElem h' (f x) = f (rootElem h x) ∧ Wide h T (rootElem h x) := by
  unfold Visdom.rootElem
  rw [cp.root x hx]
  cases hr : (h.node x).root with
  | none => exact ⟨rfl, .inl hx⟩
  | some q => exact ⟨rfl, .inr ⟨x, hx, hr⟩⟩

/-- The remembered roots correspond. -/
def RootRel (h : Heap) (T : Nat → Prop) (f : Nat → Nat) (o o' : Option Nat) : Prop := o' = o.map f ∧ ∀ q, o = some q → Wide h T q

omit cp in
theorem RootRel.none : RootRel h T f none none := ⟨rfl, by simp⟩

omit cp in
theorem forall2_getLast? {α β : Type} {P : α → β → Prop} {l : List α} {l' : List β} (hl : List.Forall₂ P l l') : ORel P l.getLast? l'.getLast? := by
  have h1 := forall2_reverse hl
  rw [← List.head?_reverse, ← List.head?_reverse]
  generalize l.reverse = A, l'.reverse = A' at h1
  cases h1 with
  | nil => exact .none
  | cons h1 h2 => exact .some h1

omit cp in
theorem forall2_dropLast {α β : Type} {P : α → β → Prop} {l : List α} {l' : List β} (hl : List.Forall₂ P l l') : List.Forall₂ P l.dropLast l'.dropLast := by
  rw [List.dropLast_eq_take, List.dropLast_eq_take, hl.length_eq]
  exact List.forall₂_take _ hl

theorem Spec.Copies.filterProc {p p' : Proc} (hp : ProcRel h T f p p') {o o' : Option Nat} (ho : RootRel h T f o o') {l l' : List Nat} (hl : LRel h T f l l') :
    ERel (fun a b => LRel h T f a.1 b.1 ∧ RootRel h T f a.2 b.2) (filterProc h l o p) (filterProc h' l' o' p') := by
  obtain ⟨_, h2⟩ := hp
  have h3 := forall2_getLast? h2
  have h4 := h2.length_eq
  have h5 := forall2_dropLast h2
  unfold Visdom.filterProc
  rw [← h4]
  generalize p.query.getLast? = A, p'.query.getLast? = A' at h3
  generalize p.query.dropLast = D, p'.query.dropLast = D' at h5
  cases h3 with
  | none => exact .ok ⟨.nil, ho⟩
  | some h3 =>
    cases h3 with
    | nil => exact .err _
    | @cons s s' ss ss' k1 k2 =>
      have k3 := cp.selectByRule k1.1 hl .chain
      simp only
      generalize Visdom.selectByRule h l s.1 .chain = B, Visdom.selectByRule h' l' s'.1 .chain = B' at k3
      cases k3 with
      | err p => exact .err p
      | @ok r r' hr =>
        have k4 := cp.selectRest k2 hr
        simp only
        generalize Visdom.selectRest h r ss = B, Visdom.selectRest h' r' ss' = B' at k4
        cases k4 with
        | err p => exact .err p
        | @ok r r' hr =>
          obtain ⟨rfl, hr⟩ := hr
          cases r with
          | nil => exact .ok ⟨.nil, ho⟩
          | cons x r =>
            simp only [List.map_cons]
            split
            · have hx := hr x List.mem_cons_self
              have k5 : o'.getD (Visdom.rootElem h' (f x)) = f (o.getD (Visdom.rootElem h x)) ∧ Wide h T (o.getD (Visdom.rootElem h x)) := by
                obtain ⟨rfl, ho⟩ := ho
                cases o with
                | none => exact cp.rootElem hx
                | some q => exact ⟨rfl, ho q rfl⟩
              obtain ⟨k5, k6⟩ := k5
              rw [k5, k1.2]
              generalize o.getD (Visdom.rootElem h x) = q at k6
              have k7 : ERel (LRel h T f) (filterR (fun e => Visdom.hasEle h [q] e s.2 D) (x :: r)) (filterR (fun e => Visdom.hasEle h' [f q] e s.2 D') ((x :: r).map f)) :=
                filterR_rel hr fun y hy => cp.hasEle (S := [q]) (by simpa using k6) (hr y hy) s.2 h5
              rw [List.map_cons] at k7
              generalize filterR (fun e => Visdom.hasEle h [q] e s.2 D) (x :: r) = B, filterR (fun e => Visdom.hasEle h' [f q] e s.2 D') (f x :: r.map f) = B' at k7
              cases k7 with
              | err p => exact .err p
              | ok k8 => exact .ok ⟨k8, rfl, by rintro _ ⟨⟩; exact k6⟩
            · exact .ok ⟨⟨rfl, hr⟩, ho⟩

theorem Spec.Copies.filterProcs {ps ps' : List Proc} (hp : ProcsRel h T f ps ps') {l l' : List Nat} (hl : LRel h T f l l') {o o' : Option Nat}
    (ho : RootRel h T f o o') {res res' : List Nat} (hres : LRel h T f res res') : ERel (LRel h T f) (filterProcs h l ps o res) (filterProcs h' l' ps' o' res') := by
  induction hp generalizing o o' res res' with
  | nil => exact .ok hres
  | @cons p p' ps ps' h1 h2 ih =>
    have h3 := cp.filterProc h1 ho hl
    rw [Visdom.filterProcs, Visdom.filterProcs]
    generalize Visdom.filterProc h l o p = A, Visdom.filterProc h' l' o' p' = A' at h3
    cases h3 with
    | err p => exact .err p
    | @ok a b hab =>
      obtain ⟨g, o1⟩ := a
      obtain ⟨g', o1'⟩ := b
      obtain ⟨hr, ho1⟩ := hab
      simp only at hr ho1 ⊢
      rw [hr.isEmpty]
      split
      · exact ih ho1 hres
      · have h4 := cp.addElems hres hr
        generalize Visdom.addElems h res g = A, Visdom.addElems h' res' g' = A' at h4
        cases h4 with
        | err p => exact .err p
        | ok hr => exact ih ho1 hr

theorem Spec.Copies.isProcs {ps ps' : List Proc} (hp : ProcsRel h T f ps ps') {l l' : List Nat} (hl : LRel h T f l l') {o o' : Option Nat}
    (ho : RootRel h T f o o') : isProcs h' l' ps' o' = isProcs h l ps o := by
  induction hp generalizing o o' with
  | nil => rfl
  | @cons p p' ps ps' h1 h2 ih =>
    have h3 := cp.filterProc h1 ho hl
    rw [Visdom.isProcs, Visdom.isProcs]
    generalize Visdom.filterProc h l o p = A, Visdom.filterProc h' l' o' p' = A' at h3
    cases h3 with
    | err p => rfl
    | @ok a b hab =>
      obtain ⟨g, o1⟩ := a
      obtain ⟨g', o1'⟩ := b
      obtain ⟨hr, ho1⟩ := hab
      simp only at hr ho1 ⊢
      rw [hr.isEmpty]
      split
      · exact ih ho1
      · rfl

theorem Spec.Copies.filterSel {ps ps' : List Proc} (hp : ProcsRel h T f ps ps') {l l' : List Nat} (hl : LRel h T f l l') :
    ERel (LRel h T f) (filterSel h l ps) (filterSel h' l' ps') := by
  unfold Visdom.filterSel
  rw [hl.isEmpty]
  split
  · exact .ok .nil
  · exact cp.filterProcs hp hl .none .nil

theorem Spec.Copies.notSel {ps ps' : List Proc} (hp : ProcsRel h T f ps ps') {l l' : List Nat} (hl : LRel h T f l l') :
    ERel (LRel h T f) (notSel h l ps) (notSel h' l' ps') := by
  unfold Visdom.notSel
  rw [hl.isEmpty]
  split
  · exact .ok .nil
  · refine (cp.filterProcs hp hl .none .nil).map fun a b hab => ?_
    rw [hab.isEmpty]
    split
    · exact hl
    · exact cp.notIn hl hab

theorem Spec.Copies.isSel {ps ps' : List Proc} (hp : ProcsRel h T f ps ps') {l l' : List Nat} (hl : LRel h T f l l') :
    isSel h' l' ps' = isSel h l ps := by
  unfold Visdom.isSel
  rw [hl.isEmpty, cp.isProcs hp hl .none]

theorem Spec.Copies.isAllSel {ps ps' : List Proc} (hp : ProcsRel h T f ps ps') {l l' : List Nat} (hl : LRel h T f l l') :
    isAllSel h' l' ps' = isAllSel h l ps := by
  unfold Visdom.isAllSel
  rw [hl.isEmpty]
  split
  · rfl
  · refine ((cp.filterProcs hp hl .none .nil).map fun a b hab => ?_).eq
    rw [hab.1, hl.1, List.length_map, List.length_map]

theorem Spec.Copies.childs {x : Nat} (hx : Among h T x) : LRel h T f (h.children x) (h'.children (f x)) := ⟨cp.children hx, fun _ hc => hx.child hc⟩

theorem Spec.Copies.hasLoop {ps ps' : List Proc} (hp : ProcsRel h T f ps ps') {n n' x : Nat} (d : DownOk h h' T n n' x) :
    hasLoop h' ps' n' (f x) = hasLoop h ps n x := by
  induction n generalizing n' x with
  | zero => obtain ⟨_, _, h1, _⟩ := cp.down_pos d; cases h1
  | succ n ih =>
    obtain ⟨_, k', _, rfl⟩ := cp.down_pos d
    have hx := d.among
    have hc := cp.childs hx
    rw [Visdom.hasLoop, Visdom.hasLoop, hc.isEmpty, cp.isProcs hp hc .none, hc.1, anyR_map f fun y hy => ih (d.child hy)]

theorem Spec.Copies.hasSel {ps ps' : List Proc} (hp : ProcsRel h T f ps ps') {l l' : List Nat} (hl : LRel h T f l l') :
    ERel (LRel h T f) (hasSel h l ps) (hasSel h' l' ps') := by
  unfold Visdom.hasSel
  rw [hl.isEmpty]
  split
  · exact .ok .nil
  · obtain ⟨rfl, hl⟩ := hl
    exact filterR_rel hl fun x hx => cp.hasLoop hp (cp.down (hl x hx))

theorem Spec.Copies.hasInLoop {S S' : List Nat} (hS : LRel h T f S S') {n n' x : Nat} (d : DownOk h h' T n n' x) :
    hasInLoop h' S' n' (f x) = hasInLoop h S n x := by
  induction n generalizing n' x with
  | zero => obtain ⟨_, _, h1, _⟩ := cp.down_pos d; cases h1
  | succ n ih =>
    obtain ⟨_, k', _, rfl⟩ := cp.down_pos d
    have hx := d.among
    have hc := cp.childs hx
    rw [Visdom.hasInLoop, Visdom.hasInLoop, hc.isEmpty, cp.isIn hc hS, hc.1, anyR_map f fun y hy => ih (d.child hy)]

theorem Spec.Copies.hasIn {S S' : List Nat} (hS : LRel h T f S S') {l l' : List Nat} (hl : LRel h T f l l') :
    ERel (LRel h T f) (hasIn h l S) (hasIn h' l' S') := by
  obtain ⟨rfl, hl⟩ := hl
  exact filterR_rel hl fun x hx => cp.hasInLoop hS (cp.down (hl x hx))

omit cp in
theorem allProcs_rel (c : Comb) : ProcsRel h T f [{ query := [[(allMatcher, c)]] }] [{ query := [[(allMatcher, c)]] }] :=
  .cons ⟨.none, .cons (.cons ⟨allMatcher_rel, rfl⟩ .nil) .nil⟩ .nil

theorem Spec.Copies.selectWithComb {o o' : Option (List Proc)} (ho : ORel (ProcsRel h T f) o o') {l l' : List Nat} (hl : LRel h T f l l') (c : Comb) :
    ERel (LRel h T f) (selectWithComb h l o c) (selectWithComb h' l' o' c) := by
  cases ho with
  | none => exact cp.findSelector (allProcs_rel c) hl
  | some hp =>
    rw [Visdom.selectWithComb, Visdom.selectWithComb, hl.isEmpty]
    split
    · exact .ok .nil
    · exact cp.findSelector (headCombs_rel c hp) hl

theorem Spec.Copies.parentsSel {o o' : Option (List Proc)} (ho : ORel (ProcsRel h T f) o o') {l l' : List Nat} (hl : LRel h T f l l') :
    ERel (LRel h T f) (parentsSel h l o) (parentsSel h' l' o') :=
  (cp.selectWithComb ho (cp.uniqueSiblingFirst hl) .parentAll).map fun _ _ hab => cp.sortAndUnique hab

theorem Spec.Copies.siblingsSel {o o' : Option (List Proc)} (ho : ORel (ProcsRel h T f) o o') {l l' : List Nat} (hl : LRel h T f l l') :
    ERel (LRel h T f) (siblingsSel h l o) (siblingsSel h' l' o') := by
  obtain ⟨h1, h2⟩ := cp.uniqueAllSiblings hl
  unfold Visdom.siblingsSel
  simp only
  rw [h1]
  refine (flatMapR_rel (fun e : Nat × Bool => (f e.1, e.2)) fun e he => ?_).map fun _ _ hab => cp.sortElems hab
  refine cp.findSelector ?_ ⟨rfl, by simpa using h2 e he⟩
  cases ho with
  | none => exact allProcs_rel _
  | some hp => exact headCombs_rel _ hp

theorem Spec.Copies.untilAdds {o o' : Option (List Proc)} (ho : ORel (ProcsRel h T f) o o') {l l' : List Nat} (hl : LRel h T f l l') :
    untilAdds h' o' l' = untilAdds h o l := by
  cases ho with
  | none => rfl
  | some hp => exact cp.isProcs hp hl .none

/-- A walk whose steps make a number smaller does not run out of fuel on either side. -/
theorem Spec.Copies.untilWalk {c : Comb} (μ : Nat → Nat)
    (hμ : ∀ x l y, Among h T x → Visdom.selectByRule h [x] allMatcher c = .ok l → y ∈ l → μ y < μ x) {ps ps' : List Proc} (hp : ProcsRel h T f ps ps')
    {o o' : Option (List Proc)} (ho : ORel (ProcsRel h T f) o o') (b : Bool) {n n' x : Nat} (hx : Among h T x) (hn : μ x < n) (hn' : μ x < n') :
    ERel (LRel h T f) (untilWalk h c ps o b n x) (untilWalk h' c ps' o' b n' (f x)) := by
  induction n generalizing n' x with
  | zero => omega
  | succ n ih =>
    obtain ⟨k', rfl⟩ : ∃ k, n' = k + 1 := ⟨n' - 1, by omega⟩
    have h1 := cp.selectByRule allMatcher_rel (l := [x]) (l' := [f x]) ⟨rfl, by simpa using hx⟩ c
    have h2 := hμ x
    rw [Visdom.untilWalk, Visdom.untilWalk]
    generalize Visdom.selectByRule h [x] allMatcher c = A, Visdom.selectByRule h' [f x] allMatcher c = A' at h1 h2
    cases h1 with
    | err p => exact .err p
    | @ok l l' hl =>
      have h2 := fun y => h2 l y hx rfl
      have e1 := cp.isProcs hp hl .none
      have e2 := cp.untilAdds ho hl
      obtain ⟨rfl, hl⟩ := hl
      cases l with
      | nil => exact .ok .nil
      | cons y l =>
        have hy := hl y List.mem_cons_self
        simp only [List.map_cons] at e1 e2 ⊢
        rw [e1, e2]
        cases Visdom.isProcs h (y :: l) ps none with
        | error p => exact .err p
        | ok t =>
          cases Visdom.untilAdds h o (y :: l) with
          | error p =>
            cases t <;> simp only [Except.map]
            · exact .err p
            · split
              · exact .err p
              · exact .ok .nil
          | ok add =>
            cases t <;> simp only [Except.map]
            · have h3 := ih hy (n' := k') (by have := h2 y List.mem_cons_self; omega) (by have := h2 y List.mem_cons_self; omega)
              refine h3.map (u := fun rest => if add = true then y :: rest else rest) (v := fun rest => if add = true then f y :: rest else rest) fun a b hab => ?_
              cases add
              · exact hab
              · exact .cons hy hab
            · cases b
              · exact .ok .nil
              · cases add
                · exact .ok .nil
                · exact .ok (.cons hy .nil)

/-- How far it is to the last sibling. -/
def toEnd (h : Heap) (x : Nat) : Nat := match h.parent x with
  | none => 0
  | some p => (h.kids p).length - h.index x
/-- How far it is to the first sibling. -/
def toFront (h : Heap) (x : Nat) : Nat := match h.parent x with
  | none => 0
  | some _ => h.index x

theorem Spec.Copies.toEnd_fuel {x : Nat} (hx : Among h T x) : toEnd h x < h.fuel ∧ toEnd h x < h'.fuel := by
  unfold toEnd Heap.fuel
  cases hp : h.parent x with
  | none => constructor <;> simp
  | some p =>
    obtain ⟨⟨r, hr, hw⟩, _⟩ := cp.up hx hp
    have k1 := kids_length (cp.wf r hr) hw
    obtain ⟨π, hπ⟩ := hw.path
    have k2 := kids_length (cp.wf' r hr) (cp.at hr hπ).within
    rw [cp.kids p ⟨r, hr, hw⟩, List.length_map] at k2
    constructor <;> simp only <;> omega

theorem Spec.Copies.toFront_fuel {x : Nat} (hx : Among h T x) : toFront h x < h.fuel ∧ toFront h x < h'.fuel := by
  unfold toFront Heap.fuel
  cases hp : h.parent x with
  | none => constructor <;> simp
  | some p =>
    obtain ⟨⟨r, hr, hw⟩, hi⟩ := cp.up hx hp
    have k1 := kids_length (cp.wf r hr) hw
    obtain ⟨π, hπ⟩ := hw.path
    have k2 := kids_length (cp.wf' r hr) (cp.at hr hπ).within
    rw [cp.kids p ⟨r, hr, hw⟩, List.length_map] at k2
    have k3 := (List.getElem?_eq_some_iff.1 hi).1
    constructor <;> simp only <;> omega

theorem Spec.Copies.depth_fuel {x : Nat} (hx : Among h T x) : (h.treeIndexs x).length ≤ h.size ∧ (h.treeIndexs x).length ≤ h'.size := by
  obtain ⟨r, hr, hw⟩ := hx
  obtain ⟨π, hπ⟩ := hw.path
  have k1 := path_length (cp.wf r hr) hπ
  have k2 := path_length (cp.wf' r hr) (cp.at hr hπ)
  rw [treeIndexs_eq (cp.wf r hr) hπ, List.length_cons]
  constructor <;> omega

/-- The children of one parent have the positions they say. -/
theorem Spec.Copies.sib_at {x p c : Nat} {i : Nat} (hx : Among h T x) (hp : h.parent x = some p) (hc : (h.kids p)[i]? = some c) :
    h.parent c = some p ∧ h.index c = i := by
  obtain ⟨⟨r, hr, hw⟩, _⟩ := cp.up hx hp
  exact (cp.wf r hr).link p i c hw hc

theorem Spec.Copies.next_less {x y : Nat} (hx : Among h T x) (hy : h.nextElem x = some y) : toEnd h y < toEnd h x := by
  unfold Heap.nextElem at hy
  cases hp : h.parent x with
  | none => rw [hp] at hy; cases hy
  | some p =>
    rw [hp] at hy
    simp only at hy
    obtain ⟨i, hi⟩ := List.getElem?_of_mem (List.mem_of_find?_eq_some hy)
    rw [List.getElem?_drop] at hi
    obtain ⟨k1, k2⟩ := cp.sib_at hx hp hi
    have k3 := (List.getElem?_eq_some_iff.1 hi).1
    simp only [toEnd, hp, k1, k2]
    omega

theorem Spec.Copies.prev_less {x y : Nat} (hx : Among h T x) (hy : h.prevElem x = .ok (some y)) : toFront h y < toFront h x := by
  unfold Heap.prevElem at hy
  cases hp : h.parent x with
  | none => rw [hp] at hy; cases hy
  | some p =>
    rw [hp] at hy
    simp only at hy
    split at hy
    · cases hy
    · rename_i hle
      injection hy with hy
      have := List.mem_of_find?_eq_some hy
      rw [List.mem_reverse] at this
      obtain ⟨i, hi⟩ := List.getElem?_of_mem this
      have k3 := (List.getElem?_eq_some_iff.1 hi).1
      rw [List.getElem?_take] at hi
      split at hi
      · obtain ⟨k1, k2⟩ := cp.sib_at hx hp hi
        simp only [toFront, hp, k1, k2]
        assumption
      · cases hi

theorem Spec.Copies.up_less {x p : Nat} (hx : Among h T x) (hp : h.parent x = some p) : (h.treeIndexs p).length < (h.treeIndexs x).length := by
  obtain ⟨r, hr, hw⟩ := hx
  obtain ⟨hpw, hpi⟩ := parent_some (cp.wf r hr) hw hp
  obtain ⟨π, hπ⟩ := hpw.path
  rw [treeIndexs_eq (cp.wf r hr) hπ, treeIndexs_eq (cp.wf r hr) (.step hπ hpi)]
  simp

theorem Spec.Copies.next_step {x y : Nat} {l : List Nat} (hx : Among h T x) (hl : Visdom.selectByRule h [x] allMatcher .next = .ok l) (hy : y ∈ l) :
    toEnd h y < toEnd h x := by
  simp only [Visdom.selectByRule, allMatcher, Matcher.apply, Except.ok.injEq] at hl
  subst hl
  rw [List.mem_filterMap] at hy
  obtain ⟨z, hz, hy⟩ := hy
  rw [List.mem_singleton] at hz
  subst hz
  exact cp.next_less hx hy

theorem Spec.Copies.prev_step {x y : Nat} {l : List Nat} (hx : Among h T x) (hl : Visdom.selectByRule h [x] allMatcher .prev = .ok l) (hy : y ∈ l) :
    toFront h y < toFront h x := by
  simp only [Visdom.selectByRule, allMatcher, Matcher.apply, flatMapR] at hl
  cases hv : h.prevElem x with
  | error p => rw [hv] at hl; cases hl
  | ok o =>
    rw [hv] at hl
    simp only [Except.map, List.append_nil, Except.ok.injEq] at hl
    subst hl
    cases o with
    | none => cases hy
    | some z =>
      rw [Option.toList_some, List.mem_singleton] at hy
      subst hy
      exact cp.prev_less hx hv

theorem Spec.Copies.parent_step {x y : Nat} {l : List Nat} (hx : Among h T x) (hl : Visdom.selectByRule h [x] allMatcher .parent = .ok l) (hy : y ∈ l) :
    (h.treeIndexs y).length < (h.treeIndexs x).length := by
  simp only [Visdom.selectByRule, allMatcher, Matcher.getAll, Except.ok.injEq] at hl
  subst hl
  unfold Visdom.parentsOf at hy
  rw [List.mem_filterMap] at hy
  obtain ⟨z, hz, hy⟩ := hy
  have hu : Visdom.uniqueSiblingFirst h [x] = [x] := by
    rw [Visdom.uniqueSiblingFirst, List.foldl_cons, List.foldl_nil, Visdom.sibStep]
    cases h.parent x <;> simp
  rw [hu] at hz
  have hz : z = x := List.mem_singleton.1 hz
  subst hz
  cases hp : h.parent z with
  | none => rw [hp] at hy; cases hy
  | some p =>
    rw [hp, Option.bind_some] at hy
    split at hy
    · cases hy
    · injection hy with hy
      subst hy
      exact cp.up_less hx hp

theorem Spec.Copies.nextUntil {ps ps' : List Proc} (hp : ProcsRel h T f ps ps') {o o' : Option (List Proc)} (ho : ORel (ProcsRel h T f) o o') (b : Bool)
    {l l' : List Nat} (hl : LRel h T f l l') : ERel (LRel h T f) (nextUntil h l ps o b) (nextUntil h' l' ps' o' b) := by
  have hl := cp.uniqueSiblingFirst hl
  unfold Visdom.nextUntil
  rw [hl.1]
  exact flatMapR_rel f fun x hx => cp.untilWalk (toEnd h) (fun _ _ _ hx hl hy => cp.next_step hx hl hy) hp ho b (hl.2 x hx)
    (cp.toEnd_fuel (hl.2 x hx)).1 (cp.toEnd_fuel (hl.2 x hx)).2

theorem Spec.Copies.prevUntil {ps ps' : List Proc} (hp : ProcsRel h T f ps ps') {o o' : Option (List Proc)} (ho : ORel (ProcsRel h T f) o o') (b : Bool)
    {l l' : List Nat} (hl : LRel h T f l l') : ERel (LRel h T f) (prevUntil h l ps o b) (prevUntil h' l' ps' o' b) := by
  have hl := cp.uniqueSiblingLast hl
  unfold Visdom.prevUntil
  rw [hl.1]
  refine ERel.map (P := LRel h T f) (flatMapR_rel f fun x hx => cp.untilWalk (toFront h) (fun _ _ _ hx hl hy => cp.prev_step hx hl hy) hp ho b (hl.2 x hx)
    (cp.toFront_fuel (hl.2 x hx)).1 (cp.toFront_fuel (hl.2 x hx)).2) fun a b hab => ?_
  have : b.length = a.length := by rw [hab.1, List.length_map]
  rw [this]
  split
  · exact hab.reverse
  · exact hab

theorem Spec.Copies.parentsUntil {ps ps' : List Proc} (hp : ProcsRel h T f ps ps') {o o' : Option (List Proc)} (ho : ORel (ProcsRel h T f) o o') (b : Bool)
    {l l' : List Nat} (hl : LRel h T f l l') : ERel (LRel h T f) (parentsUntil h l ps o b) (parentsUntil h' l' ps' o' b) := by
  have hl := cp.uniqueSiblingFirst hl
  unfold Visdom.parentsUntil
  rw [hl.1]
  exact ERel.map (P := LRel h T f) (flatMapR_rel f fun x hx => cp.untilWalk (fun y => (h.treeIndexs y).length)
    (fun _ _ _ hx hl hy => cp.parent_step hx hl hy) hp ho b (hl.2 x hx) (Nat.lt_succ_of_le (cp.depth_fuel (hl.2 x hx)).1)
    (Nat.lt_succ_of_le (cp.depth_fuel (hl.2 x hx)).2)) fun a b hab => cp.sortAndUnique hab

theorem Spec.Copies.closestWalk {ps ps' : List Proc} (hp : ProcsRel h T f ps ps') {n n' x : Nat} (d : UpOk h T n n' x) :
    ERel (fun a b => b = a.map f ∧ ∀ y, a = some y → Among h T y) (closestWalk h ps n x) (closestWalk h' ps' n' (f x)) := by
  induction n generalizing n' x with
  | zero => obtain ⟨_, _, h1, _⟩ := d.pos; cases h1
  | succ n ih =>
    obtain ⟨_, k', _, rfl⟩ := d.pos
    have hx := d.among
    rw [Visdom.closestWalk, Visdom.closestWalk, cp.isProcs (l := [x]) (l' := [f x]) hp ⟨rfl, by simpa using hx⟩ .none, cp.parent hx]
    cases Visdom.isProcs h [x] ps none with
    | error p => exact .err p
    | ok b =>
      cases b with
      | true => exact .ok ⟨rfl, by rintro _ ⟨⟩; exact hx⟩
      | false =>
        cases hq : h.parent x with
        | none => exact .ok ⟨rfl, by simp⟩
        | some p =>
          simp only [Option.map_some]
          rw [cp.isRoot (cp.up hx hq).1]
          split
          · exact .ok ⟨rfl, by simp⟩
          · exact ih (cp.upOk_parent d hq)

theorem Spec.Copies.closest {o o' : Option (List Proc)} (ho : ORel (ProcsRel h T f) o o') {l l' : List Nat} (hl : LRel h T f l l') :
    ERel (LRel h T f) (closest h l o) (closest h' l' o') := by
  cases ho with
  | none => exact .ok .nil
  | @some ps ps' hp =>
    obtain ⟨rfl, hl⟩ := hl
    have h1 : ERel (LRel h T f) (filterR (fun x => Visdom.isProcs h [x] ps none) l) (filterR (fun x => Visdom.isProcs h' [x] ps' none) (l.map f)) :=
      filterR_rel hl fun x hx => cp.isProcs (l := [x]) (l' := [f x]) hp ⟨rfl, by simpa using hl x hx⟩ .none
    rw [Visdom.closest, Visdom.closest]
    generalize filterR (fun x => Visdom.isProcs h [x] ps none) l = A, filterR (fun x => Visdom.isProcs h' [x] ps' none) (l.map f) = A' at h1
    cases h1 with
    | err p => exact .err p
    | @ok s s' hs =>
      have h2 : LRel h T f (l.filter fun x => decide (x ∉ s)) ((l.map f).filter fun x => decide (x ∉ s')) := by
        obtain ⟨rfl, hs⟩ := hs
        refine ⟨?_, fun x hx => hl x (List.mem_filter.1 hx).1⟩
        rw [List.filter_map]
        congr 1
        exact List.filter_congr fun y hy => decide_eq_decide.2 (not_congr (cp.mem (hl y hy) hs))
      simp only
      rw [h2.isEmpty]
      split
      · exact .ok hs
      · have h3 := cp.uniqueSiblingFirst h2
        rw [h3.1]
        refine ERel.map (P := LRel h T f) (flatMapR_rel f fun x hx => (cp.closestWalk hp (cp.upOk (h3.2 x hx))).map fun a b hab => ?_)
          fun a b hab => cp.sortAndUnique (hs.append hab)
        obtain ⟨rfl, h4⟩ := hab
        cases a with
        | none => exact .nil
        | some y => exact .cons (h4 y rfl) .nil

end
end Visdom
