import Verif.Proofs.CopiesQuery
import Verif.Model.Rules
/-!
# Queries on copies: the matchers made by the rules
-/
namespace Visdom
open Spec

variable {h h' : Heap} {T : Nat → Prop} {f : Nat → Nat} {env env' : Env}

/-- A matcher that asks about one node at a time. -/
theorem MRel.ofOne {g g' : Nat → R Bool} {k : Nat} (hg : ∀ x, Among h T x → g' (f x) = g x) :
    MRel h T f { one := some g, priority := k } { one := some g', priority := k } :=
  ⟨.some hg, .none, .none, rfl, rfl, by intro s hs; cases hs⟩

/-- A matcher that asks about a list of nodes. -/
theorem MRel.ofAll {F F' : List Nat → Option Bool → R (List Nat)} {k : Nat} {b : Bool}
    (hF : ∀ l c, (∀ x ∈ l, Among h T x) → ERel (LRel h T f) (F l c) (F' (l.map f) c)) :
    MRel h T f { all := some F, priority := k, inCache := b } { all := some F', priority := k, inCache := b } :=
  ⟨.none, .some hF, .none, rfl, rfl, by intro s hs; cases hs⟩

section
variable (cp : Copies h h' T f env env')
include cp

theorem Spec.Copies.nameMatcher (name : List Char) : MRel h T f (nameMatcher h name) (nameMatcher h' name) :=
  .ofOne fun x hx => by rw [cp.tagNames hx]

theorem Spec.Copies.classMatcher (name : List Char) : MRel h T f (classMatcher h name) (classMatcher h' name) :=
  .ofOne fun x hx => by rw [cp.isElem hx, (cp.data x hx).2.2]

theorem Spec.Copies.attrMatcher (key : List Char) (mode : AttrMode) (o : Option (List Char)) : MRel h T f (attrMatcher h key mode o) (attrMatcher h' key mode o) :=
  .ofOne fun x hx => by rw [cp.isElem hx, (cp.data x hx).2.2]

theorem Spec.Copies.idMatcher (i : List Char) : MRel h T f (idMatcher h env.byId i) (idMatcher h' env'.byId i) := by
  refine .ofAll fun l c hl => .ok ?_
  cases l with
  | nil => exact .nil
  | cons x l =>
    have hx := hl x List.mem_cons_self
    simp only [List.map_cons]
    rw [cp.root x hx]
    cases hr : (h.node x).root with
    | none => exact .nil
    | some q =>
      simp only [Option.map_some, Option.bind_some]
      rw [cp.byId x q i hx hr]
      cases he : env.byId q i with
      | none => exact .nil
      | some e =>
        have hea := cp.found x q i e hx hr he
        simp only [Option.map_some]
        cases c with
        | some _ => exact .cons hea .nil
        | none =>
          simp only [Option.isSome_none, Bool.false_eq_true, if_false]
          have h1 := cp.mem hea hl
          rw [List.map_cons] at h1
          by_cases h2 : e ∈ x :: l
          · rw [if_pos h2, if_pos (h1.2 h2)]; exact .cons hea .nil
          · rw [if_neg h2, if_neg fun h3 => h2 (h1.1 h3)]; exact .nil

theorem Spec.Copies.rootMatcher : MRel h T f (rootMatcher h env.isDoc) (rootMatcher h' env'.isDoc) := by
  refine ⟨.some fun x hx => ?_, .none, .some fun x hx => .ok ?_, rfl, rfl, ?_⟩
  · rw [cp.tagName hx, cp.parent hx]
    cases hp : h.parent x with
    | none => rfl
    | some p =>
      have hpa := (cp.up hx hp).1
      simp only [Option.map_some]
      rw [cp.isRoot hpa]
      cases hr : h.isRoot p with
      | false => rfl
      | true =>
        obtain ⟨r, hr1, hw⟩ := hpa
        have : p = r := by
          unfold Heap.isRoot at hr
          exact (cp.wf r hr1).onlyRoot p hw (by simpa using hr)
        subst this
        rw [cp.isDoc p hr1]
  · rw [cp.isRoot hx, cp.children hx]
    cases h.isRoot x with
    | false => exact ⟨rfl, by simp⟩
    | true =>
      simp only [if_true]
      refine ⟨?_, fun e he => ?_⟩
      · rw [List.filter_map, List.map_map, List.map_map]
        rw [List.filter_congr (q := fun c => Visdom.tagName h c == "HTML".toList)]
        · rfl
        · intro c hc
          simp only [Function.comp_apply, cp.tagName (hx.child hc)]
      · obtain ⟨c, hc, rfl⟩ := List.mem_map.1 he
        exact hx.child (List.mem_filter.1 hc).1
  · rintro s ⟨⟩ x l hx hl e he
    simp only [Except.ok.injEq] at hl
    subst hl
    split at he
    · obtain ⟨c, hc, rfl⟩ := List.mem_map.1 he
      exact (List.mem_filter.1 (List.mem_filter.1 hc).1).1
    · cases he

theorem Spec.Copies.emptyMatcher : MRel h T f (emptyMatcher h) (emptyMatcher h') := by
  refine .ofOne fun x hx => ?_
  rw [cp.kids x hx, List.all_map]
  congr 1
  have : ∀ l : List Nat, (∀ c ∈ l, Among h T c) → l.all ((fun c => (h'.node c).kind == .comment) ∘ f) = l.all fun c => (h.node c).kind == .comment := by
    intro l hl
    induction l with
    | nil => rfl
    | cons a l ih =>
      rw [List.all_cons, List.all_cons, ih fun c hc => hl c (List.mem_cons_of_mem _ hc)]
      simp only [Function.comp_apply, (cp.data a (hl a List.mem_cons_self)).1]
  exact this _ fun c hc => hx.kid hc

/-- The data passed to the callback correspond. -/
def DataRel (h : Heap) (T : Nat → Prop) (f : Nat → Nat) (d d' : SibData) : Prop :=
  d'.start = d.start ∧ d'.stop = d.stop ∧ d'.allow = d.allow ∧ d'.parent = d.parent.map f ∧ ∀ p, d.parent = some p → Among h T p

theorem Spec.Copies.groupLoop (A : Nat → R (Option (List Nat))) {l : List Nat} (hl : ∀ x ∈ l, Among h T x) (i : Nat) {d d' : SibData} (hd : DataRel h T f d d') :
    ERel (List.Forall₂ (DataRel h T f)) (groupLoop h A l i d) (groupLoop h' A (l.map f) i d') := by
  induction l generalizing i d d' with
  | nil =>
    rw [List.map_nil, Visdom.groupLoop, Visdom.groupLoop, hd.1, hd.2.1]
    split
    · exact .ok (.cons hd .nil)
    · exact .ok .nil
  | cons x l ih =>
    have ih := @ih fun y hy => hl y (List.mem_cons_of_mem _ hy)
    have hx := hl x List.mem_cons_self
    rw [List.map_cons, Visdom.groupLoop, Visdom.groupLoop, cp.parent hx]
    cases hp : h.parent x with
    | none => exact ih _ hd
    | some p =>
      have hpa := (cp.up hx hp).1
      obtain ⟨k1, k2, k3, k4, k5⟩ := hd
      simp only [Option.map_some]
      rw [k4, cp.children hpa, List.length_map]
      by_cases he : d.parent = some p
      · rw [if_pos he, if_pos (by rw [he]; rfl)]
        exact ih _ ⟨k1, rfl, k3, by simp only [k4], k5⟩
      · rw [if_neg he, if_neg fun h2 => he ((cp.some_eq k5 hpa).1 h2)]
        cases A (h.children p).length with
        | error e => exact .err e
        | ok a =>
          have h1 := ih (i + 1) (d := { start := i, stop := i + 1, allow := a, parent := some p }) (d' := { start := i, stop := i + 1, allow := a, parent := some (f p) })
            ⟨rfl, rfl, rfl, rfl, by rintro _ ⟨⟩; exact hpa⟩
          simp only
          generalize Visdom.groupLoop h A l (i + 1) { start := i, stop := i + 1, allow := a, parent := some p } = B,
            Visdom.groupLoop h' A (l.map f) (i + 1) { start := i, stop := i + 1, allow := a, parent := some (f p) } = B' at h1
          cases h1 with
          | err e => exact .err e
          | ok hr =>
            simp only [Option.isSome_map]
            split
            · exact .ok (.cons ⟨k1, k2, k3, k4, k5⟩ hr)
            · exact .ok hr

omit cp in
theorem flatMapR_rel2 {α α' : Type} {P : α → α' → Prop} {F : α → R (List Nat)} {F' : α' → R (List Nat)} (hF : ∀ a a', P a a' → ERel (LRel h T f) (F a) (F' a'))
    {l : List α} {l' : List α'} (hl : List.Forall₂ P l l') : ERel (LRel h T f) (flatMapR F l) (flatMapR F' l') := by
  induction hl with
  | nil => exact .ok .nil
  | @cons a a' l l' h1 h2 ih =>
    have h3 := hF a a' h1
    rw [flatMapR, flatMapR]
    generalize F a = A, F' a' = A' at h3
    generalize flatMapR F l = B, flatMapR F' l' = B' at ih
    cases h3 with
    | err p => exact .err p
    | ok hr =>
      cases ih with
      | err p => exact .err p
      | ok hr2 => exact .ok (hr.append hr2)

theorem Spec.Copies.groupDo (A : Nat → R (Option (List Nat))) {cb cb' : SibData → R (List Nat)} {l : List Nat} (hl : ∀ x ∈ l, Among h T x)
    (hcb : ∀ d d', DataRel h T f d d' → ERel (LRel h T f) (cb d) (cb' d')) :
    ERel (LRel h T f) (groupDo h A cb l) (groupDo h' A cb' (l.map f)) := by
  have h1 := cp.groupLoop A hl 0 (d := {}) (d' := {}) ⟨rfl, rfl, rfl, rfl, by rintro _ ⟨⟩⟩
  unfold Visdom.groupDo
  generalize Visdom.groupLoop h A l 0 {} = B, Visdom.groupLoop h' A (l.map f) 0 {} = B' at h1
  cases h1 with
  | err e => exact .err e
  | ok hr => exact flatMapR_rel2 hcb hr

omit cp in
theorem slice_rel {d d' : SibData} (hd : DataRel h T f d d') {l : List Nat} (hl : ∀ x ∈ l, Among h T x) : LRel h T f (slice l d) (slice (l.map f) d') := by
  unfold slice
  rw [hd.1, hd.2.1]
  exact ⟨by rw [← List.map_take, ← List.map_drop], fun x hx => hl x (List.mem_of_mem_take (List.mem_of_mem_drop hx))⟩

omit cp in
theorem atAll_rel {l : List Nat} (hl : ∀ x ∈ l, Among h T x) (is : List Nat) : ERel (LRel h T f) (atAll l is) (atAll (l.map f) is) := by
  unfold atAll
  have := flatMapR_rel (h := h) (T := T) (f := f) (id : Nat → Nat) (F := fun i => match l[i]? with
    | some c => .ok [c]
    | none => .error .outOfBounds) (F' := fun i => match (l.map f)[i]? with
    | some c => .ok [c]
    | none => .error .outOfBounds) (l := is) fun i _ => ?_
  · rwa [List.map_id] at this
  · simp only [id, List.getElem?_map]
    cases hi : l[i]? with
    | none => exact .err _
    | some c => exact .ok (.cons (hl c (List.mem_of_getElem? hi)) .nil)

theorem Spec.Copies.ascLoop {sibs : List Nat} (hs : ∀ x ∈ sibs, Among h T x) {childs : List Nat} (hc : ∀ x ∈ childs, Among h T x) (k : Nat) (al : List Nat) :
    ascLoop (sibs.map f) (childs.map f) k al = (ascLoop sibs childs k al).map f := by
  induction sibs generalizing childs k al with
  | nil => rfl
  | cons x sibs ih =>
    have ih := @ih fun y hy => hs y (List.mem_cons_of_mem _ hy)
    rw [List.map_cons, Visdom.ascLoop, Visdom.ascLoop, cp.idxOf hc (hs x List.mem_cons_self)]
    cases childs.idxOf? x with
    | none => exact ih hc k al
    | some i =>
      simp only
      rw [← List.map_drop, ih fun y hy => hc y (List.mem_of_mem_drop hy)]
      cases (allowStep (k + i) al).1 <;> cases (allowStep (k + i) al).2.2 <;> simp

omit cp in
theorem ascLoop_mem {sibs childs : List Nat} {k : Nat} {al : List Nat} {y : Nat} (hy : y ∈ ascLoop sibs childs k al) : y ∈ sibs := by
  induction sibs generalizing childs k al with
  | nil => cases hy
  | cons x sibs ih =>
    rw [ascLoop] at hy
    cases hi : childs.idxOf? x with
    | none => rw [hi] at hy; exact List.mem_cons_of_mem _ (ih hy)
    | some i =>
      rw [hi] at hy
      simp only at hy
      have h1 : ∀ {b : Bool}, y ∈ (if b = true then [] else ascLoop sibs (childs.drop (i + 1)) (k + i + 1) (allowStep (k + i) al).2.1) → y ∈ x :: sibs := by
        intro b hb
        cases b
        · exact List.mem_cons_of_mem _ (ih hb)
        · cases hb
      split at hy
      · rcases List.mem_cons.1 hy with rfl | hy
        · exact List.mem_cons_self
        · exact h1 hy
      · exact h1 hy

theorem Spec.Copies.beforeLast {x : Nat} (hx : Among h T x) {l : List Nat} (hl : ∀ y ∈ l, Among h T y) :
    beforeLast (f x) (l.map f) = (beforeLast x l).map (List.map f) := by
  unfold Visdom.beforeLast
  have h1 : ∀ {l : List Nat}, (∀ y ∈ l, Among h T y) → (l.map f).dropWhile (fun y => decide (y ≠ f x)) = (l.dropWhile fun y => decide (y ≠ x)).map f := by
    intro l hl
    induction l with
    | nil => rfl
    | cons a l ih =>
      have hd : decide (f a ≠ f x) = decide (a ≠ x) := decide_eq_decide.2 (not_congr (cp.inj (hl a List.mem_cons_self) hx))
      rw [List.map_cons, List.dropWhile_cons, List.dropWhile_cons, hd, ih fun y hy => hl y (List.mem_cons_of_mem _ hy)]
      split <;> rfl
  rw [← List.map_reverse, h1 fun y hy => hl y (List.mem_reverse.1 hy)]
  cases l.reverse.dropWhile fun y => decide (y ≠ x) with
  | nil => rfl
  | cons a t => simp

omit cp in
theorem beforeLast_mem {x y : Nat} {l pre : List Nat} (he : beforeLast x l = some pre) (hy : y ∈ pre) : y ∈ l := by
  unfold beforeLast at he
  split at he
  · cases he
  · rename_i a t ht
    injection he with he
    subst he
    have h1 : y ∈ l.reverse.dropWhile (fun y => decide (y ≠ x)) := by rw [ht]; exact List.mem_cons_of_mem _ (List.mem_reverse.1 hy)
    exact List.mem_reverse.1 ((List.dropWhile_sublist _).subset h1)

theorem Spec.Copies.descLoop (al : List Nat) {cs : List Nat} (hc : ∀ x ∈ cs, Among h T x) (i : Nat) {sibs : List Nat} (hs : ∀ x ∈ sibs, Among h T x) :
    descLoop al (cs.map f) i (sibs.map f) = (descLoop al cs i sibs).map f ∧ ∀ y ∈ descLoop al cs i sibs, y ∈ cs := by
  induction cs generalizing i sibs with
  | nil => exact ⟨rfl, fun _ hy => hy⟩
  | cons c cs ih =>
    have ih := @ih fun y hy => hc y (List.mem_cons_of_mem _ hy)
    have hca := hc c List.mem_cons_self
    rw [List.map_cons, Visdom.descLoop, Visdom.descLoop]
    by_cases hi : i ∈ al
    · rw [if_pos hi, if_pos hi, cp.beforeLast hca hs]
      cases hb : Visdom.beforeLast c sibs with
      | none =>
        simp only [Option.map_none, List.isEmpty_map]
        split
        · exact ⟨rfl, by simp⟩
        · exact ⟨(ih _ hs).1, fun y hy => List.mem_cons_of_mem _ ((ih _ hs).2 y hy)⟩
      | some pre =>
        have hpre : ∀ x ∈ pre, Among h T x := fun y hy => hs y (beforeLast_mem hb hy)
        simp only [Option.map_some, List.isEmpty_map]
        split
        · exact ⟨rfl, by simp⟩
        · refine ⟨by rw [List.map_cons, (ih _ hpre).1], fun y hy => ?_⟩
          rcases List.mem_cons.1 hy with rfl | hy
          · exact List.mem_cons_self
          · exact List.mem_cons_of_mem _ ((ih _ hpre).2 y hy)
    · rw [if_neg hi, if_neg hi]
      exact ⟨(ih _ hs).1, fun y hy => List.mem_cons_of_mem _ ((ih _ hs).2 y hy)⟩

theorem Spec.Copies.nthChildHandle (asc : Bool) {sibs : List Nat} (hs : ∀ x ∈ sibs, Among h T x) (al : List Nat) {cs : List Nat} (hc : ∀ x ∈ cs, Among h T x) :
    ERel (LRel h T f) (nthChildHandle asc sibs al cs) (nthChildHandle asc (sibs.map f) al (cs.map f)) := by
  unfold Visdom.nthChildHandle
  rw [List.length_map, List.length_map]
  split
  · split
    · exact atAll_rel hc al
    · exact .ok ⟨cp.ascLoop hs hc 0 al, fun y hy => hs y (ascLoop_mem hy)⟩
  · split
    · have := flatMapR_rel (h := h) (T := T) (f := f) (id : Nat → Nat) (F := fun i => if cs.length < i + 1 then .error .overflow
        else match cs[cs.length - i - 1]? with
          | some c => .ok [c]
          | none => .error .outOfBounds) (F' := fun i => if cs.length < i + 1 then .error .overflow
        else match (cs.map f)[cs.length - i - 1]? with
          | some c => .ok [c]
          | none => .error .outOfBounds) (l := al.reverse) fun i _ => ?_
      · rwa [List.map_id] at this
      · simp only [id, List.getElem?_map]
        split
        · exact .err _
        · cases hi : cs[cs.length - i - 1]? with
          | none => exact .err _
          | some c => exact .ok (.cons (hc c (List.mem_of_getElem? hi)) .nil)
    · have := cp.descLoop al (fun y hy => hc y (List.mem_reverse.1 hy)) 0 hs
      refine .ok (LRel.reverse ?_)
      rw [← List.map_reverse]
      exact ⟨this.1, fun y hy => hc y (List.mem_reverse.1 (this.2 y hy))⟩

theorem Spec.Copies.handleNthChild (asc : Bool) {l : List Nat} (hl : ∀ x ∈ l, Among h T x) {d d' : SibData} (hd : DataRel h T f d d') :
    ERel (LRel h T f) (handleNthChild h asc l d) (handleNthChild h' asc (l.map f) d') := by
  have h1 := slice_rel hd hl
  unfold Visdom.handleNthChild
  rw [h1.1, hd.2.2.1, hd.2.2.2.1]
  have h2 := hd.2.2.2.2
  cases d.allow with
  | none => exact .err _
  | some al =>
    cases al with
    | nil => exact .ok .nil
    | cons a al =>
      cases hp : d.parent with
      | none => exact .err _
      | some p =>
        simp only [Option.map_some]
        rw [cp.children (h2 p hp)]
        exact cp.nthChildHandle asc h1.2 _ fun c hc => (h2 p hp).child hc

theorem Spec.Copies.specPass (asc : Bool) {mk mk' : List Nat → List Bool} {x : Nat} (hx : Among h T x) (hm : ∀ l, (∀ c ∈ l, c ∈ h.children x) → mk' (l.map f) = mk l) :
    ERel (SRel h T f) (specPass h asc mk x) (specPass h' asc mk' (f x)) := by
  have hgo : ∀ bs : List Bool, SRel h T f (((h.children x).zip bs).map fun e => (e.1, e.2, true)) ((((h.children x).map f).zip bs).map fun e => (e.1, e.2, true)) := by
    intro bs
    refine ⟨?_, fun e he => ?_⟩
    · rw [List.zip_map_left, List.map_map, List.map_map]; rfl
    · obtain ⟨c, hc, rfl⟩ := List.mem_map.1 he
      exact hx.child (List.of_mem_zip hc).1
  unfold Visdom.specPass
  rw [cp.children hx, cp.childLen hx]
  split
  · rw [hm _ fun c hc => hc]; exact .ok (hgo _)
  · split
    · exact .err _
    · rw [← List.map_reverse, hm _ fun c hc => List.mem_reverse.1 hc]; exact .ok (hgo _)

omit cp in
theorem specPass_kid {asc : Bool} {mk : List Nat → List Bool} {x : Nat} {l : List (Nat × Bool × Bool)} (hl : specPass h asc mk x = .ok l) :
    ∀ e ∈ l, e.1 ∈ h.kids x := by
  intro e he
  unfold specPass at hl
  split at hl
  · injection hl with hl
    subst hl
    obtain ⟨c, hc, rfl⟩ := List.mem_map.1 he
    exact (List.mem_filter.1 (List.of_mem_zip hc).1).1
  · split at hl
    · cases hl
    · injection hl with hl
      subst hl
      obtain ⟨c, hc, rfl⟩ := List.mem_map.1 he
      exact (List.mem_filter.1 (List.of_mem_zip hc).1).1

theorem Spec.Copies.nthChildSpec (asc : Bool) (i : Int) {x : Nat} (hx : Among h T x) :
    ERel (SRel h T f) (nthChildSpec h asc i x) (nthChildSpec h' asc i (f x)) := by
  unfold Visdom.nthChildSpec
  split
  · exact cp.specPass asc hx fun l _ => by rw [List.length_map]
  · exact .ok ⟨rfl, by simp⟩

omit cp in
theorem nthChildSpec_kid {asc : Bool} {i : Int} {x : Nat} {l : List (Nat × Bool × Bool)} (hl : nthChildSpec h asc i x = .ok l) :
    ∀ e ∈ l, e.1 ∈ h.kids x := by
  unfold nthChildSpec at hl
  split at hl
  · exact specPass_kid hl
  · injection hl with hl; subst hl; simp

theorem Spec.Copies.nthChildMatcher (asc : Bool) (n i : Option Int) : MRel h T f (nthChildMatcher h asc n i) (nthChildMatcher h' asc n i) := by
  refine ⟨.none, .some fun l c hl => ?_, ?_, rfl, rfl, ?_⟩
  · cases c with
    | none => exact cp.groupDo _ hl fun d d' hd => cp.handleNthChild asc hl hd
    | some b =>
      simp only
      rw [List.length_map]
      cases getAllowedIndexs n i l.length with
      | error e => exact .err e
      | ok al => exact cp.nthChildHandle asc hl al hl
  · cases n with
    | none => exact .some fun x hx => cp.nthChildSpec asc _ hx
    | some k => exact .none
  · intro s hs x l hx hl
    cases n with
    | none => injection hs with hs; subst hs; exact nthChildSpec_kid hl
    | some k => cases hs

theorem Spec.Copies.edgeChildMatcher (asc : Bool) : MRel h T f (edgeChildMatcher h asc) (edgeChildMatcher h' asc) := by
  refine ⟨.none, .some fun l c hl => ?_, .some fun x hx => cp.nthChildSpec asc _ hx, rfl, rfl, ?_⟩
  · exact cp.groupDo _ hl fun d d' hd => cp.handleNthChild asc hl hd
  · rintro s ⟨⟩ x l hx hl
    exact nthChildSpec_kid hl

theorem Spec.Copies.nameStep (al : List Nat) (ns : Names) {x : Nat} (hx : Among h T x) : nameStep h' al ns (f x) = nameStep h al ns x := by
  unfold Visdom.nameStep
  rw [cp.tagName hx]

theorem Spec.Copies.nameMarks (al : List Nat) (ns : Names) {l : List Nat} (hl : ∀ x ∈ l, Among h T x) : nameMarks h' al ns (l.map f) = nameMarks h al ns l := by
  induction l generalizing ns with
  | nil => rfl
  | cons a l ih =>
    rw [List.map_cons, Visdom.nameMarks, Visdom.nameMarks, cp.nameStep al ns (hl a List.mem_cons_self)]
    cases Visdom.nameStep h al ns a with
    | error e => rfl
    | ok r => simp only [ih r.2 fun x hx => hl x (List.mem_cons_of_mem _ hx)]

theorem Spec.Copies.dropWhile_map {p p' : Nat → Bool} {l : List Nat} (hl : ∀ x ∈ l, p' (f x) = p x) : (l.map f).dropWhile p' = (l.dropWhile p).map f := by
  induction l with
  | nil => rfl
  | cons a l ih =>
    rw [List.map_cons, List.dropWhile_cons, List.dropWhile_cons, hl a List.mem_cons_self, ih fun y hy => hl y (List.mem_cons_of_mem _ hy)]
    split <;> rfl

theorem Spec.Copies.collectAvail (is : List Nat) {l : List Nat} (hl : ∀ x ∈ l, Among h T x) :
    collectAvail h' is (l.map f) = (collectAvail h is l).map f ∧ ∀ y ∈ collectAvail h is l, y ∈ l := by
  induction is generalizing l with
  | nil => exact ⟨rfl, by simp [Visdom.collectAvail]⟩
  | cons a is ih =>
    rw [Visdom.collectAvail, Visdom.collectAvail, cp.dropWhile_map (p := fun x => decide (h.index x < a)) fun x hx => by rw [cp.index (hl x hx)]]
    have hsub := (List.dropWhile_sublist (fun x => decide (h.index x < a)) (l := l)).subset
    generalize l.dropWhile (fun x => decide (h.index x < a)) = D at hsub
    cases D with
    | nil => exact ⟨rfl, by simp⟩
    | cons s t =>
      have hsa := hl s (hsub List.mem_cons_self)
      have ht : ∀ x ∈ t, Among h T x := fun x hx => hl x (hsub (List.mem_cons_of_mem _ hx))
      simp only [List.map_cons]
      rw [cp.index hsa]
      split
      · refine ⟨by rw [(ih ht).1, List.map_cons], fun y hy => ?_⟩
        rcases List.mem_cons.1 hy with rfl | hy
        · exact hsub List.mem_cons_self
        · exact hsub (List.mem_cons_of_mem _ ((ih ht).2 y hy))
      · have hst : ∀ x ∈ s :: t, Among h T x := fun x hx => hl x (hsub hx)
        have := ih hst
        rw [List.map_cons] at this
        exact ⟨this.1, fun y hy => hsub (this.2 y hy)⟩

theorem Spec.Copies.handleNthOfType (asc : Bool) {l : List Nat} (hl : ∀ x ∈ l, Among h T x) {d d' : SibData} (hd : DataRel h T f d d') :
    ERel (LRel h T f) (handleNthOfType h asc l d) (handleNthOfType h' asc (l.map f) d') := by
  have h1 := slice_rel hd hl
  unfold Visdom.handleNthOfType
  rw [h1.1, hd.2.2.1, hd.2.2.2.1]
  have h2 := hd.2.2.2.2
  cases d.allow with
  | none => exact .err _
  | some al =>
    cases al with
    | nil => exact .ok .nil
    | cons a al =>
      cases hp : d.parent with
      | none => exact .err _
      | some p =>
        have hpa := h2 p hp
        simp only [Option.map_some]
        rw [cp.children hpa, ← List.map_reverse]
        have h3 : (if asc = true then (h.children p).map f else (h.children p).reverse.map f) = (if asc = true then h.children p else (h.children p).reverse).map f := by
          split <;> rfl
        have h4 : ∀ x ∈ (if asc = true then h.children p else (h.children p).reverse), Among h T x := by
          intro x hx
          split at hx
          · exact hpa.child hx
          · exact hpa.child (List.mem_reverse.1 hx)
        rw [h3]
        generalize (if asc = true then h.children p else (h.children p).reverse) = O at h4
        rw [cp.nameMarks _ [] h4]
        cases Visdom.nameMarks h (a :: al) [] O with
        | error e => exact .err e
        | ok bs =>
          have h5 : (((O.map f).zip bs).filter (·.2)).map (fun e => h'.index e.1) = ((O.zip bs).filter (·.2)).map fun e => h.index e.1 := by
            rw [List.zip_map_left, List.filter_map, List.map_map]
            refine List.map_congr_left fun e he => ?_
            exact cp.index (h4 _ (List.of_mem_zip (List.mem_filter.1 he).1).1)
          simp only
          rw [h5]
          have h6 := cp.collectAvail (if asc = true then ((O.zip bs).filter (·.2)).map fun e => h.index e.1 else (((O.zip bs).filter (·.2)).map fun e => h.index e.1).reverse) h1.2
          exact .ok ⟨h6.1, fun y hy => h1.2 y (h6.2 y hy)⟩

theorem Spec.Copies.nthOfTypeSpec (asc : Bool) (i : Int) {x : Nat} (hx : Among h T x) :
    ERel (SRel h T f) (nthOfTypeSpec h asc i x) (nthOfTypeSpec h' asc i (f x)) := by
  unfold Visdom.nthOfTypeSpec
  simp only
  rw [cp.children hx, cp.childLen hx, ← List.map_reverse, cp.nameMarks _ [] fun c hc => hx.child hc, cp.nameMarks _ [] fun c hc => hx.child (List.mem_reverse.1 hc)]
  split
  · split
    · cases Visdom.nameMarks h [(i - 1).toNat] [] (h.children x) with
      | error e => exact .err e
      | ok bs => exact cp.specPass true hx fun _ _ => rfl
    · split
      · exact .err _
      · cases Visdom.nameMarks h [(i - 1).toNat] [] (h.children x).reverse with
        | error e => exact .err e
        | ok bs => exact cp.specPass false hx fun _ _ => rfl
  · exact .ok ⟨rfl, by simp⟩

omit cp in
theorem nthOfTypeSpec_kid {asc : Bool} {i : Int} {x : Nat} {l : List (Nat × Bool × Bool)} (hl : nthOfTypeSpec h asc i x = .ok l) :
    ∀ e ∈ l, e.1 ∈ h.kids x := by
  unfold nthOfTypeSpec at hl
  split at hl
  · simp only at hl
    split at hl
    · split at hl
      · cases hl
      · exact specPass_kid hl
    · split at hl
      · cases hl
      · split at hl
        · cases hl
        · exact specPass_kid hl
  · injection hl with hl; subst hl; simp

theorem Spec.Copies.nthOfTypeMatcher (asc : Bool) (n i : Option Int) : MRel h T f (nthOfTypeMatcher h asc n i) (nthOfTypeMatcher h' asc n i) := by
  refine ⟨.none, .some fun l c hl => ?_, ?_, rfl, rfl, ?_⟩
  · cases c with
    | none => exact cp.groupDo _ hl fun d d' hd => cp.handleNthOfType asc hl hd
    | some b =>
      simp only
      rw [List.length_map]
      cases getAllowedIndexs n i l.length with
      | error e => exact .err e
      | ok al =>
        refine cp.handleNthOfType asc hl ⟨rfl, rfl, rfl, ?_, ?_⟩
        · cases l with
          | nil => rfl
          | cons x l => simp only [List.map_cons, List.head?_cons, Option.bind_some]; exact cp.parent (hl x List.mem_cons_self)
        · intro p hp
          cases l with
          | nil => cases hp
          | cons x l => exact (cp.up (hl x List.mem_cons_self) hp).1
  · cases n with
    | none => exact .some fun x hx => cp.nthOfTypeSpec asc _ hx
    | some k => exact .none
  · intro s hs x l hx hl
    cases n with
    | none => injection hs with hs; subst hs; exact nthOfTypeSpec_kid hl
    | some k => cases hs

theorem Spec.Copies.edgeOfTypeMatcher (asc : Bool) : MRel h T f (edgeOfTypeMatcher h asc) (edgeOfTypeMatcher h' asc) := by
  refine ⟨.none, .some fun l c hl => ?_, .some fun x hx => cp.nthOfTypeSpec asc _ hx, rfl, rfl, ?_⟩
  · exact cp.groupDo _ hl fun d d' hd => cp.handleNthOfType asc hl hd
  · rintro s ⟨⟩ x l hx hl
    exact nthOfTypeSpec_kid hl

theorem Spec.Copies.onlyChildLoop {l : List Nat} (hl : ∀ x ∈ l, Among h T x) {o : Option Nat} (ho : ∀ p, o = some p → Among h T p) :
    LRel h T f (onlyChildLoop h l o) (onlyChildLoop h' (l.map f) (o.map f)) := by
  induction l generalizing o with
  | nil => exact .nil
  | cons x l ih =>
    have ih := @ih fun y hy => hl y (List.mem_cons_of_mem _ hy)
    have hx := hl x List.mem_cons_self
    rw [List.map_cons, Visdom.onlyChildLoop, Visdom.onlyChildLoop, cp.parent hx]
    cases hp : h.parent x with
    | none => exact ih ho
    | some p =>
      have hpa := (cp.up hx hp).1
      have hsp : ∀ q, some p = some q → Among h T q := by rintro _ ⟨⟩; exact hpa
      simp only [Option.map_some]
      rw [cp.children hpa, List.length_map]
      by_cases he : o = some p
      · rw [if_pos he, if_pos (by rw [he]; rfl)]; exact ih ho
      · rw [if_neg he, if_neg fun h2 => he ((cp.some_eq ho hpa).1 h2)]
        have h1 := ih hsp
        rw [Option.map_some] at h1
        split
        · exact .cons hx h1
        · exact h1

theorem Spec.Copies.onlyChildMatcher : MRel h T f (onlyChildMatcher h) (onlyChildMatcher h') :=
  .ofAll fun l c hl => .ok (cp.onlyChildLoop hl (by simp))

theorem Spec.Copies.onlyNames {l : List Nat} (hl : ∀ x ∈ l, Among h T x) (i : Nat) (ns : Names) (rep : List (List Char)) :
    onlyNames h' (l.map f) i ns rep = onlyNames h l i ns rep := by
  induction l generalizing i ns rep with
  | nil => rfl
  | cons a l ih =>
    have ih := @ih fun y hy => hl y (List.mem_cons_of_mem _ hy)
    rw [List.map_cons, Visdom.onlyNames, Visdom.onlyNames, cp.tagName (hl a List.mem_cons_self)]
    simp only [ih]

theorem Spec.Copies.firstNamed (ns : Names) {l : List Nat} (hl : ∀ x ∈ l, Among h T x) : LRel h T f (firstNamed h ns l) (firstNamed h' ns (l.map f)) := by
  induction ns generalizing l with
  | nil => exact .nil
  | cons e ns ih =>
    rw [Visdom.firstNamed, Visdom.firstNamed, cp.dropWhile_map (p := fun x => decide (Visdom.tagName h x ≠ e.1)) fun x hx => by rw [cp.tagName (hl x hx)]]
    have hsub := (List.dropWhile_sublist (fun x => decide (Visdom.tagName h x ≠ e.1)) (l := l)).subset
    generalize l.dropWhile (fun x => decide (Visdom.tagName h x ≠ e.1)) = D at hsub
    cases D with
    | nil => exact ih hl
    | cons s t => exact .cons (hl s (hsub List.mem_cons_self)) (ih fun x hx => hl x (hsub (List.mem_cons_of_mem _ hx)))

theorem Spec.Copies.onlyOfTypeCb {l : List Nat} (hl : ∀ x ∈ l, Among h T x) {d d' : SibData} (hd : DataRel h T f d d') :
    ERel (LRel h T f) (onlyOfTypeCb h l d) (onlyOfTypeCb h' (l.map f) d') := by
  have h1 := slice_rel hd hl
  unfold Visdom.onlyOfTypeCb
  rw [h1.1, hd.2.2.2.1]
  cases hp : d.parent with
  | none => exact .err _
  | some p =>
    have hpa := hd.2.2.2.2 p hp
    simp only [Option.map_some]
    rw [cp.children hpa, cp.onlyNames fun c hc => hpa.child hc, List.length_map, List.length_map]
    split
    · exact atAll_rel h1.2 _
    · exact .ok (cp.firstNamed _ h1.2)

theorem Spec.Copies.onlyOfTypeMatcher : MRel h T f (onlyOfTypeMatcher h) (onlyOfTypeMatcher h') :=
  .ofAll fun l c hl => cp.groupDo _ hl fun d d' hd => cp.onlyOfTypeCb hl hd

theorem Spec.Copies.notMatcher {ps ps' : List Proc} (hp : ProcsRel h T f ps ps') : MRel h T f (notMatcher h ps) (notMatcher h' ps') :=
  .ofAll fun l c hl => cp.notSel hp ⟨rfl, hl⟩
theorem Spec.Copies.hasMatcher {ps ps' : List Proc} (hp : ProcsRel h T f ps ps') : MRel h T f (hasMatcher h ps) (hasMatcher h' ps') :=
  .ofAll fun l c hl => cp.hasSel hp ⟨rfl, hl⟩
theorem Spec.Copies.aliasMatcher {ps ps' : List Proc} (hp : ProcsRel h T f ps ps') : MRel h T f (aliasMatcher h ps) (aliasMatcher h' ps') :=
  .ofAll fun l c hl => cp.filterSel hp ⟨rfl, hl⟩

theorem Spec.Copies.containsMatcher (t : List Char) : MRel h T f (containsMatcher env.text t) (containsMatcher env'.text t) :=
  .ofOne fun x hx => by rw [cp.text x hx]

theorem Spec.Copies.hasAttr {x : Nat} (hx : Among h T x) (a : List Char) : hasAttr h' (f x) a = hasAttr h x a := by
  unfold Visdom.hasAttr; rw [(cp.data x hx).2.2]

theorem Spec.Copies.optionBefore {n n' x : Nat} (hx : Among h T x) (hn : toFront h x < n) (hn' : toFront h x < n') : optionBefore h' n' (f x) = optionBefore h n x := by
  induction n generalizing n' x with
  | zero => omega
  | succ n ih =>
    obtain ⟨k', rfl⟩ : ∃ k, n' = k + 1 := ⟨n' - 1, by omega⟩
    have h1 := cp.prevElem hx
    have h2 := fun y => cp.prev_less (y := y) hx
    rw [Visdom.optionBefore, Visdom.optionBefore]
    generalize h.prevElem x = A, h'.prevElem (f x) = A' at h1 h2
    cases h1 with
    | err p => rfl
    | @ok a b hab =>
      obtain ⟨rfl, h3⟩ := hab
      cases a with
      | none => rfl
      | some y =>
        have hy := h3 y rfl
        have hlt := h2 y rfl
        simp only [Option.map_some]
        rw [cp.tagNames hy, ih hy (by omega) (by omega)]

theorem Spec.Copies.selectedOption {n n' x : Nat} (d : DownOk h h' T n n' x) : selectedOption h' n' (f x) = selectedOption h n x := by
  induction n generalizing n' x with
  | zero => obtain ⟨_, _, h1, _⟩ := cp.down_pos d; cases h1
  | succ n ih =>
    obtain ⟨_, k', _, rfl⟩ := cp.down_pos d
    have hx := d.among
    rw [Visdom.selectedOption, Visdom.selectedOption, cp.tagNames hx, cp.hasAttr hx, cp.children hx, anyR_map f fun y hy => ih (d.child hy)]

theorem Spec.Copies.selectedAfter {n n' x : Nat} (hx : Among h T x) (hn : toEnd h x < n) (hn' : toEnd h x < n') : selectedAfter h' n' (f x) = selectedAfter h n x := by
  induction n generalizing n' x with
  | zero => omega
  | succ n ih =>
    obtain ⟨k', rfl⟩ : ∃ k, n' = k + 1 := ⟨n' - 1, by omega⟩
    obtain ⟨h1, h2⟩ := cp.nextElem hx
    rw [Visdom.selectedAfter, Visdom.selectedAfter, h1]
    cases hy : h.nextElem x with
    | none => rfl
    | some y =>
      have hya := h2 y hy
      have hlt := cp.next_less hx hy
      simp only [Option.map_some]
      rw [cp.selectedOption (cp.down hya), ih hya (by omega) (by omega)]

theorem Spec.Copies.defaultOption {x : Nat} (hx : Among h T x) : defaultOption h' (f x) = defaultOption h x := by
  unfold Visdom.defaultOption
  rw [cp.parent hx, cp.optionBefore hx (cp.toFront_fuel hx).1 (cp.toFront_fuel hx).2, cp.selectedAfter hx (cp.toEnd_fuel hx).1 (cp.toEnd_fuel hx).2]
  cases hp : h.parent x with
  | none => rfl
  | some p =>
    have hpa := (cp.up hx hp).1
    simp only [Option.map_some]
    rw [cp.tagNames hpa, cp.hasAttr hpa]

theorem Spec.Copies.checkedMatcher : MRel h T f (checkedMatcher h) (checkedMatcher h') := by
  refine .ofOne fun x hx => ?_
  unfold checkedOne
  rw [cp.tagNames hx, cp.hasAttr hx, cp.hasAttr hx, cp.defaultOption hx, (cp.data x hx).2.2]

end
end Visdom
