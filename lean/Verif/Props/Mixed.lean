import Verif.Props.Navigate
import Verif.Props.Isolation
/-!
# C71: sets whose elements are not all in one tree

Sets can hold elements of several documents, of fragments, and copies, which have no parent at all. A method treats the parts of a set
one by one if what it gives for two sets put together is what it gives for the first and then what it gives for the second.
-/
namespace Visdom
namespace Spec

/-- The parts of a set are treated one by one. -/
def Splits (f : List Nat → R (List Nat)) : Prop :=
  ∀ X Y x y, f X = .ok x → f Y = .ok y → f (X ++ Y) = .ok (x ++ y)

end Spec
open Spec
variable {h : Heap} {env : Env}

theorem flatMapR_splits {f : Nat → R (List Nat)} : Splits (flatMapR f) := by
  intro X Y x y hx hy
  induction X generalizing x with
  | nil => cases hx; exact hy
  | cons a X ih =>
    simp only [flatMapR] at hx
    rw [List.cons_append, flatMapR]
    cases ha : f a with
    | error e => rw [ha] at hx; cases hx
    | ok v =>
      cases hr : flatMapR f X with
      | error e => rw [ha, hr] at hx; cases hx
      | ok w =>
        rw [ha, hr] at hx
        cases hx
        simp only [ih w hr, List.append_assoc]

theorem filterR_splits {f : Nat → R Bool} : Splits (filterR f) := by
  intro X Y x y hx hy
  induction X generalizing x with
  | nil => cases hx; exact hy
  | cons a X ih =>
    simp only [filterR] at hx
    rw [List.cons_append, filterR]
    cases ha : f a with
    | error e => rw [ha] at hx; cases hx
    | ok v =>
      cases hr : filterR f X with
      | error e => rw [ha, hr] at hx; cases hx
      | ok w =>
        rw [ha, hr] at hx
        cases hx
        simp only [ih w hr]
        cases v <;> rfl

/-- A matcher that asks every element by itself, without regard to the others. -/
def Alone (m : Matcher) (g : Nat → R Bool) : Prop :=
  (m.one = some g ∧ m.all = none) ∨
    (m.one = none ∧ m.spec = none ∧ m.all = some (fun l _ => .ok l) ∧ g = fun _ => .ok true)

theorem filterR_true (l : List Nat) : filterR (fun _ => .ok true) l = .ok l := by
  induction l with
  | nil => rfl
  | cons a l ih => rw [filterR, ih]; rfl

theorem Alone.apply {m : Matcher} {g : Nat → R Bool} (a : Alone m g) (l : List Nat) (c : Option Bool) : m.apply l c = filterR g l := by
  rcases a with ⟨h1, h2⟩ | ⟨_, _, h3, rfl⟩
  · simp only [Matcher.apply, h1, h2]
  · simp only [Matcher.apply, h3, filterR_true]

theorem basic_alone {s : Sim} (hb : s.basic = true) : ∃ g, Alone (simMatcher h env s) g := by
  cases s <;> first
    | (cases hb; done)
    | (rw [simMatcher]; exact ⟨_, .inr ⟨rfl, rfl, rfl, rfl⟩⟩)
    | (rw [simMatcher]; exact ⟨_, .inl ⟨rfl, rfl⟩⟩)

theorem Alone.chain {m : Matcher} {g : Nat → R Bool} (a : Alone m g) (l : List Nat) : selectByRule h l m .chain = filterR g l :=
  a.apply l none

theorem Alone.children {m : Matcher} {g : Nat → R Bool} (a : Alone m g) (l : List Nat) :
    selectByRule h l m .children = flatMapR (fun x => filterR g (h.children x)) l := by
  rcases a with ⟨h1, _⟩ | ⟨h1, h2, h3, rfl⟩
  · simp only [selectByRule, h1]
  · simp only [selectByRule, h1, h2, h3, filterR_true]

theorem Alone.next {m : Matcher} {g : Nat → R Bool} (a : Alone m g) (l : List Nat) :
    selectByRule h l m .next = filterR g (l.filterMap h.nextElem) := by
  rcases a with ⟨h1, _⟩ | ⟨h1, h2, h3, rfl⟩
  · simp only [selectByRule, h1]
  · simp only [selectByRule, h1, Matcher.apply, h3, filterR_true]

theorem Alone.prev {m : Matcher} {g : Nat → R Bool} (a : Alone m g) (l : List Nat) :
    selectByRule h l m .prev = (flatMapR (fun x => (h.prevElem x).map Option.toList) l).bind (filterR g) := by
  simp only [selectByRule]
  cases flatMapR (fun x => (h.prevElem x).map Option.toList) l with
  | error e => rfl
  | ok v =>
    rcases a with ⟨h1, _⟩ | ⟨h1, h2, h3, rfl⟩
    · simp only [h1]; rfl
    · simp only [h1, Matcher.apply, h3, Except.bind, filterR_true]

theorem splits_bind {f k : List Nat → R (List Nat)} (hf : Splits f) (hk : Splits k) : Splits fun l => (f l).bind k := by
  intro X Y x y hx hy
  simp only [] at hx hy ⊢
  obtain ⟨a, ha⟩ : ∃ a, f X = .ok a := by
    cases hfX : f X with
    | error e => rw [hfX] at hx; cases hx
    | ok a => exact ⟨a, rfl⟩
  obtain ⟨b, hb⟩ : ∃ b, f Y = .ok b := by
    cases hfY : f Y with
    | error e => rw [hfY] at hy; cases hy
    | ok a => exact ⟨a, rfl⟩
  simp only [ha, hb, Except.bind] at hx hy
  simp only [hf X Y a b ha hb, Except.bind]
  exact hk a b x y hx hy

theorem rest_bind {s : Seg} {ss : List Seg} {g : Nat → R Bool} (a : Alone s.1 g) (hc : s.2 = .chain) (l : List Nat) :
    selectRest h l (s :: ss) = (filterR g l).bind fun l => selectRest h l ss := by
  rw [selectRest, hc, a.chain]
  cases l with
  | nil =>
    simp only [List.isEmpty_nil, if_true, filterR, Except.bind]
    cases ss <;> rfl
  | cons x l =>
    simp only [List.isEmpty_cons, Bool.false_eq_true, if_false]
    cases filterR g (x :: l) <;> rfl

theorem rest_splits {ss : List Seg} (hs : ∀ s ∈ ss, s.2 = .chain ∧ ∃ g, Alone s.1 g) : Splits fun l => selectRest h l ss := by
  induction ss with
  | nil => intro X Y x y hx hy; cases hx; cases hy; rfl
  | cons s ss ih =>
    obtain ⟨hc, g, a⟩ := hs s List.mem_cons_self
    have := splits_bind (filterR_splits (f := g)) (ih fun t ht => hs t (List.mem_cons_of_mem _ ht))
    intro X Y x y hx hy
    simp only [rest_bind a hc] at hx hy ⊢
    exact this X Y x y hx hy

/-- What a compound of basic rules is made of after the optimisation. -/
theorem basic_shape {ss : List Sim} (hne : ss ≠ []) (hb : ∀ t ∈ ss, t.basic = true) :
    ∃ m segs g, optimizeCmpd (simSegs h env .childrenAll ss) = (m, .childrenAll) :: segs ∧ Alone m g ∧ m.inCache = false ∧
      ∀ t ∈ segs, t.2 = .chain ∧ ∃ g, Alone t.1 g := by
  obtain ⟨s0, ss', hp, _, segs, h1, h2, h3⟩ := optimizeCmpd_shape (h := h) (env := env) (c := .childrenAll) (by simp) hne
  have hb' : ∀ t ∈ s0 :: ss', t.basic = true := fun t ht => hb t (hp.subset ht)
  obtain ⟨g, a⟩ := basic_alone (h := h) (env := env) (hb' s0 List.mem_cons_self)
  refine ⟨_, segs, g, h1, a, ?_, fun t ht => ⟨h3 t ht, ?_⟩⟩
  · have := hb' s0 List.mem_cons_self
    cases s0 <;> first
      | (cases this; done)
      | (rw [simMatcher]; rfl)
  · have : t.1 ∈ ss'.map (simMatcher h env) := h2 ▸ List.mem_map_of_mem ht
    obtain ⟨s, hs, he⟩ := List.mem_map.1 this
    rw [← he]
    exact basic_alone (hb' s (List.mem_cons_of_mem _ hs))

/-- One step with a compound of basic rules splits if the step with one matcher does. -/
theorem nav_splits {c : Comb} (hc : c ≠ .childrenAll) {ss : List Sim} (hne : ss ≠ []) (hb : ∀ t ∈ ss, t.basic = true)
    (hsp : ∀ m g, Alone m g → Splits fun X => selectByRule h X m c) :
    Splits fun X => selectWithComb h X (some (innerSel h env (cmpdSel ss))) c := by
  obtain ⟨m, segs, g, h1, a, hi, h3⟩ := basic_shape (h := h) (env := env) hne hb
  have key : ∀ X, selectWithComb h X (some (innerSel h env (cmpdSel ss))) c =
      if X.isEmpty then .ok [] else (selectByRule h X m c).bind fun l => selectRest h l segs := by
    intro X
    rw [inner_cmpd, h1]
    simp only [selectWithComb, List.map_cons, List.map_nil, headComb, headCmpds, findSelector_one]
    split
    · rfl
    · simp only [select, selectFirst, hi, Bool.false_and, Bool.false_eq_true, if_false, Option.getD_none]
      cases selectByRule h X m c <;> rfl
  have hsplit := splits_bind (hsp m g a) (rest_splits (h := h) h3)
  intro X Y x y hx hy
  simp only [key] at hx hy ⊢
  cases X with
  | nil => simp only [List.isEmpty_nil, if_true] at hx; cases hx; simpa using hy
  | cons a X =>
    cases Y with
    | nil => simp only [List.isEmpty_nil, if_true] at hy; cases hy; simpa using hx
    | cons b Y =>
      simp only [List.isEmpty_cons, List.cons_append, Bool.false_eq_true, if_false] at hx hy ⊢
      exact hsplit (a :: X) (b :: Y) x y hx hy

/-- The selector argument of a navigation method: none, or one compound of basic rules. -/
def Plain : Option (List Complex) → Prop
  | none => True
  | some sel => ∃ ss, sel = cmpdSel ss ∧ ss ≠ [] ∧ ∀ t ∈ ss, Sim.basic t = true

theorem plain_splits {c : Comb} (hc : c ≠ .childrenAll) {sel : Option (List Complex)} (hp : Plain sel)
    (hsp : ∀ m g, Alone m g → Splits fun X => selectByRule h X m c) :
    Splits fun X => selectWithComb h X (sel.map (innerSel h env)) c := by
  cases sel with
  | none =>
    have := nav_splits (h := h) (env := env) hc (ss := [.all]) (by simp) (by simp [Sim.basic]) hsp
    intro X Y x y hx hy
    simp only [Option.map_none, selectWithComb_none (env := env)] at hx hy ⊢
    exact this X Y x y hx hy
  | some sel =>
    obtain ⟨ss, rfl, hne, hb⟩ := hp
    exact nav_splits hc hne hb hsp

/-- C71: `children` treats the parts of a set one by one, whatever trees they are in. -/
theorem C71_children {sel : Option (List Complex)} (hp : Plain sel) : Splits fun X => childrenQ h env X sel :=
  plain_splits (by simp) hp fun m g a => by
    simp only [a.children]
    exact flatMapR_splits

/-- C71: `next`. -/
theorem C71_next {sel : Option (List Complex)} (hp : Plain sel) : Splits fun X => nextQ h env X sel :=
  plain_splits (by simp) hp fun m g a X Y x y hx hy => by
    simp only [a.next, List.filterMap_append] at hx hy ⊢
    exact filterR_splits _ _ x y hx hy

/-- C71: `prev`. -/
theorem C71_prev {sel : Option (List Complex)} (hp : Plain sel) : Splits fun X => prevQ h env X sel :=
  plain_splits (by simp) hp fun m g a => by
    simp only [a.prev]
    exact splits_bind flatMapR_splits filterR_splits

/-- C71: `has`, with every selector. -/
theorem C71_has (sel : List Complex) : Splits fun X => hasQ h env X sel := by
  have key : ∀ X, hasQ h env X sel = filterR (hasLoop h (innerSel h env sel) h.fuel) X := by
    intro X
    unfold hasQ hasSel
    cases X with
    | nil => rfl
    | cons a X => rfl
  intro X Y x y hx hy
  simp only [key] at hx hy ⊢
  exact filterR_splits X Y x y hx hy

/-- C71: `has_in`. -/
theorem C71_has_in (S : List Nat) : Splits fun X => hasIn h X S := filterR_splits

section
variable {ss : List Sim}

/-- One compound of basic rules asks every element by itself. -/
theorem filterProcs_alone (hne : ss ≠ []) (hb : ∀ t ∈ ss, t.basic = true) :
    ∃ (F : List Nat → R (List Nat)) (P : Nat → Bool), Splits F ∧ (∀ X x, F X = .ok x → x = X.filter P) ∧
      (∀ X, filterProcs h X (innerSel h env (cmpdSel ss)) none [] = F X) ∧
      ∀ X, isProcs h X (innerSel h env (cmpdSel ss)) none = (F X).map fun l => !l.isEmpty := by
  obtain ⟨m, segs, g, h1, a, hi, h3⟩ := basic_shape (h := h) (env := env) hne hb
  have hcons : ∀ (g : Nat → R Bool) (k : List Nat → R (List Nat)) (P : Nat → Bool), (∀ X x, k X = .ok x → x = X.filter P) →
      ∀ X x, (filterR g X).bind k = .ok x → x = X.filter fun x => decide (g x = .ok true) && P x := by
    intro g k P hk X x hx
    cases hf : filterR g X with
    | error e => rw [hf] at hx; cases hx
    | ok v =>
      rw [hf] at hx
      have hv := filterR_inv (P := fun x => decide (g x = .ok true)) hf (by
        intro x _ b hb
        rw [hb]
        cases b <;> simp)
      rw [hk v x hx, hv, List.filter_filter]
      congr 1; funext x; rw [Bool.and_comm]
  have hrest : ∀ (segs : List Seg), (∀ t ∈ segs, t.2 = .chain ∧ ∃ g, Alone t.1 g) →
      ∃ P : Nat → Bool, ∀ X x, selectRest h X segs = .ok x → x = X.filter P := by
    intro segs
    induction segs with
    | nil => intro _; exact ⟨fun _ => true, fun X x hx => by cases hx; simp⟩
    | cons s ss ih =>
      intro hs
      obtain ⟨hc, g, a⟩ := hs s List.mem_cons_self
      obtain ⟨P, hP⟩ := ih (fun t ht => hs t (List.mem_cons_of_mem _ ht))
      refine ⟨fun x => decide (g x = .ok true) && P x, fun X x hx => ?_⟩
      rw [rest_bind a hc] at hx
      exact hcons g _ P hP X x hx
  obtain ⟨P, hP⟩ := hrest segs h3
  have hproc : ∀ X, filterProc h X none { query := [(m, .childrenAll) :: segs] } =
      ((filterR g X).bind fun l => selectRest h l segs).map (·, none) := by
    intro X
    simp only [filterProc, List.getLast?_singleton, a.chain]
    cases filterR g X with
    | error e => rfl
    | ok v =>
      simp only [Except.bind]
      cases selectRest h v segs with
      | error e => rfl
      | ok w =>
        cases w with
        | nil => rfl
        | cons b w => simp [Except.map]
  refine ⟨fun X => (filterR g X).bind fun l => selectRest h l segs, _, splits_bind filterR_splits (rest_splits h3), hcons g _ P hP, fun X => ?_, fun X => ?_⟩
  · rw [inner_cmpd, h1]
    simp only [filterProcs, hproc]
    cases (filterR g X).bind fun l => selectRest h l segs with
    | error e => rfl
    | ok v =>
      cases v with
      | nil => rfl
      | cons b v => rfl
  · rw [inner_cmpd, h1]
    simp only [isProcs, hproc]
    cases (filterR g X).bind fun l => selectRest h l segs with
    | error e => rfl
    | ok v =>
      cases v with
      | nil => rfl
      | cons b v => rfl

variable (hne : ss ≠ []) (hb : ∀ t ∈ ss, t.basic = true)
include hne hb

/-- C71: `filter` with one compound of basic rules. Several compounds: `C71_fails_filter`. -/
theorem C71_filter_partial : Splits fun X => filterQ h env X (cmpdSel ss) := by
  obtain ⟨F, _, h1, _, h3, _⟩ := filterProcs_alone (h := h) (env := env) hne hb
  intro X Y x y hx hy
  simp only [filterQ, filterSel, h3] at hx hy ⊢
  cases X with
  | nil => cases hx; simpa using hy
  | cons a X =>
    cases Y with
    | nil => cases hy; simpa using hx
    | cons b Y => exact h1 _ _ x y hx hy

/-- C71: `not` with one compound of basic rules. -/
theorem C71_not_partial : Splits fun X => notQ h env X (cmpdSel ss) := by
  obtain ⟨F, P, h1, h2, h3, _⟩ := filterProcs_alone (h := h) (env := env) hne hb
  have key : ∀ X f, F X = .ok f → notQ h env X (cmpdSel ss) = .ok (X.filter fun x => !P x) := by
    intro X f hf
    unfold notQ notSel
    split
    · rename_i he
      rw [List.isEmpty_iff.1 he]; rfl
    · rw [h3, hf, h2 X f hf]
      simp only [Except.map]
      split
      · rename_i he
        congr 1
        rw [eq_comm, List.filter_eq_self]
        intro x hx
        have := List.filter_eq_nil_iff.1 (List.isEmpty_iff.1 he) x hx
        simpa using this
      · rw [notIn_filter]
  have back : ∀ X x, notQ h env X (cmpdSel ss) = .ok x → X = [] ∨ ∃ f, F X = .ok f := by
    intro X x hx
    unfold notQ notSel at hx
    cases X with
    | nil => exact .inl rfl
    | cons a X =>
      refine .inr ?_
      cases hF : F (a :: X) with
      | ok f => exact ⟨f, rfl⟩
      | error e =>
        rw [if_neg (by simp), h3, hF] at hx
        cases hx
  intro X Y x y hx hy
  simp only [] at hx hy ⊢
  rcases back X x hx with rfl | ⟨f, hf⟩
  · cases hx; simpa using hy
  rcases back Y y hy with rfl | ⟨k, hk⟩
  · cases hy; simpa using hx
  rw [key X f hf] at hx
  rw [key Y k hk] at hy
  cases hx
  cases hy
  rw [key _ _ (h1 X Y f k hf hk), List.filter_append]

/-- C71: `is` with one compound of basic rules. -/
theorem C71_is_partial {X Y : List Nat} {a b : Bool} (hx : isQ h env X (cmpdSel ss) = .ok a) (hy : isQ h env Y (cmpdSel ss) = .ok b) :
    isQ h env (X ++ Y) (cmpdSel ss) = .ok (a || b) := by
  obtain ⟨F, P, h1, h2, _, h4⟩ := filterProcs_alone (h := h) (env := env) hne hb
  unfold isQ isSel at hx hy ⊢
  cases X with
  | nil => cases hx; simpa using hy
  | cons u X =>
    cases Y with
    | nil => cases hy; simpa using hx
    | cons v Y =>
      simp only [List.isEmpty_cons, List.cons_append, Bool.false_eq_true, if_false, h4] at hx hy ⊢
      cases hF : F (u :: X) with
      | error e => rw [hF] at hx; cases hx
      | ok f =>
        cases hG : F (v :: Y) with
        | error e => rw [hG] at hy; cases hy
        | ok k =>
          rw [hF] at hx
          rw [hG] at hy
          have := h1 _ _ f k hF hG
          rw [List.cons_append] at this
          rw [this]
          simp only [Except.map, Except.ok.injEq] at hx hy ⊢
          subst hx hy
          cases f <;> cases k <;> rfl

/-- C71: `is_all` with one compound of basic rules, for sets that are not empty. -/
theorem C71_is_all_partial {X Y : List Nat} {a b : Bool} (hX : X ≠ []) (hY : Y ≠ []) (hx : isAllQ h env X (cmpdSel ss) = .ok a)
    (hy : isAllQ h env Y (cmpdSel ss) = .ok b) : isAllQ h env (X ++ Y) (cmpdSel ss) = .ok (a && b) := by
  obtain ⟨F, P, h1, h2, h3, _⟩ := filterProcs_alone (h := h) (env := env) hne hb
  unfold isAllQ isAllSel at hx hy ⊢
  rw [if_neg (by simpa using hX), h3] at hx
  rw [if_neg (by simpa using hY), h3] at hy
  rw [if_neg (by simp [hX]), h3]
  cases hF : F X with
  | error e => rw [hF] at hx; cases hx
  | ok f =>
    cases hG : F Y with
    | error e => rw [hG] at hy; cases hy
    | ok k =>
      rw [hF] at hx
      rw [hG] at hy
      rw [h1 _ _ f k hF hG]
      simp only [Except.map, Except.ok.injEq] at hx hy ⊢
      have hf := List.length_filter_le P X
      have hk := List.length_filter_le P Y
      rw [← h2 X f hF] at hf
      rw [← h2 Y k hG] at hk
      subst hx hy
      simp only [List.length_append]
      rw [← Bool.decide_and, decide_eq_decide]
      omega

end

/-! ## find -/

/-- No element of the second list has the place of an element of the first or of one below it. -/
def Spec.PlacesApart (h : Heap) (X Y : List Nat) : Prop :=
  ∀ a ∈ X, ∀ b ∈ Y, relationOf (h.treeIndexs b) (h.treeIndexs a) = .other

theorem uniqueParentsFrom_splits {X Y : List Nat} {y0 : Nat} (hY : ∀ a, a ∈ X → relationOf (h.treeIndexs y0) (h.treeIndexs a) = .other)
    {top : Nat} (htop : relationOf (h.treeIndexs y0) (h.treeIndexs top) = .other) {x y : List Nat}
    (hx : uniqueParentsFrom h top X = .ok x) (hy : uniqueParents h (y0 :: Y) = .ok y) :
    uniqueParentsFrom h top (X ++ y0 :: Y) = .ok (x ++ y) := by
  induction X generalizing top x with
  | nil =>
    cases hx
    rw [List.nil_append, uniqueParentsFrom, htop]
    exact hy
  | cons a X ih =>
    rw [uniqueParentsFrom] at hx
    rw [List.cons_append, uniqueParentsFrom]
    cases hr : relationOf (h.treeIndexs a) (h.treeIndexs top) with
    | other =>
      rw [hr] at hx
      simp only [] at hx ⊢
      cases hu : uniqueParentsFrom h a X with
      | error e => rw [hu] at hx; cases hx
      | ok v =>
        rw [hu] at hx
        cases hx
        rw [ih (fun b hb => hY b (List.mem_cons_of_mem _ hb)) (hY a List.mem_cons_self) hu]
        rfl
    | descendant =>
      rw [hr] at hx
      simp only [] at hx ⊢
      exact ih (fun b hb => hY b (List.mem_cons_of_mem _ hb)) htop hx
    | equal => rw [hr] at hx; cases hx
    | ancestor => rw [hr] at hx; cases hx

theorem overTops_eq (exec : Nat → R (List Nat)) (l : List Nat) : overTops h exec l = (uniqueParents h l).bind (flatMapR exec) := by
  unfold overTops
  split
  · cases uniqueParents h l <;> rfl
  · rename_i hl
    match l, hl with
    | [], _ => rfl
    | [a], _ => rfl
    | a :: b :: l, hl => simp at hl

/-- C71: `find` with one compound of basic rules treats two sets one by one, whatever trees they are in, if no element of the second has the
place of an element of the first or of one below it. Otherwise it panics or loses elements (`C71_fails_find`, `C71_fails_clone`). -/
theorem C71_find_partial {ss : List Sim} (hne : ss ≠ []) (hb : ∀ t ∈ ss, t.basic = true) {X Y x y : List Nat} (hp : PlacesApart h X Y)
    (hx : find h env X (cmpdSel ss) = .ok x) (hy : find h env Y (cmpdSel ss) = .ok y) :
    find h env (X ++ Y) (cmpdSel ss) = .ok (x ++ y) := by
  obtain ⟨m, segs, g, h1, a, hi, h3⟩ := basic_shape (h := h) (env := env) hne hb
  have hsel : ∃ exec, ∀ l, selectByRule h l m .childrenAll = overTops h exec l := by
    rcases a with ⟨h1, _⟩ | ⟨h1, h2, h3, _⟩
    · exact ⟨dfsOne h g h.fuel, fun l => by simp only [selectByRule, h1]⟩
    · exact ⟨dfsAll h (fun l _ => .ok l) h.fuel, fun l => by simp only [selectByRule, h1, h2, h3]⟩
  obtain ⟨exec, hexec⟩ := hsel
  have key : ∀ X, find h env X (cmpdSel ss) =
      if X.isEmpty then .ok [] else ((uniqueParents h X).bind (flatMapR exec)).bind fun l => selectRest h l segs := by
    intro X
    unfold find
    rw [findSel_cmpd hne, findSelector_one, h1]
    split
    · rfl
    · simp only [select, selectFirst, hi, Bool.false_and, Bool.false_eq_true, if_false, Option.getD_none, hexec, overTops_eq]
      cases (uniqueParents h X).bind (flatMapR exec) <;> rfl
  rw [key] at hx hy ⊢
  cases X with
  | nil => cases hx; simpa using hy
  | cons u X =>
    cases Y with
    | nil => cases hy; simpa using hx
    | cons v Y =>
      simp only [List.isEmpty_cons, List.cons_append, Bool.false_eq_true, if_false] at hx hy ⊢
      cases hU : uniqueParents h (u :: X) with
      | error e => rw [hU] at hx; cases hx
      | ok p =>
        cases hV : uniqueParents h (v :: Y) with
        | error e => rw [hV] at hy; cases hy
        | ok q =>
          have hW : uniqueParents h (u :: (X ++ v :: Y)) = .ok (p ++ q) := by
            rw [uniqueParents] at hU ⊢
            cases hu : uniqueParentsFrom h u X with
            | error e => rw [hu] at hU; cases hU
            | ok p' =>
              rw [hu] at hU
              cases hU
              rw [uniqueParentsFrom_splits (fun a ha => hp a (List.mem_cons_of_mem _ ha) v List.mem_cons_self)
                (hp u List.mem_cons_self v List.mem_cons_self) hu hV]
              rfl
          rw [hU] at hx
          rw [hV] at hy
          rw [hW]
          exact splits_bind (flatMapR_splits (f := exec)) (rest_splits (h := h) h3) p q x y hx hy

/-! ## What does not work -/

/-- **C71 fails** for every set of two elements without parents that have the same index, such as the copies of two first children:
`find` with one compound of basic rules panics. -/
theorem C71_fails_clone {ss : List Sim} (hne : ss ≠ []) (hb : ∀ t ∈ ss, t.basic = true) {a b : Nat} (ha : h.parent a = none)
    (hb' : h.parent b = none) (hi : h.index a = h.index b) (rest : List Nat) :
    find h env (a :: b :: rest) (cmpdSel ss) = .error .unreachableCode := by
  obtain ⟨m, segs, g, h1, al, hi', h3⟩ := basic_shape (h := h) (env := env) hne hb
  have hsel : ∃ exec, ∀ l, selectByRule h l m .childrenAll = overTops h exec l := by
    rcases al with ⟨h1, _⟩ | ⟨h1, h2, h3, _⟩
    · exact ⟨dfsOne h g h.fuel, fun l => by simp only [selectByRule, h1]⟩
    · exact ⟨dfsAll h (fun l _ => .ok l) h.fuel, fun l => by simp only [selectByRule, h1, h2, h3]⟩
  obtain ⟨exec, hexec⟩ := hsel
  have hpath : ∀ x, h.parent x = none → h.treeIndexs x = [h.index x] := by
    intro x hx
    simp only [Heap.treeIndexs, Heap.pathFuel, hx]
  unfold find
  rw [findSel_cmpd hne, findSelector_one, h1, if_neg (by simp)]
  simp only [select, selectFirst, hi', Bool.false_and, Bool.false_eq_true, if_false, Option.getD_none, hexec, overTops_eq, uniqueParents,
    uniqueParentsFrom, hpath a ha, hpath b hb', hi]
  simp [relationOf, equalNum, Except.map, Except.bind]

/-- Two documents, `<div><p></p><p><b></b></p></div>` (root 0) and `<div><p></p><p><i></i></p></div>` (root 6). -/
def docs2 : Heap := heapOf
  [ rootN [1], el "div" 0 0 [2, 3], el "p" 1 0, el "p" 1 1 [4], el "b" 3 0, {},
    { rootN [7] with root := some 6 }, { el "div" 6 0 [8, 9] with root := some 6 }, { el "p" 7 0 with root := some 6 },
    { el "p" 7 1 [10] with root := some 6 }, { el "i" 9 0 with root := some 6 } ]

theorem docs2_ok : HeapOk docs2 noneUsed := okCheck_sound (by decide)

/-- **C71 fails**: `add` loses an element of another document at the same place. -/
theorem C71_fails_add : addElems docs2 [2] [8] = .ok [2] ∧ addElems docs2 [2] [9] = .ok [2, 9] := by decide

/-- **C71 fails**: `find("*")` on the paragraph of one document and the division of the other panics, and on the division of one and a
paragraph of the other `find("i")` loses what is below the second. -/
theorem C71_fails_find : find docs2 env0 [3, 7] [[(.childrenAll, [.all])]] = .error .unreachableCode ∧
    find docs2 env0 [1, 9] [[(.childrenAll, [ty "i"])]] = .ok [] ∧ find docs2 env0 [9] [[(.childrenAll, [ty "i"])]] = .ok [10] := by decide

/-- **C71 fails**: `filter("div p")` keeps the paragraph of the first document and not that of the second, `not` the other way round. -/
theorem C71_fails_filter : filterQ docs2 env0 [2, 9] [[(.childrenAll, [ty "div"]), (.childrenAll, [ty "p"])]] = .ok [2] ∧
    filterQ docs2 env0 [9] [[(.childrenAll, [ty "div"]), (.childrenAll, [ty "p"])]] = .ok [9] ∧
    notQ docs2 env0 [2, 9] [[(.childrenAll, [ty "div"]), (.childrenAll, [ty "p"])]] = .ok [9] := by decide

/-- **C71 fails**: `parent`, `next_all`, `prev_all` and `siblings` take parents at the same place for the same parent. -/
theorem C71_fails_siblings : parentQ docs2 env0 [2, 9] none = .ok [1] ∧ nextAllQ docs2 env0 [3, 8] none = .ok [] ∧
    nextAllQ docs2 env0 [8] none = .ok [9] ∧ prevAllQ docs2 env0 [9, 2] none = .ok [] ∧ prevAllQ docs2 env0 [9] none = .ok [8] ∧
    siblingsQ docs2 env0 [2, 9] none = .ok [2, 3] := by decide

/-- The cases of the theorems above: a set with a paragraph of each document. -/
example : childrenQ docs2 env0 [3, 9] none = .ok [4, 10] ∧ nextQ docs2 env0 [2, 8] (some (cmpdSel [ty "p"])) = .ok [3, 9] ∧
    hasQ docs2 env0 [2, 3, 8, 9] [[(.childrenAll, [ty "div"]), (.childrenAll, [ty "i"])]] = .ok [9] ∧
    filterQ docs2 env0 [1, 2, 9] (cmpdSel [ty "p"]) = .ok [2, 9] := by decide

/-- The case of `C71_find_partial`: the second paragraph of one document and the first of the other. -/
example : PlacesApart docs2 [2] [9] ∧ find docs2 env0 ([2] ++ [9]) (cmpdSel [.all]) = .ok [10] := by
  refine ⟨?_, by decide⟩
  intro a ha b hb
  rw [List.mem_singleton.1 ha, List.mem_singleton.1 hb]
  decide

end Visdom
