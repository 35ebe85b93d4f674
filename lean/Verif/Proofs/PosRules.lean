import Verif.Proofs.Pos
/-!
# `:nth-*`, `:first-*`, `:last-*`, `:only-*` decide their meaning
-/
namespace Visdom
open Spec
variable {h : Heap} {r : Nat} {Q : List Nat → Prop} {c : Comb} {last ofType : Bool} {P : Nat → Bool}

/-- The lists a list handle is called on for the combinator are ordered. -/
def ListsOk (h : Heap) (Q : List Nat → Prop) (c : Comb) : Prop :=
  c = .children ∨ c = .childrenAll ∨ ∀ l, Q l → RunAsc h l

theorem ListsOk.runAsc (hQ : ListsOk h Q c) (h1 : c ≠ .childrenAll) (h2 : c ≠ .children) {l : List Nat} (hl : Q l) :
    RunAsc h l := by
  rcases hQ with h' | h' | h'
  · exact absurd h' h2
  · exact absurd h' h1
  · exact h' l hl

/-- `nthChildMatcher` or `nthOfTypeMatcher`. -/
def nthMatcher (h : Heap) (ofType asc : Bool) (n index : Option Int) : Matcher :=
  if ofType then nthOfTypeMatcher h asc n index else nthChildMatcher h asc n index

/-- `edgeChildMatcher` or `edgeOfTypeMatcher`. -/
def edgeMatcher (h : Heap) (ofType asc : Bool) : Matcher :=
  if ofType then edgeOfTypeMatcher h asc else edgeChildMatcher h asc

theorem nthMatcher_one {asc : Bool} {n index : Option Int} : (nthMatcher h ofType asc n index).one = none := by
  cases ofType <;> rfl
theorem nthMatcher_spec_n {asc : Bool} {n : Int} {index : Option Int} : (nthMatcher h ofType asc (some n) index).spec = none := by
  cases ofType <;> rfl
theorem nthMatcher_spec {asc : Bool} {index : Int} :
    (nthMatcher h ofType asc none (some index)).spec = some (posSpec h ofType asc index) := by
  cases ofType <;> rfl
theorem nthMatcher_cache {asc : Bool} {n index : Option Int} : (nthMatcher h ofType asc n index).inCache = false := by
  cases ofType <;> rfl
theorem nthMatcher_all {asc : Bool} {n index : Option Int} {f : List Nat → Option Bool → R (List Nat)}
    (hf : (nthMatcher h ofType asc n index).all = some f) (l : List Nat) :
    f l none = groupDo h (fun t => (getAllowedIndexs n index t).map some) (posCb h ofType asc l) l := by
  cases ofType
  · obtain rfl := Option.some.inj hf; rfl
  · obtain rfl := Option.some.inj hf; rfl
theorem nthMatcher_has {asc : Bool} {n index : Option Int} : (nthMatcher h ofType asc n index).all.isSome = true := by
  cases ofType <;> rfl

theorem slice_all (l : List Nat) (a : Option (List Nat)) (p : Option Nat) :
    slice l { start := 0, stop := l.length, allow := a, parent := p } = l := by simp [slice]

theorem nthMatcher_child (wf : TreeWF h r) {asc : Bool} {n index : Int} {f : List Nat → Option Bool → R (List Nat)}
    (hf : (nthMatcher h ofType asc (some n) (some index)).all = some f) {x : Nat} (hx : Within h r x)
    (hne : h.children x ≠ []) :
    f (h.children x) (some false) = (let allow := allowedWithN n index (h.children x).length
      if ofType = true ∧ allow = [] then .ok [] else posHandle h ofType asc (h.children x) allow (h.children x)) := by
  have hhead : (h.children x).head?.bind h.parent = some x := by
    cases hc : h.children x with
    | nil => exact absurd hc hne
    | cons y l =>
      have : y ∈ h.children x := by rw [hc]; simp
      exact parent_of_child wf hx (mem_children.1 this).1
  cases ofType
  · obtain rfl := Option.some.inj hf
    simp only [getAllowedIndexs, Option.getD_some, Bool.false_eq_true, false_and, if_false, posHandle]
  · obtain rfl := Option.some.inj hf
    simp only [getAllowedIndexs, Option.getD_some, true_and]
    have := posCb_eq (h := h) (ofType := true) (asc := asc) (l := h.children x)
      (d := { start := 0, stop := (h.children x).length, allow := some (allowedWithN n index (h.children x).length),
              parent := (h.children x).head?.bind h.parent }) (p := x) hhead rfl
    unfold posCb at this
    simp only [if_true] at this
    rw [this, slice_all]

theorem nthMatcher_child_empty {asc : Bool} {n index : Option Int} {f : List Nat → Option Bool → R (List Nat)}
    (hf : (nthMatcher h ofType asc n index).all = some f) {res : List Nat} (hr : f [] (some false) = .ok res) :
    res = [] := by
  cases ofType
  · obtain rfl := Option.some.inj hf
    simp only at hr
    split at hr
    · cases hr
    · rename_i allow _
      simp only [nthChildHandle, List.length_nil, if_true] at hr
      split at hr
      · cases allow with
        | nil => exact (Except.ok.inj hr).symm
        | cons a as =>
          obtain ⟨_, _, hc, _⟩ := atAll_cons hr
          cases hc
      · generalize allow.reverse = l at hr
        cases l with
        | nil => exact (Except.ok.inj hr).symm
        | cons a as => simp [flatMapR] at hr
  · obtain rfl := Option.some.inj hf
    simp only [List.length_nil, List.head?_nil, Option.bind_none, handleNthOfType] at hr
    split at hr
    · cases hr
    · split at hr
      · cases hr
      · exact (Except.ok.inj hr).symm
      · cases hr

/-- Every parent with element children has a number of them for which `an+b` is computed well enough: correctly, or for
the positions among elements of one name with one further number that is not below it. -/
def NthFine (h : Heap) (r : Nat) (ofType : Bool) (a b : Int) : Prop :=
  (ofType = true ∧ -9223372036854775808 ≤ b ∧ b < 9223372036854775808 ∧
    ∀ p, Within h r p → h.children p ≠ [] → ((h.children p).length : Int) < 9223372036854775808) ∨
  ∀ p, Within h r p → h.children p ≠ [] →
    ¬ BadNth a b (h.children p).length ∧ ((h.children p).length : Int) < 9223372036854775808

theorem nth_fit {a b : Int} {total : Nat} (ht : (total : Int) < 9223372036854775808)
    (hb1 : -9223372036854775808 ≤ b) (hb2 : b < 9223372036854775808) :
    PosFit true (NthSelects a b) total (allowedWithN a b total) := by
  obtain ⟨G, hG, hA | ⟨j, hj, ⟨h0, hA⟩ | hA⟩⟩ := C01_nth_shape a b total ht hb1 hb2
  · rw [hA]; exact PosList.fit hG true
  · rw [hA]
    refine ⟨fun i hi => ?_, ?_, by simp, by simp⟩
    · rw [List.mem_cons, hG.2]
      constructor
      · rintro (rfl | h1)
        · omega
        · exact h1.2
      · exact fun h1 => Or.inr ⟨hi, h1⟩
    · rintro a as he
      rw [List.cons.injEq] at he
      rw [← he.2]; exact h0
  · rw [hA]
    refine ⟨fun i hi => ?_, ?_, by simp, by simp⟩
    · rw [List.mem_append, hG.2, List.mem_singleton]
      constructor
      · rintro (h1 | rfl)
        · exact h1.2
        · omega
      · exact fun h1 => Or.inl ⟨hi, h1⟩
    · rintro a as he
      cases G with
      | nil => simp only [List.nil_append, List.cons.injEq] at he; rw [← he.2]; simp
      | cons g G =>
        simp only [List.cons_append, List.cons.injEq] at he
        rw [← he.2, List.mem_append, List.mem_singleton]
        have := zeroFirst_of_sorted hG.1 g G rfl
        have hg := ((hG.2 g).1 (by simp)).1
        rintro (h1 | h1)
        · exact this h1
        · omega

theorem NthFine.fit {ofType : Bool} {a b : Int} (hf : NthFine h r ofType a b) {p : Nat} (hp : Within h r p)
    (hne : h.children p ≠ []) :
    PosFit ofType (NthSelects a b) (h.children p).length (allowedWithN a b (h.children p).length) := by
  rcases hf with ⟨rfl, hb1, hb2, hf⟩ | hf
  · exact nth_fit (hf p hp hne) hb1 hb2
  · obtain ⟨h1, h2⟩ := hf p hp hne
    exact PosList.fit (nth_good a b _ h2 h1) _

theorem nth_decides (wf : TreeWF h r) {a b : Int} (hfine : NthFine h r ofType a b) (hQ : ListsOk h Q c)
    (hP : IsPos h r last ofType (NthSelects a b) P) :
    Decides h r Q (nthMatcher h ofType (!last) (some a) (some b)) c P where
  one := by intro g hg; rw [nthMatcher_one] at hg; cases hg
  all := by
    intro h1 h2 f hf l res hl hq hr
    rw [nthMatcher_all hf] at hr
    refine groupPos_filter wf hP ?_ hl (hQ.runAsc h1 h2 hq) hr
    intro p al hp hne ha
    simp only [getAllowedIndexs, Option.getD_some, Except.map, Except.ok.injEq] at ha
    exact ⟨_, ha.symm, hfine.fit hp hne⟩
  child := by
    intro _ _ _ f hf x res hx hr
    by_cases hne : h.children x = []
    · rw [hne] at hr ⊢
      rw [nthMatcher_child_empty hf hr]; rfl
    · rw [nthMatcher_child wf hf hx hne] at hr
      simp only at hr
      split at hr
      · rename_i he
        rw [← Except.ok.inj hr, eq_comm, List.filter_eq_nil_iff]
        intro y hy hPy
        have := (hP.iff_allow wf hx hy (hfine.fit hx hne)).1 hPy
        rw [he.2] at this; cases this
      · exact posHandle_filter wf hP hx (hfine.fit hx hne) (List.Sublist.refl _) hr
  spec := by intro _ s hs; rw [nthMatcher_spec_n] at hs; cases hs
  cache := by intro _ hc; rw [nthMatcher_cache] at hc; cases hc

theorem flatMapR_fails {α β : Type} {f : α → R (List β)} {l : List α} {e : Panic} (hf : ∀ x ∈ l, f x = .error e ∨ ∃ y, f x = .ok y) :
    flatMapR f l = .error e ↔ ∃ x ∈ l, f x = .error e := by
  induction l with
  | nil => simp [flatMapR]
  | cons a l ih =>
    have ih := ih fun x hx => hf x (List.mem_cons_of_mem _ hx)
    have htot : flatMapR f l = .error e ∨ ∃ y, flatMapR f l = .ok y := by
      by_cases hx : ∃ x ∈ l, f x = .error e
      · exact Or.inl (ih.2 hx)
      · exact Or.inr (flatMapR_total fun x hm => (hf x (List.mem_cons_of_mem _ hm)).resolve_left fun he => hx ⟨x, hm, he⟩)
    simp only [flatMapR, List.mem_cons, exists_eq_or_imp]
    rcases hf a List.mem_cons_self with ha | ⟨y, ha⟩
    · simp [ha]
    · rw [← ih]
      rcases htot with hl | ⟨z, hl⟩ <;> simp [ha, hl]

/-- The panic of `:nth-child(an+b)` and its relatives on the children of one node. -/
def nthPanic (ofType last : Bool) : Panic := if ofType then .unwrapNone else if last then .overflow else .outOfBounds

theorem nthChildHandle_bad {asc : Bool} {allow C : List Nat} (hb : ∃ j ∈ allow, C.length ≤ j) :
    nthChildHandle asc C allow C = .error (nthPanic false (!asc)) := by
  obtain ⟨j, hj, hle⟩ := hb
  cases asc with
  | true =>
    simp only [nthChildHandle, if_true, atAll]
    refine (flatMapR_fails fun i _ => ?_).2 ⟨j, hj, by rw [List.getElem?_eq_none hle]; rfl⟩
    cases C[i]? with
    | none => exact Or.inl rfl
    | some y => exact Or.inr ⟨_, rfl⟩
  | false =>
    simp only [nthChildHandle, if_true, Bool.false_eq_true, if_false]
    refine (flatMapR_fails fun i _ => ?_).2 ⟨j, List.mem_reverse.2 hj, by rw [if_pos (by omega)]; rfl⟩
    split
    · exact Or.inl rfl
    · next hi =>
      right
      rw [List.getElem?_eq_getElem (by omega)]
      exact ⟨_, rfl⟩

/-- `:nth-child(an+b)` on the children of one node, exactly. -/
theorem nth_child_exact (wf : TreeWF h r) {a b : Int} (hb1 : -9223372036854775808 ≤ b) (hb2 : b < 9223372036854775808)
    {f : List Nat → Option Bool → R (List Nat)} (hf : (nthMatcher h ofType (!last) (some a) (some b)).all = some f) {x : Nat}
    (hx : Within h r x) (hs : ((h.children x).length : Int) < 9223372036854775808) :
    ((BadNth a b (h.children x).length ∧ (ofType = true → h.children x = [])) → f (h.children x) (some false) = .error (nthPanic ofType last)) ∧
    (¬ (BadNth a b (h.children x).length ∧ (ofType = true → h.children x = [])) → ∃ res, f (h.children x) (some false) = .ok res) := by
  have hnil : ¬ BadNth a b (h.children x).length → h.children x = [] → allowedWithN a b 0 = [] := by
    intro hb he
    rw [he] at hb
    have hl := nth_good a b 0 (by omega) hb
    rw [List.eq_nil_iff_forall_not_mem]
    intro j hj
    have := ((hl.2 j).1 hj).1
    omega
  cases ofType with
  | false =>
    obtain rfl := Option.some.inj hf
    simp only [getAllowedIndexs, Option.getD_some, reduceCtorEq, false_implies, and_true]
    constructor
    · intro hb
      have := nthChildHandle_bad (asc := !last) (nth_bad a b _ hs hb1 hb2 hb)
      rwa [Bool.not_not] at this
    · intro hb
      exact nthChildHandle_total fun j hj => (((nth_good a b _ hs hb).2 j).1 hj).1
  | true =>
    simp only [forall_true_left]
    constructor
    · rintro ⟨hb, he⟩
      obtain rfl := Option.some.inj hf
      rw [he] at hb ⊢
      obtain ⟨j, hj, _⟩ := nth_bad a b 0 (by omega) hb1 hb2 hb
      simp only [getAllowedIndexs, Option.getD_some, List.length_nil, List.head?_nil, Option.bind_none, handleNthOfType]
      cases hal : allowedWithN a b 0 with
      | nil => rw [hal] at hj; cases hj
      | cons a0 al => rfl
    · intro hn
      by_cases hne : h.children x = []
      · have hz := hnil (fun hb => hn ⟨hb, hne⟩) hne
        obtain rfl := Option.some.inj hf
        rw [hne]
        simp only [getAllowedIndexs, Option.getD_some, List.length_nil, hz, handleNthOfType]
        exact ⟨_, rfl⟩
      · rw [nthMatcher_child wf hf hx hne]
        simp only
        split
        · exact ⟨_, rfl⟩
        · rename_i hn'
          exact posHandle_total (fun he => by cases he) (fun he => hn' ⟨trivial, he⟩)

/-- Children and descendants: where the rule answers it is right, for every formula. -/
theorem nth_decides_step (wf : TreeWF h r) {a b : Int} (hw : -9223372036854775808 ≤ b ∧ b < 9223372036854775808 ∧
      ∀ p, Within h r p → ((h.children p).length : Int) < 9223372036854775808) (hc : c = .children ∨ c = .childrenAll)
    (hP : IsPos h r last ofType (NthSelects a b) P) :
    Decides h r Q (nthMatcher h ofType (!last) (some a) (some b)) c P where
  one := by intro g hg; rw [nthMatcher_one] at hg; cases hg
  all := by
    intro h1 h2
    rcases hc with rfl | rfl
    · exact absurd rfl h2
    · exact absurd rfl h1
  child := by
    intro _ _ _ f hf x res hx hr
    by_cases hne : h.children x = []
    · rw [hne] at hr ⊢
      rw [nthMatcher_child_empty hf hr]; rfl
    · have hfit : PosFit ofType (NthSelects a b) (h.children x).length (allowedWithN a b (h.children x).length) := by
        cases ofType with
        | true => exact nth_fit (hw.2.2 x hx) hw.1 hw.2.1
        | false =>
          have hb : ¬ BadNth a b (h.children x).length := by
            intro hb
            rw [(nth_child_exact wf hw.1 hw.2.1 hf hx (hw.2.2 x hx)).1 ⟨hb, by simp⟩] at hr
            cases hr
          exact PosList.fit (nth_good a b _ (hw.2.2 x hx) hb) _
      rw [nthMatcher_child wf hf hx hne] at hr
      simp only at hr
      split at hr
      · rename_i he
        rw [← Except.ok.inj hr, eq_comm, List.filter_eq_nil_iff]
        intro y hy hPy
        have := (hP.iff_allow wf hx hy hfit).1 hPy
        rw [he.2] at this; cases this
      · exact posHandle_filter wf hP hx hfit (List.Sublist.refl _) hr
  spec := by intro _ s hs; rw [nthMatcher_spec_n] at hs; cases hs
  cache := by intro _ hc; rw [nthMatcher_cache] at hc; cases hc

theorem nth_answers (wf : TreeWF h r) {a b : Int} (hfine : NthFine h r ofType a b) (hQ : ListsOk h Q c)
    (hz : c = .children → ¬ BadNth a b 0) : Answers h r Q (nthMatcher h ofType (!last) (some a) (some b)) c where
  handle := Or.inr nthMatcher_has
  one := by intro g hg; rw [nthMatcher_one] at hg; cases hg
  all := by
    intro h1 h2 f hf l hl hq
    rw [nthMatcher_all hf]
    refine groupPos_total wf (fun n => ⟨_, rfl⟩) ?_ hl (hQ.runAsc h1 h2 hq)
    intro p al hp hne ha
    simp only [getAllowedIndexs, Option.getD_some, Except.map, Except.ok.injEq] at ha
    exact ⟨_, ha.symm, (hfine.fit hp hne).lt⟩
  child := by
    intro hc _ _ f hf x hx hxne
    by_cases hne : h.children x = []
    · have hcc : c = .children := by
        rcases hc with ⟨h1, _⟩ | h1
        · exact absurd hne (hxne h1)
        · exact h1
      have hl := nth_good a b 0 (by omega) (hz hcc)
      have hnil : allowedWithN a b 0 = [] := by
        rw [List.eq_nil_iff_forall_not_mem]
        intro j hj
        have := ((hl.2 j).1 hj).1
        omega
      rw [hne]
      refine ⟨[], ?_⟩
      cases ofType
      · obtain rfl := Option.some.inj hf
        simp only [getAllowedIndexs, Option.getD_some, List.length_nil, hnil, nthChildHandle, if_true]
        cases last <;> rfl
      · obtain rfl := Option.some.inj hf
        simp only [getAllowedIndexs, Option.getD_some, List.length_nil, hnil, handleNthOfType]
    · rw [nthMatcher_child wf hf hx hne]
      simp only
      split
      · exact ⟨_, rfl⟩
      · rename_i hn
        have hb := (hfine.fit hx hne).lt
        cases ofType with
        | false => exact nthChildHandle_total (hb rfl)
        | true => exact posHandle_total hb (fun he => hn ⟨rfl, he⟩)
  spec := by intro _ _ s hs; rw [nthMatcher_spec_n] at hs; cases hs
  cache := by intro _ hc; rw [nthMatcher_cache] at hc; cases hc

theorem idx_posList (b : Int) (total : Nat) : ∃ l, getAllowedIndexs none (some b) total = .ok l ∧
    PosList (fun j => (j : Int) = b) total l := by
  obtain ⟨l, h1, h2, h3⟩ := C01_index_only b total
  refine ⟨l, h1, h2, fun j => ?_⟩
  rw [h3]
  refine and_congr_right fun _ => ?_
  unfold NthSelects
  constructor
  · rintro ⟨k, hk⟩; push_cast at hk ⊢; omega
  · intro hj; exact ⟨0, by push_cast at hj ⊢; omega⟩

theorem nthIdx_decides (wf : TreeWF h r) {b : Int} (hQ : ListsOk h Q c)
    (hP : IsPos h r last ofType (fun j => (j : Int) = b) P) :
    Decides h r Q (nthMatcher h ofType (!last) none (some b)) c P where
  one := by intro g hg; rw [nthMatcher_one] at hg; cases hg
  all := by
    intro h1 h2 f hf l res hl hq hr
    rw [nthMatcher_all hf] at hr
    refine groupPos_filter wf hP ?_ hl (hQ.runAsc h1 h2 hq) hr
    intro p al hp hne ha
    obtain ⟨l', e1, e2⟩ := idx_posList b (h.children p).length
    rw [e1] at ha
    simp only [Except.map, Except.ok.injEq] at ha
    exact ⟨_, ha.symm, PosList.fit e2 _⟩
  child := by intro _ _ hs; rw [nthMatcher_spec] at hs; cases hs
  spec := by
    intro _ s hs x l hx hr
    rw [nthMatcher_spec] at hs
    obtain rfl := Option.some.inj hs
    exact posSpec_eq wf hP hx hr
  cache := by intro _ hc; rw [nthMatcher_cache] at hc; cases hc

/-- A list handle that answers, where the marks are not asked for. -/
theorem nthIdx_answers (wf : TreeWF h r) {b : Int} (hQ : ListsOk h Q c)
    (hz : last = false ∨ (c ≠ .childrenAll ∧ c ≠ .children)) :
    Answers h r Q (nthMatcher h ofType (!last) none (some b)) c where
  handle := Or.inr nthMatcher_has
  one := by intro g hg; rw [nthMatcher_one] at hg; cases hg
  all := by
    intro h1 h2 f hf l hl hq
    rw [nthMatcher_all hf]
    refine groupPos_total wf (fun n => ?_) ?_ hl (hQ.runAsc h1 h2 hq)
    · obtain ⟨l', e1, _⟩ := idx_posList b n
      rw [e1]; exact ⟨_, rfl⟩
    · intro p al hp hne ha
      obtain ⟨l', e1, e2⟩ := idx_posList b (h.children p).length
      rw [e1] at ha
      simp only [Except.map, Except.ok.injEq] at ha
      exact ⟨_, ha.symm, (PosList.fit e2 _).lt⟩
  child := by intro _ _ hs; rw [nthMatcher_spec] at hs; cases hs
  spec := by
    intro hc _ s hs x hx
    rw [nthMatcher_spec] at hs
    obtain rfl := Option.some.inj hs
    refine posSpec_total (Or.inl (hz.resolve_right fun h' => ?_))
    rcases hc with hc | hc
    · exact h'.1 hc
    · exact h'.2 hc
  cache := by intro _ hc; rw [nthMatcher_cache] at hc; cases hc

theorem edge_posList {total : Nat} (ht : 0 < total) : PosList (fun j => j = 1) total [0] := by
  refine ⟨List.pairwise_singleton _ _, fun j => ?_⟩
  rw [List.mem_singleton]
  omega

theorem edgeMatcher_all {asc : Bool} {f : List Nat → Option Bool → R (List Nat)}
    (hf : (edgeMatcher h ofType asc).all = some f) (l : List Nat) (b : Option Bool) :
    f l b = groupDo h (fun _ => .ok (some [0])) (posCb h ofType asc l) l := by
  cases ofType
  · obtain rfl := Option.some.inj hf; rfl
  · obtain rfl := Option.some.inj hf; rfl
theorem edgeMatcher_spec {asc : Bool} : (edgeMatcher h ofType asc).spec = some (posSpec h ofType asc 1) := by
  cases ofType <;> rfl

theorem edge_decides (wf : TreeWF h r) (hQ : ListsOk h Q c) (hP : IsPos h r last ofType (fun j => j = 1) P) :
    Decides h r Q (edgeMatcher h ofType (!last)) c P where
  one := by intro g hg; cases ofType <;> cases hg
  all := by
    intro h1 h2 f hf l res hl hq hr
    rw [edgeMatcher_all hf] at hr
    refine groupPos_filter wf hP ?_ hl (hQ.runAsc h1 h2 hq) hr
    intro p al hp hne ha
    exact ⟨_, (Except.ok.inj ha).symm, PosList.fit (edge_posList (List.length_pos_iff.2 hne)) _⟩
  child := by intro _ _ hs; rw [edgeMatcher_spec] at hs; cases hs
  spec := by
    intro _ s hs x l hx hr
    rw [edgeMatcher_spec] at hs
    obtain rfl := Option.some.inj hs
    refine posSpec_eq wf ?_ hx hr
    intro y hy hye
    rw [hP y hy hye]
    refine exists_congr fun j => and_congr_right fun _ => ?_
    omega
  cache := by intro _ hc; cases ofType <;> cases hc

theorem edge_answers (wf : TreeWF h r) (hQ : ListsOk h Q c) (hz : last = false ∨ (c ≠ .childrenAll ∧ c ≠ .children)) :
    Answers h r Q (edgeMatcher h ofType (!last)) c where
  handle := by right; cases ofType <;> rfl
  one := by intro g hg; cases ofType <;> cases hg
  all := by
    intro h1 h2 f hf l hl hq
    rw [edgeMatcher_all hf]
    refine groupPos_total wf (fun n => ⟨_, rfl⟩) ?_ hl (hQ.runAsc h1 h2 hq)
    intro p al hp hne ha
    refine ⟨_, (Except.ok.inj ha).symm, fun _ j hj => ?_⟩
    rw [List.mem_singleton] at hj
    subst hj
    exact List.length_pos_iff.2 hne
  child := by intro _ _ hs; rw [edgeMatcher_spec] at hs; cases hs
  spec := by
    intro hc _ s hs x hx
    rw [edgeMatcher_spec] at hs
    obtain rfl := Option.some.inj hs
    refine posSpec_total (Or.inl (hz.resolve_right fun h' => ?_))
    rcases hc with hc | hc
    · exact h'.1 hc
    · exact h'.2 hc
  cache := by intro _ hc; cases ofType <;> cases hc

/-! ### only -/

theorem place_split {C A B : List Nat} {c : Nat} (hn : C.Nodup) (hC : C = A ++ c :: B) :
    C.take (C.idxOf c) = A ∧ C.reverse.take (C.reverse.idxOf c) = B.reverse ∧ C.idxOf c = A.length ∧
      C.reverse.idxOf c = B.length := by
  subst hC
  have hA : c ∉ A := by
    intro hc
    exact (List.nodup_append.1 hn).2.2 c hc c (by simp) rfl
  have hB : c ∉ B := by
    have := (List.nodup_append.1 hn).2.1
    exact (List.nodup_cons.1 this).1
  have h1 : (A ++ c :: B).idxOf c = A.length := by rw [List.idxOf_append_of_notMem hA]; simp
  have h2 : (A ++ c :: B).reverse = B.reverse ++ c :: A.reverse := by simp
  have h3 : (A ++ c :: B).reverse.idxOf c = B.length := by
    rw [h2, List.idxOf_append_of_notMem (by simpa using hB)]; simp
  refine ⟨by rw [h1]; simp, ?_, h1, h3⟩
  rw [h3, h2]; simp

theorem only_iff (wf : TreeWF h r) {p c : Nat} (hp : Within h r p) (hc : c ∈ h.children p) :
    (AtPos h r false ofType c 1 ∧ AtPos h r true ofType c 1) ↔
      if ofType then tagCount h (tagName h c) (h.children p) = 1 else (h.children p).length = 1 := by
  have hn := children_nodup wf hp
  rw [atPos_iff wf hp hc, atPos_iff wf hp hc]
  obtain ⟨A, B, hAB⟩ := List.append_of_mem hc
  obtain ⟨h1, h2, h3, h4⟩ := place_split hn hAB
  cases ofType with
  | false =>
    simp only [place, Bool.false_eq_true, if_false, if_true, h3, h4]
    have : (h.children p).length = A.length + 1 + B.length := by rw [hAB]; simp; omega
    rw [this]
    constructor
    · rintro ⟨a, b⟩; omega
    · intro a; constructor <;> omega
  | true =>
    simp only [place, Bool.false_eq_true, if_false, if_true, h1, h2, nameCount]
    have : tagCount h (tagName h c) (h.children p) = (A.countP fun y => tagName h y == tagName h c) + 1 +
        (B.countP fun y => tagName h y == tagName h c) := by
      rw [hAB]; simp [tagCount, List.countP_append, List.countP_cons]; omega
    rw [this, List.countP_reverse]
    constructor
    · rintro ⟨a, b⟩; omega
    · intro a; constructor <;> omega

theorem onlyChildLoop_filter (wf : TreeWF h r) {P : Nat → Bool}
    (hP : ∀ p c, Within h r p → c ∈ h.children p → (P c = true ↔ (h.children p).length = 1))
    {l : List Nat} {prev : Option Nat} (hl : Elems h r l) (hs : RunAsc h l)
    (hprev : ∀ p, prev = some p → ∀ y ∈ l.head?, h.parent y = some p → P y = false) :
    onlyChildLoop h l prev = l.filter P := by
  induction l generalizing prev with
  | nil => rfl
  | cons x l ih =>
    obtain ⟨hw, he⟩ := hl x List.mem_cons_self
    obtain ⟨p, hxp, hp, hxi⟩ := parent_inv wf hw (elem_ne_root wf he)
    have hxc : x ∈ h.children p := mem_children.2 ⟨List.mem_of_getElem? hxi, he⟩
    have hl' : Elems h r l := fun y hy => hl y (List.mem_cons_of_mem _ hy)
    obtain ⟨hsx, hs'⟩ := List.isChain_cons.1 hs
    have hnext : ∀ y ∈ l.head?, h.parent y = some p → P y = false := by
      intro y hy hyp
      have hyl : y ∈ l := List.mem_of_head? hy
      obtain ⟨hyw, hye⟩ := hl' y hyl
      obtain ⟨_, hyi⟩ := parent_some wf hyw hyp
      have hyc : y ∈ h.children p := mem_children.2 ⟨List.mem_of_getElem? hyi, hye⟩
      have hlt := hsx y hy (by rw [hxp, hyp])
      cases hPy : P y with
      | false => rfl
      | true =>
        exfalso
        obtain ⟨z, hz⟩ := List.length_eq_one_iff.1 ((hP p y hp hyc).1 hPy)
        rw [hz, List.mem_singleton] at hxc hyc
        rw [hxc, hyc] at hlt
        omega
    simp only [onlyChildLoop, hxp]
    split
    · rename_i hpv
      rw [List.filter_cons_of_neg (by rw [hprev p hpv x rfl hxp]; simp)]
      refine ih hl' hs' fun q hq y hy => ?_
      rw [hpv] at hq; cases hq
      exact hnext y hy
    · split
      · rename_i hlen
        rw [List.filter_cons_of_pos ((hP p x hp hxc).2 hlen), ih hl' hs']
        rintro q hq; cases hq; exact hnext
      · rename_i hlen
        rw [List.filter_cons_of_neg (by rw [hP p x hp hxc]; exact hlen), ih hl' hs']
        rintro q hq; cases hq; exact hnext

/-- `P` holds for the only children, or only ones of their type. -/
def IsOnly (h : Heap) (r : Nat) (ofType : Bool) (P : Nat → Bool) : Prop :=
  ∀ x, Within h r x → h.isElem x = true → (P x = true ↔ AtPos h r false ofType x 1 ∧ AtPos h r true ofType x 1)

/-- `onlyChildMatcher` or `onlyOfTypeMatcher`. -/
def onlyMatcher (h : Heap) (ofType : Bool) : Matcher := if ofType then onlyOfTypeMatcher h else onlyChildMatcher h

theorem only_all (wf : TreeWF h r) (hP : IsOnly h r ofType P) {f : List Nat → Option Bool → R (List Nat)}
    (hf : (onlyMatcher h ofType).all = some f) {l : List Nat} {b : Option Bool} (hl : Elems h r l) (hs : RunAsc h l) :
    f l b = .ok (l.filter P) := by
  have hiff : ∀ p c, Within h r p → c ∈ h.children p → (P c = true ↔
      if ofType then tagCount h (tagName h c) (h.children p) = 1 else (h.children p).length = 1) := by
    intro p c hp hc
    obtain ⟨hck, hce⟩ := mem_children.1 hc
    rw [hP c (.step hp hck) hce, only_iff wf hp hc]
  cases hof : ofType with
  | false =>
    subst hof
    obtain rfl := Option.some.inj hf
    simp only
    rw [onlyChildLoop_filter wf (fun p c hp hc => by simpa using hiff p c hp hc) hl hs (by intro p hp; cases hp)]
  | true =>
    subst hof
    obtain rfl := Option.some.inj hf
    simp only
    have hcb : ∀ d p, d.parent = some p → (∀ x ∈ slice l d, h.parent x = some p) → slice l d ≠ [] →
        onlyOfTypeCb h l d = .ok ((slice l d).filter P) := by
      intro d p hdp hpar hne
      have hsl := slice_sublist l d
      have hel : Elems h r (slice l d) := fun x hx => hl x (hsl.subset hx)
      obtain ⟨x, hx⟩ := List.exists_mem_of_ne_nil _ hne
      have hpw : Within h r p := elems_parent_within wf hel hx (hpar x hx)
      have hsub := sibs_sublist wf hpw hel ((hs.slice d).sibAsc hpar) hpar
      have := onlyCore_ok (h := h) (P := P) hsub (fun c hc => by simpa using hiff p c hpw hc)
      unfold onlyOfTypeCb
      rw [hdp]
      exact this
    obtain ⟨res, hres⟩ := groupDo_total (h := h) (allowFn := fun _ => .ok none) (cb := onlyOfTypeCb h l) (elems_parent wf hl)
      (fun p _ => ⟨_, rfl⟩) (fun d p hdp _ hpar hne => ⟨_, hcb d p hdp hpar hne⟩)
    rw [hres, groupDo_filter (P := P) (elems_parent wf hl) ?_ hres]
    intro d p hdp _ hpar hne y hy
    rw [hcb d p hdp hpar hne] at hy
    exact (Except.ok.inj hy).symm

theorem only_decides (wf : TreeWF h r) (hQ : ListsOk h Q c) (hP : IsOnly h r ofType P) :
    Decides h r Q (onlyMatcher h ofType) c P where
  one := by intro g hg; cases ofType <;> cases hg
  all := by
    intro h1 h2 f hf l res hl hq hr
    rw [only_all wf hP hf hl (hQ.runAsc h1 h2 hq)] at hr
    exact (Except.ok.inj hr).symm
  child := by
    intro _ _ _ f hf x res hx hr
    rw [only_all wf hP hf (children_elems hx) (children_sibAsc wf hx).runAsc] at hr
    exact (Except.ok.inj hr).symm
  spec := by intro _ s hs; cases ofType <;> cases hs
  cache := by intro _ hc; cases ofType <;> cases hc

open Classical in
theorem only_answers (wf : TreeWF h r) (hQ : ListsOk h Q c) : Answers h r Q (onlyMatcher h ofType) c where
  handle := by right; cases ofType <;> rfl
  one := by intro g hg; cases ofType <;> cases hg
  all := by
    intro h1 h2 f hf l hl hq
    refine ⟨_, only_all (P := fun x => decide (AtPos h r false ofType x 1 ∧ AtPos h r true ofType x 1)) wf ?_ hf hl
      (hQ.runAsc h1 h2 hq)⟩
    intro x _ _; simp
  child := by
    intro _ _ _ f hf x hx _
    refine ⟨_, only_all (P := fun x => decide (AtPos h r false ofType x 1 ∧ AtPos h r true ofType x 1)) wf ?_ hf
      (children_elems hx) (children_sibAsc wf hx).runAsc⟩
    intro x _ _; simp
  spec := by intro _ _ s hs; cases ofType <;> cases hs
  cache := by intro _ hc; cases ofType <;> cases hc

end Visdom
