import Verif.Proofs.FindProps
import Verif.Spec.Samples
/-!
# C22–C24, C28, C11: filtering

`anySat h r env sel x` says that `x` is selected from the root of the document by one of the complex selectors.
-/
namespace Visdom
open Spec Classical
variable {h : Heap} {r : Nat} {env : Env} {q : ListQ}

/-! ## Conditions -/

theorem basicTest_innersOk {tot : Bool} {sel : List Complex} (hb : ∀ cx ∈ sel, BasicTest cx)
    (hr : ∀ cx ∈ sel, 2 ≤ cx.length → Roots h r) : innersOk h r env tot q sel := by
  induction sel with
  | nil => rw [innersOk]; trivial
  | cons cx sel ih =>
    obtain ⟨⟨hne, hs⟩, h1⟩ := hb cx List.mem_cons_self
    rw [innersOk]
    refine ⟨⟨hne, fun s hm => ⟨(hs s hm).1, (hs s hm).2.1⟩, h1, hr cx List.mem_cons_self⟩, ?_,
      ih (fun c hc => hb c (List.mem_cons_of_mem _ hc)) fun c hc => hr c (List.mem_cons_of_mem _ hc)⟩
    have hsims : ∀ (ss : List Sim) (q : ListQ), (∀ t ∈ ss, t.basic = true) → simsOk h r env tot q ss := by
      intro ss q
      induction ss with
      | nil => intro _; rw [simsOk]; trivial
      | cons s ss ih =>
        intro hb
        rw [simsOk]
        exact ⟨basic_ok (hb s List.mem_cons_self) _ _, ih fun t ht => hb t (List.mem_cons_of_mem _ ht)⟩
    have hinner : ∀ (l : Complex), (∀ s ∈ l, ∀ t ∈ s.2, t.basic = true) → innerOk h r env tot q l := by
      intro l
      induction l with
      | nil => intro _; rw [innerOk]; trivial
      | cons s l ih =>
        intro hb
        obtain ⟨c, ss⟩ := s
        rw [innerOk, stepOk]
        exact ⟨hsims ss _ (hb _ List.mem_cons_self), ih fun t ht => hb t (List.mem_cons_of_mem _ ht)⟩
    exact hinner cx fun s hm => (hs s hm).2.2

theorem sel1_innersOk {tot : Bool} {s : Sim} (hs : s.Ok h r env tot q .list) : innersOk h r env tot q (sel1 s) := by
  rw [sel1, innersOk, innersOk, innerOk, innerOk, stepOk, simsOk, simsOk]
  exact ⟨⟨by simp, by simp [Comb.down], by simp, by simp⟩, ⟨⟨by simpa using hs, trivial⟩, trivial⟩, trivial⟩

theorem sel1_sat (wf : TreeWF h r) {s : Sim} {x : Nat} (hx : Within h r x) (he : h.isElem x = true) :
    anySat h r env (sel1 s) x ↔ s.Sat h r env x := by
  rw [sel1, anySat, anySat, steps, steps, step]
  have hb : Below h r x := by
    rcases within_cases hx with rfl | hb
    · exact absurd rfl (elem_ne_root wf he)
    · exact hb
  constructor
  · rintro (⟨_, h2, _⟩ | hf)
    · have := of_decide_eq_true h2
      rw [cmpdSat, cmpdSat] at this
      exact this.1
    · exact hf.elim
  · intro hs
    refine Or.inl ⟨he, decide_eq_true ?_, r, rfl, hb⟩
    rw [cmpdSat, cmpdSat]
    exact ⟨hs, trivial⟩

/-! ## C22 -/

/-- C22, proved part: `filter` keeps, in order, exactly the elements that match. Missing: selectors outside `innersOk`
and lists of overlapping selectors, where the library is wrong (`C22_fails_*`). -/
theorem C22_filter_exact_partial (wf : TreeWF h r) (ev : Metas h r) {sel : List Complex} (hok : innersOk h r env true q sel)
    {X : List Nat} (hu : UnionOn h r env q X sel) (hX : Elems h r X) (hq : q.lists h r X) :
    filterQ h env X sel = .ok (X.filter fun x => decide (anySat h r env sel x)) := by
  obtain ⟨f1, f2⟩ := filterSel_good wf (inners_good wf ev sel q hok) hu hX hq
  obtain ⟨res, hres⟩ := f2 rfl
  unfold filterQ
  rw [hres, f1 res hres]

/-- C22 without side conditions for one selector of basic rules, on every set in every order. -/
theorem C22_filter_basic (wf : TreeWF h r) (ev : Metas h r) {cx : Complex} (hb : BasicTest cx) (roots : 2 ≤ cx.length → Roots h r)
    {X : List Nat} (hX : Elems h r X) :
    filterQ h env X [cx] = .ok (X.filter fun x => decide (Sel h r (· = r) (steps h r env cx) x)) := by
  rw [C22_filter_exact_partial (q := .any) wf ev (basicTest_innersOk (by simpa using hb) (by simpa using roots)) (Or.inl (by simp)) hX trivial]
  simp only [anySat, or_false]

theorem demo_elems {l : List Nat} (hl : ∀ x ∈ l, x ∈ [1, 2, 5, 6, 7, 8, 9]) : Elems demo 0 l := by
  intro x hx
  have := hl x hx
  simp only [List.mem_cons, List.not_mem_nil, or_false] at this
  rcases this with rfl | rfl | rfl | rfl | rfl | rfl | rfl
  · exact ⟨wfCheck_within [0] (by decide) rfl, by decide⟩
  · exact ⟨wfCheck_within [0, 1] (by decide) rfl, by decide⟩
  · exact ⟨wfCheck_within [0, 1] (by decide) rfl, by decide⟩
  · exact ⟨wfCheck_within [0, 1, 5] (by decide) rfl, by decide⟩
  · exact ⟨wfCheck_within [0, 1, 5] (by decide) rfl, by decide⟩
  · exact ⟨wfCheck_within [0] (by decide) rfl, by decide⟩
  · exact ⟨wfCheck_within [0, 8] (by decide) rfl, by decide⟩

/-- `filter("div > div p")` on a set in no particular order. -/
example : BasicTest [(.childrenAll, [ty "div"]), (.children, [ty "div"]), (.childrenAll, [ty "p"])] ∧ Elems demo 0 [9, 6, 2, 6] ∧
    filterQ demo env0 [9, 6, 2, 6] [[(.childrenAll, [ty "div"]), (.children, [ty "div"]), (.childrenAll, [ty "p"])]] = .ok [6, 6] :=
  ⟨⟨⟨by decide, by decide⟩, by simp⟩, demo_elems (by decide), by decide⟩

/-- C22 is false as stated: `filter("> p")` keeps a `p` that is no child of the root (the combinator in front of a
single compound is ignored). -/
theorem C22_fails_combinator : filterQ demo env0 [2] [[(.children, [ty "p"])]] = .ok [2] ∧
    ¬ anySat demo 0 env0 [[(.children, [ty "p"])]] 2 := by
  refine ⟨by decide, ?_⟩
  rw [anySat, anySat, steps, steps, step]
  rintro (⟨_, _, y, rfl, hrel⟩ | hf)
  · revert hrel
    show ¬ (2 ∈ demo.kids 0)
    decide
  · exact hf

/-- C22 is false as stated: the union of two overlapping selectors loses an element: `filter("div, *")`. -/
theorem C22_fails_union : filterQ demo env0 [1, 8] [[(.childrenAll, [ty "div"])], [(.childrenAll, [.all])]] = .ok [1] := by decide

/-! ## C23 -/

/-- C23, proved part: `not` keeps, in order, exactly the elements that do not match (conditions as for C22). -/
theorem C23_not_exact_partial (wf : TreeWF h r) (ev : Metas h r) {sel : List Complex} (hok : innersOk h r env true q sel)
    {X : List Nat} (hu : UnionOn h r env q X sel) (hX : Elems h r X) (hq : q.lists h r X) :
    notQ h env X sel = .ok (X.filter fun x => decide (¬ anySat h r env sel x)) := by
  obtain ⟨f1, f2⟩ := notSel_good wf (inners_good wf ev sel q hok) hu hX hq
  obtain ⟨res, hres⟩ := f2 rfl
  unfold notQ
  rw [hres, f1 res hres]

/-- C23, proved part: `is` holds iff some element matches; the selectors may overlap. -/
theorem C23_is_exact_partial (wf : TreeWF h r) (ev : Metas h r) {sel : List Complex} (hok : innersOk h r env true q sel)
    {X : List Nat} (hX : Elems h r X) (hq : q.lists h r X) :
    ∃ b, isQ h env X sel = .ok b ∧ (b = true ↔ ∃ x ∈ X, anySat h r env sel x) := by
  obtain ⟨f1, f2⟩ := isProcs_good (root := none) (inners_good wf ev sel q hok) hX hq (Or.inl rfl)
  unfold isQ isSel
  by_cases he : X.isEmpty = true
  · rw [if_pos he, List.isEmpty_iff.1 he]
    exact ⟨false, rfl, by simp⟩
  · rw [if_neg he]
    obtain ⟨b, hb⟩ := f2 rfl
    exact ⟨b, hb, f1 b hb⟩

/-- C23, proved part: `is_all` holds iff the set is not empty and every element matches. On the empty set it answers
`false`, unlike `is_all_by` and `is_all_in` (`C23_fails_is_all_empty`). -/
theorem C23_is_all_exact_partial (wf : TreeWF h r) (ev : Metas h r) {sel : List Complex} (hok : innersOk h r env true q sel)
    {X : List Nat} (hu : UnionOn h r env q X sel) (hX : Elems h r X) (hq : q.lists h r X) :
    ∃ b, isAllQ h env X sel = .ok b ∧ (b = true ↔ X ≠ [] ∧ ∀ x ∈ X, anySat h r env sel x) := by
  obtain ⟨f1, f2⟩ := filterProcs_good wf (inners_good wf ev sel q hok) hu hX hq
  unfold isAllQ isAllSel
  by_cases he : X.isEmpty = true
  · rw [if_pos he, List.isEmpty_iff.1 he]
    exact ⟨false, rfl, by simp⟩
  · rw [if_neg he]
    obtain ⟨res, hres⟩ := f2 rfl
    refine ⟨_, by rw [hres]; rfl, ?_⟩
    rw [f1 res hres, decide_eq_true_eq, List.length_filter_eq_length_iff]
    simp only [decide_eq_true_eq]
    exact ⟨fun h => ⟨by simpa using he, h⟩, fun h => h.2⟩

/-- C23: `not` is the complement of `filter`, for one selector of basic rules, on every set in every order. -/
theorem C23_not_complement (wf : TreeWF h r) (ev : Metas h r) {cx : Complex} (hb : BasicTest cx) (roots : 2 ≤ cx.length → Roots h r)
    {X : List Nat} (hX : Elems h r X) :
    ∃ F N, filterQ h env X [cx] = .ok F ∧ notQ h env X [cx] = .ok N ∧ F.Sublist X ∧ N.Sublist X ∧
      (∀ x ∈ X, x ∈ N ↔ x ∉ F) ∧ F.length + N.length = X.length := by
  have hok : innersOk h r env true .any [cx] := basicTest_innersOk (by simpa using hb) (by simpa using roots)
  have hu : UnionOn h r env .any X [cx] := Or.inl (by simp)
  refine ⟨_, _, C22_filter_exact_partial wf ev hok hu hX trivial, C23_not_exact_partial wf ev hok hu hX trivial,
    List.filter_sublist, List.filter_sublist, ?_, ?_⟩
  · intro x hx
    simp [List.mem_filter, hx]
  · have := List.length_eq_length_filter_add (l := X) (fun x => decide (anySat h r env [cx] x))
    simp only [decide_not]
    omega

/-- C23: `is` holds iff `filter` keeps something, `is_all` iff it keeps everything of a non-empty set; for one selector
of basic rules, on every set in every order. -/
theorem C23_is_filter (wf : TreeWF h r) (ev : Metas h r) {cx : Complex} (hb : BasicTest cx) (roots : 2 ≤ cx.length → Roots h r)
    {X : List Nat} (hX : Elems h r X) :
    ∃ F i a, filterQ h env X [cx] = .ok F ∧ isQ h env X [cx] = .ok i ∧ isAllQ h env X [cx] = .ok a ∧
      (i = true ↔ F ≠ []) ∧ (a = true ↔ X ≠ [] ∧ F = X) := by
  have hok : innersOk h r env true .any [cx] := basicTest_innersOk (by simpa using hb) (by simpa using roots)
  have hu : UnionOn h r env .any X [cx] := Or.inl (by simp)
  obtain ⟨i, hi, hii⟩ := C23_is_exact_partial wf ev hok hX trivial
  obtain ⟨a, ha, haa⟩ := C23_is_all_exact_partial wf ev hok hu hX trivial
  refine ⟨_, i, a, C22_filter_exact_partial wf ev hok hu hX trivial, hi, ha, ?_, ?_⟩
  · rw [hii, ne_eq, List.filter_eq_nil_iff]
    simp
  · rw [haa, List.filter_eq_self]
    simp

example : notQ demo env0 [9, 6, 2, 6] [[(.childrenAll, [ty "div"]), (.childrenAll, [ty "p"])]] = .ok [9] ∧
    isQ demo env0 [9, 6] [[(.childrenAll, [ty "p"])]] = .ok true ∧ isAllQ demo env0 [9, 6] [[(.childrenAll, [ty "p"])]] = .ok false ∧
    isAllQ demo env0 [2, 6] [[(.childrenAll, [ty "p"])]] = .ok true := ⟨by decide, by decide, by decide, by decide⟩

/-- C23 is false as stated for the empty set: `filter` keeps everything, `is_all` answers `false`. -/
theorem C23_fails_is_all_empty (sel : List Complex) : isAllQ h env [] sel = .ok false ∧ filterQ h env [] sel = .ok [] := ⟨rfl, rfl⟩

/-- A test that asks for an attribute of the element. -/
def Spec.AsksAttr : Sim → Prop
  | .cls _ | .attr _ | .attrTest _ _ _ => True
  | _ => False

theorem filterR_error {f : Nat → R Bool} {x : Nat} {e : Panic} (hf : f x = .error e) : ∀ {l : List Nat}, x ∈ l → ∃ e', filterR f l = .error e'
  | a :: l, hx => by
    rcases List.mem_cons.1 hx with rfl | hx
    · exact ⟨e, by rw [filterR, hf]⟩
    · obtain ⟨e', he⟩ := filterR_error hf hx
      rw [filterR, he]
      cases f a with
      | error e'' => exact ⟨e'', rfl⟩
      | ok b => exact ⟨e', rfl⟩

theorem asksAttr_error {s : Sim} (hs : Spec.AsksAttr s) {x : Nat} (hx : h.isElem x = false) {X : List Nat} (hm : x ∈ X) (lk : Bool)
    (root : Option Nat) : ∃ e, filterProc h X root (optimizeGroup lk (cplxCmpds h env [(.childrenAll, [s])])) = .error e := by
  have key : ∀ m : Matcher, (∃ g, m.one = some g ∧ g x = .error .unwrapNone) → m.all = none →
      ∃ e, selectByRule h X m .chain = .error e := by
    rintro m ⟨g, h1, h2⟩ h3
    obtain ⟨e, he⟩ := filterR_error h2 hm
    exact ⟨e, by simp only [selectByRule, Matcher.apply, h1, h3]; exact he⟩
  have hq : ∀ m : Matcher, m.spec = none → m.inCache = false → (∃ g, m.one = some g ∧ g x = .error .unwrapNone) → m.all = none →
      simMatcher h env s = m →
      ∃ e, filterProc h X root (optimizeGroup lk (cplxCmpds h env [(.childrenAll, [s])])) = .error e := by
    intro m _ hc hone hall hm'
    obtain ⟨e, he⟩ := key m hone hall
    refine ⟨e, ?_⟩
    have : (optimizeGroup lk (cplxCmpds h env [(.childrenAll, [s])])).query = [[(m, .childrenAll)]] := by
      rw [cplxCmpds, cplxCmpds, stepCmpd, simSegs, simSegs, hm']
      cases lk <;> simp [optimizeGroup, optimizeCmpd, hc, maxIndex]
    unfold filterProc
    rw [this]
    simp only [List.getLast?_singleton, he]
  cases s <;> first | exact hs.elim | skip
  all_goals
    refine hq _ ?_ ?_ ?_ ?_ (by rw [simMatcher])
    · rfl
    · rfl
    · exact ⟨_, rfl, by simp [hx]⟩
    · rfl

/-- C22 and C23 are false as stated for sets that hold something other than an element, as the set of the document itself
does: `filter`, `not`, `is` and `is_all` of a class or attribute test panic there, whatever the test is. -/
theorem C22_fails_root {s : Sim} (hs : Spec.AsksAttr s) {x : Nat} (hx : h.isElem x = false) {X : List Nat} (hm : x ∈ X) :
    (∃ e, filterQ h env X (sel1 s) = .error e) ∧ (∃ e, notQ h env X (sel1 s) = .error e) ∧
      (∃ e, isQ h env X (sel1 s) = .error e) ∧ ∃ e, isAllQ h env X (sel1 s) = .error e := by
  obtain ⟨e, he⟩ := asksAttr_error (env := env) hs hx hm false none
  have hne : X.isEmpty = false := by cases X <;> [cases hm; rfl]
  have h1 : innerSel h env (sel1 s) = [optimizeGroup false (cplxCmpds h env [(.childrenAll, [s])])] := innerSel_eq _
  refine ⟨⟨e, ?_⟩, ⟨e, ?_⟩, ⟨e, ?_⟩, ⟨e, ?_⟩⟩
  · simp only [filterQ, filterSel, hne, h1, filterProcs, he]; rfl
  · simp only [notQ, notSel, hne, h1, filterProcs, he]; rfl
  · simp only [isQ, isSel, hne, h1, isProcs, he]; rfl
  · simp only [isAllQ, isAllSel, hne, h1, filterProcs, he]; rfl

example : filterQ demo env0 [0] (sel1 (.cls "a".toList)) = .error .unwrapNone ∧ filterQ demo env0 [0] (sel1 (ty "div")) = .ok [] ∧
    filterQ demo env0 [0] (sel1 .all) = .ok [0] ∧ Spec.AsksAttr (.cls "a".toList) := ⟨by decide, by decide, by decide, trivial⟩

/-- C23 is false as stated for overlapping selectors: `not("div, *")` keeps the `ul`. -/
theorem C23_fails_union : notQ demo env0 [1, 8] [[(.childrenAll, [ty "div"])], [(.childrenAll, [.all])]] = .ok [8] := by decide

/-! ## C24 -/

/-- C24, proved part: `has` keeps, in order, exactly the elements with a descendant that matches; the selectors may
overlap. Missing: selectors outside `innersOk` (`C24_fails_nth`). -/
theorem C24_has_exact_partial (wf : TreeWF h r) (ev : Metas h r) {sel : List Complex} (hok : innersOk h r env true .doc sel)
    {X : List Nat} (hX : ∀ x ∈ X, Within h r x) :
    hasQ h env X sel = .ok (X.filter fun x => decide (∃ e, Below h x e ∧ h.isElem e = true ∧ anySat h r env sel e)) := by
  obtain ⟨f1, f2⟩ := hasSel_good wf (inners_good wf ev sel .doc hok) hX
  obtain ⟨res, hres⟩ := f2 rfl
  unfold hasQ
  rw [hres, f1 res hres]

/-- C24 without side conditions for lists of selectors of basic rules. -/
theorem C24_has_basic (wf : TreeWF h r) (ev : Metas h r) {sel : List Complex} (hb : ∀ cx ∈ sel, BasicTest cx)
    (roots : ∀ cx ∈ sel, 2 ≤ cx.length → Roots h r) {X : List Nat}
    (hX : ∀ x ∈ X, Within h r x) :
    hasQ h env X sel = .ok (X.filter fun x => decide (∃ e, Below h x e ∧ h.isElem e = true ∧ anySat h r env sel e)) :=
  C24_has_exact_partial wf ev (basicTest_innersOk hb roots) hX

theorem hasInLoop_good (wf : TreeWF h r) (S : List Nat) {n x : Nat} {π : List Nat} (hx : At h r π x) (hn : h.size < π.length + n) :
    ∃ b, hasInLoop h S n x = .ok b ∧ (b = true ↔ ∃ e ∈ S, Below h x e ∧ h.isElem e = true) := by
  induction n generalizing x π with
  | zero => have := path_length wf hx; omega
  | succ n ih =>
    have hw := hx.within
    have hkids : ∀ c ∈ h.children x, ∃ b, hasInLoop h S n c = .ok b ∧ (b = true ↔ ∃ e ∈ S, Below h c e ∧ h.isElem e = true) := by
      intro c hc
      obtain ⟨i, hi⟩ := List.getElem?_of_mem (mem_children.1 hc).1
      exact ih (.step hx hi) (by simp; omega)
    have hbelow : ∀ e, h.isElem e = true → (Below h x e ↔ e ∈ h.children x ∨ ∃ c ∈ h.children x, Below h c e) :=
      fun e he => below_children wf hw he
    unfold hasInLoop
    by_cases he : (h.children x).isEmpty = true
    · rw [if_pos he]
      refine ⟨false, rfl, ?_⟩
      have he := List.isEmpty_iff.1 he
      constructor
      · intro hf; cases hf
      · rintro ⟨e, _, hb, hel⟩
        rcases (hbelow e hel).1 hb with h1 | ⟨c, hc, _⟩
        · rw [he] at h1; cases h1
        · rw [he] at hc; cases hc
    · rw [if_neg he]
      by_cases hin : isIn (h.children x) S = true
      · rw [if_pos hin]
        refine ⟨true, rfl, ?_⟩
        simp only [isIn, List.any_eq_true, beq_iff_eq] at hin
        obtain ⟨c, hc, s, hs, rfl⟩ := hin
        exact ⟨fun _ => ⟨c, hs, (hbelow c (mem_children.1 hc).2).2 (Or.inl hc), (mem_children.1 hc).2⟩, fun _ => rfl⟩
      · rw [if_neg hin]
        have hno : ∀ e ∈ S, e ∉ h.children x := by
          intro e hes hc
          apply hin
          simp only [isIn, List.any_eq_true, beq_iff_eq]
          exact ⟨e, hc, e, hes, rfl⟩
        have key : ∀ l : List Nat, (∀ c ∈ l, c ∈ h.children x) →
            ∃ b, anyR (hasInLoop h S n) l = .ok b ∧ (b = true ↔ ∃ c ∈ l, ∃ e ∈ S, Below h c e ∧ h.isElem e = true) := by
          intro l
          induction l with
          | nil => intro _; exact ⟨false, rfl, by simp⟩
          | cons c l ihl =>
            intro hl
            obtain ⟨b, hb, hbi⟩ := hkids c (hl c List.mem_cons_self)
            obtain ⟨b', hb', hbi'⟩ := ihl fun d hd => hl d (List.mem_cons_of_mem _ hd)
            unfold anyR
            rw [hb]
            cases b with
            | true => exact ⟨true, rfl, fun _ => ⟨c, List.mem_cons_self, hbi.1 rfl⟩, fun _ => rfl⟩
            | false =>
              refine ⟨b', hb', ?_⟩
              rw [hbi']
              simp only [List.mem_cons, exists_eq_or_imp]
              constructor
              · exact Or.inr
              · rintro (hc | hc)
                · have := hbi.2 hc; cases this
                · exact hc
        obtain ⟨b, hb, hbi⟩ := key _ fun _ hc => hc
        refine ⟨b, hb, ?_⟩
        rw [hbi]
        constructor
        · rintro ⟨c, hc, e, hes, hce, hel⟩
          exact ⟨e, hes, (hbelow e hel).2 (Or.inr ⟨c, hc, hce⟩), hel⟩
        · rintro ⟨e, hes, hb, hel⟩
          rcases (hbelow e hel).1 hb with h1 | ⟨c, hc, hce⟩
          · exact absurd h1 (hno e hes)
          · exact ⟨c, hc, e, hes, hce, hel⟩

/-- C24: `has_in` keeps, in order, exactly the elements with a member of the other set as a descendant. -/
theorem C24_has_in (wf : TreeWF h r) {X S : List Nat} (hX : ∀ x ∈ X, Within h r x) (hS : ∀ e ∈ S, h.isElem e = true) :
    hasIn h X S = .ok (X.filter fun x => decide (∃ e ∈ S, Below h x e)) := by
  unfold hasIn
  have hone : ∀ x ∈ X, ∃ b, hasInLoop h S h.fuel x = .ok b ∧ (b = true ↔ ∃ e ∈ S, Below h x e) := by
    intro x hx
    obtain ⟨π, hπ, hfu⟩ := dfs_path wf (hX x hx)
    obtain ⟨b, hb, hbi⟩ := hasInLoop_good wf S hπ hfu
    refine ⟨b, hb, hbi.trans ⟨?_, ?_⟩⟩
    · rintro ⟨e, h1, h2, _⟩; exact ⟨e, h1, h2⟩
    · rintro ⟨e, h1, h2⟩; exact ⟨e, h1, h2, hS e h1⟩
  obtain ⟨res, hres⟩ := filterR_total (f := hasInLoop h S h.fuel) (l := X) fun x hx => by
    obtain ⟨b, hb, _⟩ := hone x hx
    exact ⟨b, hb⟩
  rw [hres, filterR_inv (P := fun x => decide (∃ e ∈ S, Below h x e)) hres fun x hx b hb => ?_]
  obtain ⟨b', hb', hi⟩ := hone x hx
  rw [hb] at hb'
  obtain rfl := Except.ok.inj hb'
  rw [Bool.eq_iff_iff, decide_eq_true_eq, hi]

example : hasQ demo env0 [8, 5, 1] [[(.childrenAll, [ty "div"]), (.children, [ty "span"])]] = .ok [5, 1] ∧
    hasIn demo [8, 5, 1] [7, 9] = .ok [8, 5, 1] ∧ hasIn demo [8, 5, 1] [5] = .ok [1] := ⟨by decide, by decide, by decide⟩

/-! ## C28 -/

/-- The positional simple selectors. -/
def Positional : Sim → Prop
  | .nth _ _ _ _ | .nthIdx _ _ _ | .edge _ _ | .only _ => True
  | _ => False

/-- C28, proved part: filtering a set where siblings come in order keeps exactly the elements at the stated position
among their element siblings, of the same name for the `of-type` kinds. Missing: for `:nth-child` and `:nth-last-child` the
`an+b` in `BadNth` for the number of children of some node (C01), and sets where siblings do not come in order. -/
theorem C28_filter_position_partial (wf : TreeWF h r) (ev : Metas h r) {s : Sim} (hp : Positional s)
    (hn : ∀ last ofType a b, s = .nth last ofType a b → NthOk h r ofType a b) {X : List Nat} (hX : Elems h r X) (hq : SibAsc h X) :
    filterQ h env X (sel1 s) = .ok (X.filter fun x => decide (s.Sat h r env x)) := by
  have hok : s.Ok h r env true .sib .list := by
    cases s <;> first
      | exact hp.elim
      | (rw [Sim.Ok]; simp)
    case nth last ofType a b => exact hn _ _ _ _ rfl
  rw [C22_filter_exact_partial (q := .sib) wf ev (sel1_innersOk hok) (Or.inl (by simp [sel1])) hX hq]
  congr 1
  refine List.filter_congr fun x hx => ?_
  rw [decide_eq_decide]
  exact sel1_sat wf (hX x hx).1 (hX x hx).2

/-- C28: what the first and last positions mean. -/
theorem C28_edge (wf : TreeWF h r) (ev : Metas h r) (last ofType : Bool) {X : List Nat} (hX : Elems h r X) (hs : DocSorted h r X) :
    filterQ h env X (sel1 (.edge last ofType)) = .ok (X.filter fun x => decide (AtPos h r last ofType x 1)) := by
  rw [C28_filter_position_partial wf ev (by exact trivial) (by simp) hX (docSorted_sibAsc wf (fun x hx => (hX x hx).1) hs)]
  refine congrArg _ (List.filter_congr fun x _ => ?_)
  rw [decide_eq_decide, Sim.Sat]

/-- C28: `:nth-child(b)` and its variants, for every number `b`. -/
theorem C28_index (wf : TreeWF h r) (ev : Metas h r) (last ofType : Bool) (b : Int) {X : List Nat} (hX : Elems h r X)
    (hs : DocSorted h r X) :
    filterQ h env X (sel1 (.nthIdx last ofType b)) =
      .ok (X.filter fun x => decide (∃ j : Nat, AtPos h r last ofType x j ∧ (j : Int) = b)) := by
  rw [C28_filter_position_partial wf ev (by exact trivial) (by simp) hX (docSorted_sibAsc wf (fun x hx => (hX x hx).1) hs)]
  refine congrArg _ (List.filter_congr fun x _ => ?_)
  rw [decide_eq_decide, Sim.Sat]

/-- C28: `:only-child` and `:only-of-type`. -/
theorem C28_only (wf : TreeWF h r) (ev : Metas h r) (ofType : Bool) {X : List Nat} (hX : Elems h r X) (hs : DocSorted h r X) :
    filterQ h env X (sel1 (.only ofType)) =
      .ok (X.filter fun x => decide (AtPos h r false ofType x 1 ∧ AtPos h r true ofType x 1)) := by
  rw [C28_filter_position_partial wf ev (by exact trivial) (by simp) hX (docSorted_sibAsc wf (fun x hx => (hX x hx).1) hs)]
  refine congrArg _ (List.filter_congr fun x _ => ?_)
  rw [decide_eq_decide, Sim.Sat]

example : filterQ demo env0 [1, 2, 5, 6, 7, 8, 9] (sel1 (.edge true false)) = .ok [5, 7, 8, 9] ∧
    filterQ demo env0 [1, 2, 5, 6, 7, 8, 9] (sel1 (.nthIdx false false 2)) = .ok [5, 7, 8] ∧
    filterQ demo env0 [1, 2, 5, 6, 7, 8, 9] (sel1 (.only false)) = .ok [9] ∧
    filterQ demo env0 [1, 2, 5, 6, 7, 8, 9] (sel1 (.nth false true 2 1)) = .ok [1, 2, 5, 6, 7, 8, 9] :=
  ⟨by decide, by decide, by decide, by decide⟩

example : NthOk demo 0 false 2 1 := by
  right
  intro p _ hne
  have : 0 < (demo.children p).length := List.length_pos_iff.2 hne
  refine ⟨by simp only [BadNth]; omega, ?_⟩
  have hlt : ∀ p, (demo.children p).length < 4 := by
    intro p
    by_cases h : p < 10
    · have : ∀ p < 10, (demo.children p).length < 4 := by decide
      exact this p h
    · have : demo.children p = [] := by
        have : demo.node p = ({} : Node) := by
          show List.getD _ p ({} : Node) = {}
          rw [List.getD_eq_getElem?_getD, List.getElem?_eq_none (by simpa using h)]
          rfl
        simp [Heap.children, Heap.kids, this]
      rw [this]; decide
  have := hlt p
  omega

/-- C28 is false as stated: `:nth-child(3n-1)` misses the second child. -/
theorem C28_fails_nth : filterQ demo env0 [7] (sel1 (.nth false false 3 (-1))) = .ok [] ∧
    Sim.Sat demo 0 env0 (.nth false false 3 (-1)) 7 := by
  refine ⟨by decide, ?_⟩
  rw [Sim.Sat]
  exact ⟨2, ⟨5, 1, wfCheck_within [0, 1] (by decide) rfl, by decide, by decide, rfl⟩, 1, by decide⟩

/-- C24 is false as stated, for the same reason: with `:nth-child(3n-1)` `has` panics on an element whose second child is one of those the formula selects. -/
theorem C24_fails_nth : hasQ demo env0 [5] (sel1 (.nth false false 3 (-1))) = .error .outOfBounds ∧
    Below demo 5 7 ∧ Sim.Sat demo 0 env0 (.nth false false 3 (-1)) 7 :=
  ⟨by decide, ⟨7, by decide, .self⟩, C28_fails_nth.2⟩

/-! ## C11 -/

/-- C11: `filter(":contains('t')")` keeps exactly the elements whose text contains `t`, on every set in every order. -/
theorem C11_contains_filter (wf : TreeWF h r) (ev : Metas h r) (t : List Char) {X : List Nat} (hX : Elems h r X) :
    filterQ h env X (sel1 (.contains t)) = .ok (X.filter fun x => decide (∃ u v, env.text x = u ++ t ++ v)) := by
  rw [sel1, C22_filter_basic wf ev ⟨⟨by simp, by simp [Comb.down, Sim.basic]⟩, by simp⟩ (by simp) hX]
  congr 1
  refine List.filter_congr fun x hx => ?_
  rw [decide_eq_decide]
  have := sel1_sat (env := env) (s := .contains t) wf (hX x hx).1 (hX x hx).2
  simp only [sel1, anySat, or_false, Sim.Sat] at this
  exact this

end Visdom
