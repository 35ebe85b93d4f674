import Verif.Props.Filter
import Verif.Spec.Pseudo
/-!
# C49–C51: `:checked`, `:root`, `:empty`, `:header`, `:input`, `:submit`
-/
namespace Visdom
open Spec Classical
variable {h : Heap} {r : Nat} {env : Env}

/-- One basic rule as a filter, on every set in every order. -/
theorem filter_one (wf : TreeWF h r) (ev : Metas h r) {s : Sim} (hb : s.basic = true) {X : List Nat} (hX : Elems h r X) :
    filterQ h env X (sel1 s) = .ok (X.filter fun x => decide (s.Sat h r env x)) := by
  rw [C22_filter_exact_partial (q := .any) wf ev (sel1_innersOk (basic_ok hb _ _)) (Or.inl (by simp [sel1])) hX trivial]
  refine congrArg _ (List.filter_congr fun x hx => ?_)
  rw [decide_eq_decide]
  exact sel1_sat wf (hX x hx).1 (hX x hx).2

/-! ## C49 -/

theorem checked_html (wf : TreeWF h r) {x : Nat} (hn : NoneBefore h r x) : Checked h r x ↔ CheckedHtml h r x := by
  unfold Checked CheckedHtml
  refine or_congr Iff.rfl (and_congr_right fun hx => ?_)
  by_cases hself : HasAttr h "selected".toList x
  · exact ⟨fun _ => Or.inl hself, fun _ => Or.inl hself⟩
  refine or_congr Iff.rfl ?_
  constructor
  · rintro ⟨⟨p, hp, hxp, h1, h2⟩, h3, h4⟩
    refine ⟨p, hp, hxp, h1, h2, h3, fun y hy hye hs => ?_⟩
    obtain ⟨i, hi⟩ := List.getElem?_of_mem hxp
    obtain ⟨j, hj⟩ := List.getElem?_of_mem hy
    rcases Nat.lt_trichotomy i j with hij | rfl | hij
    · exact h4 y ⟨p, i, j, hp, hij, hi, hj⟩ hye hs
    · rw [hi] at hj
      obtain rfl := Option.some.inj hj
      cases hs with
      | here _ hsel => exact hself hsel
      | inside hno _ _ _ => exact hno hx
    · exact hn y ⟨p, j, i, hp, hij, hj, hi⟩ hye hs
  · rintro ⟨p, hp, hxp, h1, h2, h3, h4⟩
    refine ⟨⟨p, hp, hxp, h1, h2⟩, h3, ?_⟩
    rintro y ⟨p', i, j, hp', hij, hi, hj⟩ hye
    have : p' = p := by
      obtain ⟨k, hk⟩ := List.getElem?_of_mem hxp
      have e1 := (wf.link p' i x hp' hi).1
      have e2 := (wf.link p k x hp hk).1
      rw [e1] at e2
      exact Option.some.inj e2
    subst this
    exact h4 y (List.mem_of_getElem? hj) hye

/-- C49, proved part: exactly the elements the library's own criterion describes, on every set in every order; this is
the criterion of HTML for every element without a selected option in a sibling before it. Missing: an `optgroup` with a
selected option before the first direct option (`C49_fails`). -/
theorem C49_checked_partial (wf : TreeWF h r) (ev : Metas h r) {X : List Nat} (hX : Elems h r X) :
    ∃ res, filterQ h env X (sel1 .checked) = .ok res ∧ res.Sublist X ∧ (∀ x, x ∈ res ↔ x ∈ X ∧ Checked h r x) ∧
      ∀ x ∈ X, NoneBefore h r x → (x ∈ res ↔ CheckedHtml h r x) := by
  have key : ∀ x, x ∈ X.filter (fun x => decide (Sim.Sat h r env .checked x)) ↔ x ∈ X ∧ Checked h r x := by
    intro x
    rw [List.mem_filter, decide_eq_true_eq, Sim.Sat]
  refine ⟨_, filter_one wf ev rfl hX, List.filter_sublist, key, fun x hx hn => ?_⟩
  rw [key, ← checked_html wf hn]
  exact ⟨fun h => h.2, fun h => ⟨hx, h⟩⟩

/-- C49: on one element the answer is that of HTML if and only if the element is not a default option of the library with a selected option
in a sibling before it. -/
theorem C49_exact_partial (wf : TreeWF h r) (ev : Metas h r) {x : Nat} (hx : Within h r x) (he : h.isElem x = true) :
    ∃ res, filterQ h env [x] (sel1 .checked) = .ok res ∧ ((x ∈ res ↔ CheckedHtml h r x) ↔
      ¬ (x ∈ res ∧ Named h "option".toList x ∧ ¬ HasAttr h "selected".toList x ∧ ¬ NoneBefore h r x)) := by
  obtain ⟨res, h1, -, h2, -⟩ := C49_checked_partial (env := env) wf ev (X := [x]) (fun y hy => by rw [List.mem_singleton.1 hy]; exact ⟨hx, he⟩)
  refine ⟨res, h1, ?_⟩
  have hr : x ∈ res ↔ Checked h r x := by rw [h2]; simp
  rw [hr]
  constructor
  · rintro hi ⟨hc, ho, hs, hn⟩
    rcases hi.1 hc with ⟨h3, -⟩ | ⟨-, h3 | ⟨p, hp, hk, -, -, -, h3⟩⟩
    · exact absurd (h3.2.symm.trans ho.2) (by decide)
    · exact hs h3
    · refine hn fun y hy hye => h3 y ?_ hye
      obtain ⟨p', i, j, hp', hij, hi', hj⟩ := hy
      obtain ⟨k, hk⟩ := List.getElem?_of_mem hk
      have e1 := (wf.link p' j x hp' hj).1
      have e2 := (wf.link p k x hp hk).1
      rw [e1] at e2; cases e2
      exact List.mem_of_getElem? hi'
  · intro hno
    by_cases hn : NoneBefore h r x
    · exact checked_html wf hn
    · constructor
      · intro hc
        rcases hc with h3 | ⟨ho, h3⟩
        · exact .inl h3
        · by_cases hs : HasAttr h "selected".toList x
          · exact .inr ⟨ho, .inl hs⟩
          · exact absurd ⟨.inr ⟨ho, h3⟩, ho, hs, hn⟩ hno
      · rintro (h3 | ⟨ho, h3 | ⟨p, hp, hk, h4, h5, h6, h7⟩⟩)
        · exact .inl h3
        · exact .inr ⟨ho, .inl h3⟩
        · refine .inr ⟨ho, .inr ⟨⟨p, hp, hk, h4, h5⟩, h6, ?_⟩⟩
          rintro y ⟨p', i, j, hp', hij, hi', hj⟩ hye
          obtain ⟨k, hk⟩ := List.getElem?_of_mem hk
          have e1 := (wf.link p' i x hp' hi').1
          have e2 := (wf.link p k x hp hk).1
          rw [e1] at e2; cases e2
          exact h7 y (List.mem_of_getElem? hj) hye

/-- An attribute table with one attribute without a value. -/
def flag (k : String) : Meta := { attrs := [{ key := some k.toList }], lcMap := [(k.toList, 0)] }

/-- `<select><optgroup><option selected></option></optgroup><option></option></select>`
`<input type=checkbox checked><select><option></option><option></option></select>` -/
def form : Heap := heapOf
  [rootN [1, 5, 6], el "select" 0 0 [2, 4], el "optgroup" 1 0 [3], el "option" 2 0 [] (flag "selected"), el "option" 1 1,
   el "input" 0 1 [] { attrs := [{ key := some "type".toList, value := some "Checkbox".toList }, { key := some "checked".toList }],
                       lcMap := [("type".toList, 0), ("checked".toList, 1)] },
   el "select" 0 2 [7, 8], el "option" 6 0, el "option" 6 1]

theorem form_wf : TreeWF form 0 := wfCheck_sound (by decide)
theorem form_env : EnvOk form 0 env0 := envCheck_sound form_wf (by decide) (fun i e h => by cases h)

theorem form_elems {l : List Nat} (hl : ∀ x ∈ l, x ∈ [1, 2, 3, 4, 5, 6, 7, 8]) : Elems form 0 l := by
  intro x hx
  have := hl x hx
  simp only [List.mem_cons, List.not_mem_nil, or_false] at this
  rcases this with rfl | rfl | rfl | rfl | rfl | rfl | rfl | rfl
  · exact ⟨wfCheck_within [0] (by decide) rfl, by decide⟩
  · exact ⟨wfCheck_within [0, 1] (by decide) rfl, by decide⟩
  · exact ⟨wfCheck_within [0, 1, 2] (by decide) rfl, by decide⟩
  · exact ⟨wfCheck_within [0, 1] (by decide) rfl, by decide⟩
  · exact ⟨wfCheck_within [0] (by decide) rfl, by decide⟩
  · exact ⟨wfCheck_within [0] (by decide) rfl, by decide⟩
  · exact ⟨wfCheck_within [0, 6] (by decide) rfl, by decide⟩
  · exact ⟨wfCheck_within [0, 6] (by decide) rfl, by decide⟩

example : Elems form 0 [1, 2, 3, 5, 6, 7, 8] ∧ filterQ form env0 [1, 2, 3, 5, 6, 7, 8] (sel1 .checked) = .ok [3, 5, 7] :=
  ⟨form_elems (by decide), by decide⟩

/-- C49 is false as stated: an option counts as the default although an option in an `optgroup` before it is
selected. -/
theorem C49_fails : filterQ form env0 [4] (sel1 .checked) = .ok [4] ∧ ¬ CheckedHtml form 0 4 := by
  refine ⟨by decide, ?_⟩
  rintro (⟨h1, _⟩ | ⟨_, h1 | ⟨p, hp, hx, _, _, _, h2⟩⟩)
  · exact absurd h1.2 (by decide)
  · exact absurd h1 (by unfold HasAttr; decide)
  · have e1 : p = 1 := by
      obtain ⟨i, hi⟩ := List.getElem?_of_mem hx
      have := (form_wf.link p i 4 hp hi).1
      exact (Option.some.inj (this.symm.trans (by decide : form.parent 4 = some 1)))
    subst e1
    refine h2 2 (by decide) (by decide) (.inside ?_ (c := 3) (by decide) (by decide) (.here ?_ ?_))
    · rintro ⟨_, h3⟩; exact absurd h3 (by decide)
    · exact ⟨by decide, by decide⟩
    · unfold HasAttr; decide

/-! ## C50 -/

/-- C50: `:empty` on every set in every order. -/
theorem C50_empty (wf : TreeWF h r) (ev : Metas h r) {X : List Nat} (hX : Elems h r X) :
    filterQ h env X (sel1 .empty) = .ok (X.filter fun x => decide (∀ c ∈ h.kids x, (h.node c).kind = .comment)) := by
  rw [filter_one wf ev rfl hX]
  refine congrArg _ (List.filter_congr fun x _ => ?_)
  rw [decide_eq_decide, Sim.Sat]

/-- C50: `:root` on every set in every order. -/
theorem C50_root (wf : TreeWF h r) (ev : Metas h r) {X : List Nat} (hX : Elems h r X) :
    filterQ h env X (sel1 .root) =
      .ok (X.filter fun x => decide (Named h "html".toList x ∧ x ∈ h.kids r ∧ env.isDoc r = true)) := by
  rw [filter_one wf ev rfl hX]
  refine congrArg _ (List.filter_congr fun x _ => ?_)
  rw [decide_eq_decide, Sim.Sat]

/-- `<html><html></html><p><!----></p><p>a</p></html>` -/
def page : Heap := heapOf
  [rootN [1], el "HTML" 0 0 [2, 3, 5], el "html" 1 0, el "p" 1 1 [4],
   { kind := .comment, parent := some 3, index := 0, root := some 0 }, el "p" 1 2 [6], txt "a" 5 0]

example : TreeWF page 0 ∧ filterQ page env0 [5, 3, 2, 1] (sel1 .root) = .ok [1] ∧ filterQ page env0 [5, 3, 2, 1] (sel1 .empty) = .ok [3, 2] :=
  ⟨wfCheck_sound (by decide), by decide, by decide⟩

/-! ## C51 -/

theorem tyAlt_sat (wf : TreeWF h r) {ns : List String} {x : Nat} (hx : Within h r x) (he : h.isElem x = true) :
    anySat h r env (ns.map tyAlt) x ↔ ∃ n ∈ ns, Named h n.toList x := by
  induction ns with
  | nil => simp [anySat]
  | cons n ns ih =>
    have := sel1_sat (env := env) (s := .name n.toList) wf hx he
    rw [sel1, anySat, anySat, or_false, Sim.Sat] at this
    rw [List.map_cons, anySat, ih, tyAlt, this]
    simp only [List.mem_cons, exists_eq_or_imp]

theorem named_unique {n m : List Char} {x : Nat} (h1 : Named h n x) (h2 : Named h m x) : SameIgnoringCase n m :=
  h1.2.symm.trans h2.2

theorem tyAlt_apart (wf : TreeWF h r) {ns : List String} (hd : ns.Pairwise fun a b => ¬ SameIgnoringCase a.toList b.toList) :
    Apart h r env (ns.map tyAlt) := by
  induction ns with
  | nil => exact trivial
  | cons n ns ih =>
    rw [List.pairwise_cons] at hd
    refine ⟨fun x hx he hs hany => ?_, ih hd.2⟩
    have h1 : Named h n.toList x := by
      have := (tyAlt_sat (env := env) (ns := [n]) wf hx he).1 (by rw [List.map_cons, anySat]; exact Or.inl hs)
      simpa using this
    obtain ⟨m, hm, h2⟩ := (tyAlt_sat wf hx he).1 hany
    exact hd.1 m hm (named_unique h1 h2)

theorem tyAlt_filter (wf : TreeWF h r) (ev : Metas h r) {ns : List String}
    (hd : ns.Pairwise fun a b => ¬ SameIgnoringCase a.toList b.toList) {X : List Nat} (hX : Elems h r X) (hs : DocSorted h r X) :
    filterQ h env X (sel1 (.alias (ns.map tyAlt))) = .ok (X.filter fun x => decide (∃ n ∈ ns, Named h n.toList x)) := by
  have hq : ListQ.lists h r .doc X := ⟨hs, docSorted_sibAsc wf (fun x hx => (hX x hx).1) hs⟩
  have hok : Sim.Ok h r env true (.alias (ns.map tyAlt)) .doc .list := by
    rw [Sim.Ok]
    refine ⟨apart_unionOk (tyAlt_apart wf hd), basicTest_innersOk (fun cx hcx => ?_) fun cx hcx => ?_⟩
    rotate_left
    · obtain ⟨n, _, rfl⟩ := List.mem_map.1 hcx
      simp [tyAlt]
    obtain ⟨n, _, rfl⟩ := List.mem_map.1 hcx
    exact ⟨⟨by simp [tyAlt], by simp [tyAlt, Comb.down, Sim.basic]⟩, by simp [tyAlt]⟩
  rw [C22_filter_exact_partial (q := .doc) wf ev (sel1_innersOk hok) (Or.inl (by simp [sel1])) hX hq]
  refine congrArg _ (List.filter_congr fun x hx => ?_)
  rw [decide_eq_decide, sel1_sat wf (hX x hx).1 (hX x hx).2, Sim.Sat, tyAlt_sat wf (hX x hx).1 (hX x hx).2]

/-- C51: `:header`. -/
theorem C51_header (wf : TreeWF h r) (ev : Metas h r) {X : List Nat} (hX : Elems h r X) (hs : DocSorted h r X) :
    filterQ h env X (sel1 (.alias headerSel)) =
      .ok (X.filter fun x => decide (∃ n ∈ ["h1", "h2", "h3", "h4", "h5", "h6"], Named h n.toList x)) :=
  tyAlt_filter wf ev (by decide) hX hs

/-- C51: `:input`. -/
theorem C51_input (wf : TreeWF h r) (ev : Metas h r) {X : List Nat} (hX : Elems h r X) (hs : DocSorted h r X) :
    filterQ h env X (sel1 (.alias inputSel)) =
      .ok (X.filter fun x => decide (∃ n ∈ ["input", "select", "textarea", "button"], Named h n.toList x)) :=
  tyAlt_filter wf ev (by decide) hX hs

/-- C51: `:submit`. -/
theorem C51_submit (wf : TreeWF h r) (ev : Metas h r) {X : List Nat} (hX : Elems h r X) (hs : DocSorted h r X) :
    filterQ h env X (sel1 (.alias submitSel)) =
      .ok (X.filter fun x => decide ((Named h "input".toList x ∨ Named h "button".toList x) ∧
        viewOf (h.node x).attrs "type".toList = some (some "submit".toList))) := by
  have hq : ListQ.lists h r .doc X := ⟨hs, docSorted_sibAsc wf (fun x hx => (hX x hx).1) hs⟩
  have hsat : ∀ (n : String) (x : Nat), Within h r x → h.isElem x = true →
      (Sel h r (· = r) (steps h r env [(.childrenAll, [.name n.toList, .attrTest "type".toList .equals "submit".toList])]) x ↔
        Named h n.toList x ∧ viewOf (h.node x).attrs "type".toList = some (some "submit".toList)) := by
    intro n x hx he
    have hb : Below h r x := by
      rcases within_cases hx with rfl | hb
      · exact absurd rfl (elem_ne_root wf he)
      · exact hb
    rw [steps, steps, step]
    constructor
    · rintro ⟨_, h2, _⟩
      have := of_decide_eq_true h2
      rw [cmpdSat, cmpdSat, cmpdSat, Sim.Sat, Sim.Sat] at this
      refine ⟨this.1, ?_⟩
      obtain ⟨v, hv, ht⟩ := this.2.1
      cases v with
      | none => exact absurd ht (by decide)
      | some v => rw [hv, ← ht]; rfl
    · rintro ⟨h1, h2⟩
      refine ⟨he, decide_eq_true ?_, r, rfl, hb⟩
      rw [cmpdSat, cmpdSat, cmpdSat, Sim.Sat, Sim.Sat]
      exact ⟨h1, ⟨_, h2, rfl⟩, trivial⟩
  have hany : ∀ x, Within h r x → h.isElem x = true → (anySat h r env submitSel x ↔
      (Named h "input".toList x ∨ Named h "button".toList x) ∧
        viewOf (h.node x).attrs "type".toList = some (some "submit".toList)) := by
    intro x hx he
    rw [submitSel, List.map_cons, List.map_cons, List.map_nil, anySat, anySat, anySat, hsat _ x hx he, hsat _ x hx he]
    rw [or_false, ← or_and_right]
  have hok : Sim.Ok h r env true (.alias submitSel) .doc .list := by
    rw [Sim.Ok]
    refine ⟨apart_unionOk ?_, basicTest_innersOk (fun cx hcx => ?_) fun cx hcx => ?_⟩
    · refine ⟨fun x hx he hs hany => ?_, fun x hx he hs hany => ?_, trivial⟩
      · rw [List.map_cons, List.map_nil, anySat, anySat, or_false, hsat _ x hx he] at hany
        exact absurd (named_unique ((hsat _ x hx he).1 hs).1 hany.1) (by decide)
      · rw [List.map_nil, anySat] at hany; exact hany
    · obtain ⟨n, _, rfl⟩ := List.mem_map.1 hcx
      exact ⟨⟨by simp, by simp [Comb.down, Sim.basic]⟩, by simp⟩
    · obtain ⟨n, _, rfl⟩ := List.mem_map.1 hcx
      simp
  rw [C22_filter_exact_partial (q := .doc) wf ev (sel1_innersOk hok) (Or.inl (by simp [sel1])) hX hq]
  refine congrArg _ (List.filter_congr fun x hx => ?_)
  rw [decide_eq_decide, sel1_sat wf (hX x hx).1 (hX x hx).2, Sim.Sat, hany x (hX x hx).1 (hX x hx).2]

example : filterQ form env0 [1, 2, 3, 4, 5, 6] (sel1 (.alias inputSel)) = .ok [1, 5, 6] := by decide

end Visdom
