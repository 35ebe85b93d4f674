import Verif.Props.AddExact
import Verif.Spec.Reach
import Mathlib.Data.List.Sort
/-!
# C96: the alternatives of a selector in a good order

`find("a, b")` and `add` can lose elements (C15, C20). They do not when the alternative whose last result lies furthest down comes
first. So one of `a.add(b)` and `b.add(a)` is right, and of every list of selectors some arrangement is right.
-/
namespace Visdom
open Spec
variable {h : Heap} {r : Nat} {env : Env} {rt : Bool}

theorem last_most (wf : TreeWF h r) {F : List Nat} (hF : ∀ x ∈ F, Within h r x) (sF : DocSorted h r F) {e : Nat}
    (he : F.getLast? = some e) {x : Nat} (hx : x ∈ F) : x = e ∨ Before h r x e := by
  obtain ⟨l, rfl⟩ := List.getLast?_eq_some_iff.1 he
  rw [List.mem_append, List.mem_singleton] at hx
  rcases hx with hx | rfl
  · exact Or.inr ((List.pairwise_append.1 sF).2.2 x hx e (by simp))
  · exact Or.inl rfl

theorem asFar_no_spill (wf : TreeWF h r) {F S : List Nat} (hF : ∀ x ∈ F, Within h r x) (hS : ∀ x ∈ S, Within h r x)
    (sF : DocSorted h r F) (hfar : AsFar h r F S) : ∀ e, F.getLast? = some e → e ∈ S → ∀ s ∈ S, ¬ Before h r e s := by
  intro e he _ s hs hb
  have heF := List.mem_of_getLast? he
  obtain ⟨x, hx, hsx⟩ := hfar s hs
  have h1 : Before h r e x := by
    rcases hsx with rfl | hsx
    · exact hb
    · exact before_trans wf (hF e heF) (hS s hs) (hF x hx) hb hsx
  rcases last_most wf hF sF he hx with rfl | h2
  · exact before_irrefl wf (hF _ hx) h1
  · exact before_asymm wf (hF e heF) (hF x hx) h1 h2

theorem asFar_total (wf : TreeWF h r) {A B : List Nat} (hA : ∀ x ∈ A, Within h r x) (hB : ∀ x ∈ B, Within h r x)
    (sA : DocSorted h r A) (sB : DocSorted h r B) : AsFar h r A B ∨ AsFar h r B A := by
  cases ha : A.getLast? with
  | none => rw [List.getLast?_eq_none_iff] at ha; subst ha; exact Or.inr fun y hy => by cases hy
  | some a =>
    cases hb : B.getLast? with
    | none => rw [List.getLast?_eq_none_iff] at hb; subst hb; exact Or.inl fun y hy => by cases hy
    | some b =>
      have haA := List.mem_of_getLast? ha
      have hbB := List.mem_of_getLast? hb
      have key : ∀ {F G : List Nat} {f g : Nat}, (∀ x ∈ F, Within h r x) → (∀ x ∈ G, Within h r x) → DocSorted h r G → F.getLast? = some f →
          G.getLast? = some g → g = f ∨ Before h r g f → AsFar h r F G := by
        intro F G f g hF hG sG hf hg hgf y hy
        have hfF := List.mem_of_getLast? hf
        have hgG := List.mem_of_getLast? hg
        refine ⟨f, hfF, ?_⟩
        rcases last_most wf hG sG hg hy with rfl | h1
        · exact hgf
        · rcases hgf with rfl | h2
          · exact Or.inr h1
          · exact Or.inr (before_trans wf (hG y hy) (hG g hgG) (hF f hfF) h1 h2)
      rcases before_trichotomy wf (hA a haA) (hB b hbB) with h1 | h1 | h1
      · exact Or.inr (key hB hA sA hb ha (Or.inr h1))
      · exact Or.inl (key hA hB sB ha hb (Or.inl h1.symm))
      · exact Or.inl (key hA hB sB ha hb (Or.inr h1))

theorem asFar_trans (wf : TreeWF h r) {A B C : List Nat} (hA : ∀ x ∈ A, Within h r x) (hB : ∀ x ∈ B, Within h r x)
    (hC : ∀ x ∈ C, Within h r x) (h1 : AsFar h r A B) (h2 : AsFar h r B C) : AsFar h r A C := by
  intro z hz
  obtain ⟨y, hy, hzy⟩ := h2 z hz
  obtain ⟨x, hx, hyx⟩ := h1 y hy
  refine ⟨x, hx, ?_⟩
  rcases hzy with rfl | hzy
  · exact hyx
  · rcases hyx with rfl | hyx
    · exact Or.inr hzy
    · exact Or.inr (before_trans wf (hC z hz) (hB y hy) (hA x hx) hzy hyx)

/-- **C96**: one of `a.add(b)` and `b.add(a)` is the union in document order, for every two sets in document order. -/
theorem C96_add (wf : TreeWF h r) {F S : List Nat} (hF : ∀ x ∈ F, Within h r x) (hS : ∀ x ∈ S, Within h r x)
    (sF : DocSorted h r F) (sS : DocSorted h r S) :
    (∃ l, addElems h F S = .ok l ∧ DocSorted h r l ∧ l.Nodup ∧ ∀ x, x ∈ l ↔ x ∈ F ∨ x ∈ S) ∨
      ∃ l, addElems h S F = .ok l ∧ DocSorted h r l ∧ l.Nodup ∧ ∀ x, x ∈ l ↔ x ∈ F ∨ x ∈ S := by
  rcases asFar_total wf hF hS sF sS with hf | hf
  · exact Or.inl (C15_add_union_partial wf hF hS sF sS (asFar_no_spill wf hF hS sF hf))
  · obtain ⟨l, h1, h2, h3, h4⟩ := C15_add_union_partial wf hS hF sS sF (asFar_no_spill wf hS hF sS hf)
    exact Or.inr ⟨l, h1, h2, h3, fun x => (h4 x).trans or_comm⟩

theorem findProcs_far (wf : TreeWF h r) {S : List Nat} (hne : S ≠ []) {A : Complex → List Nat} : ∀ {sel : List Complex} {F : List Nat},
    (∀ c ∈ sel, find h env S [c] = .ok (A c) ∧ (∀ x ∈ A c, Within h r x) ∧ DocSorted h r (A c)) → (∀ x ∈ F, Within h r x) →
    DocSorted h r F → (F ≠ [] → ∀ c ∈ sel, AsFar h r F (A c)) → (sel.Pairwise fun c d => AsFar h r (A c) (A d)) →
    ∃ res, findProcs h S (findSel h env sel) F = .ok res ∧ DocSorted h r res ∧ (∀ x ∈ res, Within h r x) ∧
      ∀ x, x ∈ res ↔ x ∈ F ∨ ∃ c ∈ sel, x ∈ A c
  | [], F, _, hF, sF, _, _ => ⟨F, rfl, sF, hF, fun x => by simp⟩
  | c :: cs, F, hsel, hF, sF, hfar, hp => by
    obtain ⟨hc, wc, sc⟩ := hsel c List.mem_cons_self
    rw [List.pairwise_cons] at hp
    have hrest := fun d hd => hsel d (List.mem_cons_of_mem _ hd)
    rw [find_single hne] at hc
    by_cases hAe : A c = []
    · obtain ⟨res, h1, h2, h3, h4⟩ := findProcs_far wf hne hrest hF sF (fun hn d hd => hfar hn d (List.mem_cons_of_mem _ hd)) hp.2
      refine ⟨res, ?_, h2, h3, fun x => ?_⟩
      · rw [findSel, List.map_cons, findProcs, hc, hAe]
        exact h1
      · rw [h4]
        simp [hAe]
    · have hadd : ∃ l, addElems h F (A c) = .ok l ∧ DocSorted h r l ∧ ∀ x, x ∈ l ↔ x ∈ F ∨ x ∈ A c := by
        by_cases hFe : F = []
        · subst hFe
          exact ⟨A c, by simp [addElems], sc, by simp⟩
        · obtain ⟨l, k1, k2, _, k4⟩ := C15_add_union_partial wf hF wc sF sc
            (asFar_no_spill wf hF wc sF (hfar hFe c List.mem_cons_self))
          exact ⟨l, k1, k2, k4⟩
      obtain ⟨l, k1, k2, k3⟩ := hadd
      have wl : ∀ x ∈ l, Within h r x := fun x hx => ((k3 x).1 hx).elim (hF x) (wc x)
      obtain ⟨res, h1, h2, h3, h4⟩ := findProcs_far wf hne hrest wl k2
        (fun _ d hd y hy => by
          obtain ⟨x, hx, hyx⟩ := hp.1 d hd y hy
          exact ⟨x, (k3 x).2 (Or.inr hx), hyx⟩) hp.2
      refine ⟨res, ?_, h2, h3, fun x => ?_⟩
      · rw [findSel, List.map_cons, findProcs, hc]
        simp only [List.isEmpty_iff, hAe, if_false, k1]
        exact h1
      · rw [h4, k3]
        simp [or_assoc]

/-- **C96**: `find` with a list of selectors, each of which answers in document order, and each of which reaches as far as those
behind it: the union, in document order, each element once. Nothing is assumed about the selectors themselves. -/
theorem C96_find_far (wf : TreeWF h r) {S : List Nat} (hne : S ≠ []) {A : Complex → List Nat} {sel : List Complex}
    (hsel : ∀ c ∈ sel, find h env S [c] = .ok (A c) ∧ (∀ x ∈ A c, Within h r x) ∧ DocSorted h r (A c))
    (hp : sel.Pairwise fun c d => AsFar h r (A c) (A d)) :
    ∃ res, find h env S sel = .ok res ∧ DocSorted h r res ∧ res.Nodup ∧ ∀ x, x ∈ res ↔ ∃ c ∈ sel, x ∈ A c := by
  obtain ⟨res, h1, h2, h3, h4⟩ := findProcs_far wf hne (env := env) (F := []) hsel (by simp) .nil (fun k => absurd rfl k) hp
  refine ⟨res, ?_, h2, docSorted_nodup wf h3 h2, by simpa using h4⟩
  unfold find findSelector
  rw [if_neg (by simpa using hne)]
  exact h1

/-- **C96**: every list of selectors that answer in document order one by one can be arranged so that `find` is their union. -/
theorem C96_find (wf : TreeWF h r) {S : List Nat} (hne : S ≠ []) {A : Complex → List Nat} {sel : List Complex}
    (hsel : ∀ c ∈ sel, find h env S [c] = .ok (A c) ∧ (∀ x ∈ A c, Within h r x) ∧ DocSorted h r (A c)) :
    ∃ sel' res, sel'.Perm sel ∧ find h env S sel' = .ok res ∧ DocSorted h r res ∧ res.Nodup ∧ ∀ x, x ∈ res ↔ ∃ c ∈ sel, x ∈ A c := by
  classical
  let T := { c : Complex // (∀ x ∈ A c, Within h r x) ∧ DocSorted h r (A c) }
  let R : T → T → Prop := fun c d => AsFar h r (A c.1) (A d.1)
  haveI : Std.Total R := ⟨fun c d => asFar_total wf c.2.1 d.2.1 c.2.2 d.2.2⟩
  haveI : IsTrans T R := ⟨fun c d e => asFar_trans wf c.2.1 d.2.1 e.2.1⟩
  let L : List T := sel.attach.map fun c => ⟨c.1, (hsel c.1 c.2).2⟩
  have hL : L.map (·.1) = sel := by simp [L]
  have hperm := List.perm_insertionSort R L
  have hpw := List.pairwise_insertionSort R L
  have hp' : ((List.insertionSort R L).map (·.1)).Perm sel := hL ▸ hperm.map _
  obtain ⟨res, h1, h2, h3, h4⟩ := C96_find_far (sel := (List.insertionSort R L).map (·.1)) wf hne (A := A) (env := env)
    (fun c hc => hsel c (hp'.mem_iff.1 hc)) (List.pairwise_map.2 hpw)
  refine ⟨_, res, hp', h1, h2, h3, fun x => (h4 x).trans ?_⟩
  simp only [hp'.mem_iff]

/-- **C96** for common selectors with descendant combinators: some arrangement of the list finds exactly the elements that one of
them selects. -/
theorem C96_find_common (wf : TreeWF h r) (ev : Metas h r) (sm : Small h r) (gr : Grounded h r env rt) {sel : List Complex}
    (hc : ∀ cx ∈ sel, Common rt cx ∧ Steady cx ∧ ∀ s ∈ cx, s.1 = Comb.childrenAll) {S : List Nat} (hne : S ≠ [])
    (hS : Nodes h r S) (hs : DocSorted h r S) :
    ∃ sel' res, sel'.Perm sel ∧ find h env S sel' = .ok res ∧ DocSorted h r res ∧ res.Nodup ∧
      ∀ e, e ∈ res ↔ ∃ cx ∈ sel, Sel h r (· ∈ S) (steps h r env cx) e := by
  have key : ∀ c, ∃ A : List Nat, c ∈ sel → find h env S [c] = .ok A ∧ DocSorted h r A ∧ ∀ x, x ∈ A ↔ Sel h r (· ∈ S) (steps h r env c) x := by
    intro c
    by_cases hm : c ∈ sel
    · obtain ⟨A, h1, h2, _, h3⟩ := C18_find_common wf ev sm gr (hc c hm).1 (hc c hm).2.1 (hc c hm).2.2 hS hs
      exact ⟨A, fun _ => ⟨h1, h2, h3⟩⟩
    · exact ⟨[], fun k => absurd k hm⟩
  choose A hA using key
  obtain ⟨sel', res, h1, h2, h3, h4, h5⟩ := C96_find wf hne (A := A) (sel := sel) (env := env) fun c hm =>
    ⟨(hA c hm).1, fun x hx => sel_inside (fun y hy => (hS y hy).1) x (((hA c hm).2.2 x).1 hx), (hA c hm).2.1⟩
  refine ⟨sel', res, h1, h2, h3, h4, fun e => (h5 e).trans ?_⟩
  constructor
  · rintro ⟨c, hm, he⟩; exact ⟨c, hm, ((hA c hm).2.2 e).1 he⟩
  · rintro ⟨c, hm, he⟩; exact ⟨c, hm, ((hA c hm).2.2 e).2 he⟩

/-- The hypotheses of `C96_find` for `div, *` in the sample document. -/
example : ∃ sel' res, sel'.Perm [[(Comb.childrenAll, [ty "div"])], [(.childrenAll, [.all])]] ∧ find demo env0 [0] sel' = .ok res ∧ DocSorted demo 0 res ∧
    ∀ x, x ∈ res ↔ x ∈ [1, 2, 5, 6, 7, 8, 9] := by
  have w : ∀ l : List Nat, (∀ x ∈ l, x ∈ [1, 2, 5, 6, 7, 8, 9]) → ∀ x ∈ l, Within demo 0 x := fun l hl x hx =>
    demo_within (l := [1, 2, 5, 6, 7, 8, 9]) (by decide) x (hl x hx)
  have hd : ∀ c ∈ [[(Comb.childrenAll, [ty "div"])], [(.childrenAll, [.all])]], ∃ A, find demo env0 [0] [c] = .ok A ∧ (∀ x ∈ A, Within demo 0 x) ∧
      DocSorted demo 0 A ∧ ((c = [(.childrenAll, [.all])] ∧ A = [1, 2, 5, 6, 7, 8, 9]) ∨ A = [1, 5]) := by
    intro c hc
    simp only [List.mem_cons, List.not_mem_nil, or_false] at hc
    rcases hc with rfl | rfl
    · exact ⟨[1, 5], by decide, w _ (by decide), sorted_of_klt demo_wf (w _ (by decide)) (by decide), Or.inr rfl⟩
    · exact ⟨[1, 2, 5, 6, 7, 8, 9], by decide, w _ (by decide), sorted_of_klt demo_wf (w _ (by decide)) (by decide), Or.inl ⟨rfl, rfl⟩⟩
  choose! A h1 h2 h3 h4 using hd
  obtain ⟨sel', res, k1, k2, k3, _, k5⟩ := C96_find demo_wf (S := [0]) (by simp) (A := A) fun c hc => ⟨h1 c hc, h2 c hc, h3 c hc⟩
  refine ⟨sel', res, k1, k2, k3, fun x => (k5 x).trans ⟨?_, fun hx => ?_⟩⟩
  · rintro ⟨c, hc, hx⟩
    rcases h4 c hc with ⟨_, e⟩ | e <;> rw [e] at hx
    · exact hx
    · revert x; decide
  · refine ⟨[(.childrenAll, [.all])], by simp, ?_⟩
    have : A [(.childrenAll, [.all])] = [1, 2, 5, 6, 7, 8, 9] := by
      have e := h1 [(.childrenAll, [.all])] (by simp)
      have e' : find demo env0 [0] [[(.childrenAll, [.all])]] = .ok [1, 2, 5, 6, 7, 8, 9] := by decide
      rw [e] at e'
      exact Except.ok.inj e'
    rw [this]; exact hx

/-- `find("div, *")` loses elements, `find("*, div")` does not. -/
example : find demo env0 [0] [[(.childrenAll, [ty "div"])], [(.childrenAll, [.all])]] = .ok [1, 2, 5] ∧
    find demo env0 [0] [[(.childrenAll, [.all])], [(.childrenAll, [ty "div"])]] = .ok [1, 2, 5, 6, 7, 8, 9] ∧
    addElems demo [1] [1, 8] = .ok [1] ∧ addElems demo [1, 8] [1] = .ok [1, 8] := by decide

end Visdom
