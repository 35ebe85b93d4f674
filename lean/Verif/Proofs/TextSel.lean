import Verif.Proofs.ParseLoop
/-!
# The matchers of a parsed text are the matchers of the selector it denotes
-/
namespace Visdom
open Spec

variable (h : Heap) (env : Env)

theorem innerSel_map (sel : List Complex) : innerSel h env sel = sel.map fun c => optimizeGroup false (cplxCmpds h env c) := by
  induction sel with
  | nil => rfl
  | cons c cs ih => rw [innerSel, ih]; rfl

theorem header_groups : parseGroups headerText = .ok (.ok (["h1", "h2", "h3", "h4", "h5", "h6"].map fun n =>
    [[(Part.name n.toList, Comb.childrenAll)]])) := by decide
theorem input_groups : parseGroups inputText = .ok (.ok (["input", "select", "textarea", "button"].map fun n =>
    [[(Part.name n.toList, Comb.childrenAll)]])) := by decide
theorem submit_groups : parseGroups submitText = .ok (.ok (["input", "button"].map fun n =>
    [[(Part.name n.toList, Comb.childrenAll), (Part.attr "type".toList .eq (some "submit".toList), Comb.chain)]])) := by decide

theorem header_fromStr (k : Nat) : fromStr h env (k + 1) false headerText = .ok (.ok (innerSel h env headerSel)) := by
  rw [fromStr, header_groups]; rfl
theorem input_fromStr (k : Nat) : fromStr h env (k + 1) false inputText = .ok (.ok (innerSel h env inputSel)) := by
  rw [fromStr, input_groups]; rfl
theorem submit_fromStr (k : Nat) : fromStr h env (k + 1) false submitText = .ok (.ok (innerSel h env submitSel)) := by
  rw [fromStr, submit_groups]; rfl

theorem textApply_eq {rd : List Char → R (Except ParseErr (List Proc))} {f : List Nat → List Proc → R (List Nat)}
    {t : List Char} {sel : List Proc} (hrd : rd t = .ok (.ok sel)) (hf : ∀ l, l.isEmpty = true → f l sel = .ok []) :
    textApply rd f t = { all := some fun l _ => f l sel, priority := 10 } := by
  unfold textApply
  congr 2
  funext l _
  cases hl : l.isEmpty with
  | true => simp only [if_true, hf l hl]
  | false => simp only [Bool.false_eq_true, if_false, hrd]

theorem isPart_matcher {N : List Complex → List Char → Prop} {rd : List Char → R (Except ParseErr (List Proc))} {s : Sim} {p : Part}
    (hp : IsPart N s p) (hN : ∀ sel t, N sel t → rd t = .ok (.ok (innerSel h env sel)))
    (h1 : rd headerText = .ok (.ok (innerSel h env headerSel))) (h2 : rd inputText = .ok (.ok (innerSel h env inputSel)))
    (h3 : rd submitText = .ok (.ok (innerSel h env submitSel))) : partMatcher h env rd p = simMatcher h env s := by
  have hfil : ∀ sel l, l.isEmpty = true → filterSel h l sel = .ok [] := fun sel l hl => by rw [filterSel, if_pos hl]
  cases hp with
  | @nth last ofType a b n i hn hi hb =>
    have hbad : ((some n).map parseIsize == some none || i.map parseIsize == some none) = false := by
      simp only [Bool.or_eq_false_iff, beq_eq_false_iff_ne]
      exact ⟨by simp [hn], hi⟩
    have hga : ∀ t, getAllowedIndexs (some a) (i.bind parseIsize) t = getAllowedIndexs (some a) (some b) t := by
      intro t; simp only [getAllowedIndexs, hb, Option.getD_some]
    cases ofType
    · show textNthMatcher h last false (some n) i = nthChildMatcher h (!last) (some a) (some b)
      simp only [textNthMatcher, hbad, Bool.false_eq_true, if_false, Option.bind_some, hn, nthChildMatcher, hga]
    · show textNthMatcher h last true (some n) i = nthOfTypeMatcher h (!last) (some a) (some b)
      simp only [textNthMatcher, hbad, Bool.false_eq_true, if_false, if_true, Option.bind_some, hn, nthOfTypeMatcher, hga]
  | @nthIdx last ofType b i hi =>
    have hbad : ((none : Option (List Char)).map parseIsize == some none || (some i).map parseIsize == some none) = false := by
      simp [hi]
    cases ofType
    · show textNthMatcher h last false none (some i) = nthChildMatcher h (!last) none (some b)
      simp only [textNthMatcher, hbad, Bool.false_eq_true, if_false, Option.bind_some, hi, Option.bind_none]
    · show textNthMatcher h last true none (some i) = nthOfTypeMatcher h (!last) none (some b)
      simp only [textNthMatcher, hbad, Bool.false_eq_true, if_false, if_true, Option.bind_some, hi, Option.bind_none]
  | @edge last ofType => cases ofType <;> rfl
  | @only ofType => cases ofType <;> rfl
  | @contains v t hne hv =>
    show containsMatcher env.text t = containsMatcher env.text ('"' :: v ++ ['"'])
    have e : containsText ('"' :: v ++ ['"']) = v := by
      have : ('"' :: v ++ ['"']).dropLast = '"' :: v := List.dropLast_concat
      rw [List.cons_append] at this ⊢
      simp [containsText, this]
    have e1 : t.isEmpty = false := by
      cases t with
      | nil => exact absurd rfl hne
      | cons => rfl
    have e2 : ('"' :: v ++ ['"']).isEmpty = false := rfl
    simp only [containsMatcher, e, hv, e1, e2]
  | header => exact textApply_eq h1 (hfil _)
  | input => exact textApply_eq h2 (hfil _)
  | submit => exact textApply_eq h3 (hfil _)
  | not hn => exact textApply_eq (hN _ _ hn) (fun l hl => by rw [notSel, if_pos hl])
  | has hn => exact textApply_eq (hN _ _ hn) (fun l hl => by rw [hasSel, if_pos hl])
  | _ => rfl

theorem segs_matchers {N : List Complex → List Char → Prop} {rd : List Char → R (Except ParseErr (List Proc))}
    (hN : ∀ s p, IsPart N s p → partMatcher h env rd p = simMatcher h env s) {c : Comb} {ss : List Sim} {l : List (Part × Comb)}
    (hl : SegsOf N c ss l) : (l.map fun s => (partMatcher h env rd s.1, s.2)) = simSegs h env c ss := by
  induction hl with
  | nil => rfl
  | cons hp _ ih => rw [List.map_cons, ih, hN _ _ hp]; rfl

theorem group_matchers {N : List Complex → List Char → Prop} {rd : List Char → R (Except ParseErr (List Proc))}
    (hN : ∀ s p, IsPart N s p → partMatcher h env rd p = simMatcher h env s) {c : Complex} {g : List (List (Part × Comb))}
    (hg : GroupOf N c g) : groupCmpds h env rd g = cplxCmpds h env c := by
  induction hg with
  | nil => rfl
  | @cons x y _ _ hs _ ih =>
    have h1 := segs_matchers h env hN hs
    show (y.map fun s => (partMatcher h env rd s.1, s.2)) :: groupCmpds h env rd _ = _
    rw [ih, h1]; cases x; rfl

theorem groups_matchers {N : List Complex → List Char → Prop} {rd : List Char → R (Except ParseErr (List Proc))}
    (hN : ∀ s p, IsPart N s p → partMatcher h env rd p = simMatcher h env s) {sel : List Complex} {gs : PGroups}
    (hg : GroupsOf N sel gs) (lookup : Bool) :
    (gs.map fun g => optimizeGroup lookup (groupCmpds h env rd g)) = sel.map fun c => optimizeGroup lookup (cplxCmpds h env c) := by
  induction hg with
  | nil => rfl
  | cons hs _ ih => rw [List.map_cons, List.map_cons, ih, group_matchers h env hN hs]

/-- `from_str` of a text of a selector. -/
theorem fromStr_core : ∀ (d : Nat) {sel : List Complex} {t w w' : List Char}, CoreD d sel t → Blank w → Blank w' →
    ∀ (k : Nat) (lookup : Bool), fromStr h env (d + k + 2) lookup (w ++ t ++ w') =
      .ok (.ok (sel.map fun c => optimizeGroup lookup (cplxCmpds h env c)))
  | 0, sel, t, w, w', ht, hw, hw', k, lookup => by
    obtain ⟨gs, hgs, hg⟩ := parse_core (P := fun _ _ => False) (fun _ _ h => h.elim) ht hw hw'
    have hN : ∀ s p, IsPart (KeptText fun _ _ => False) s p →
        partMatcher h env (fromStr h env (0 + k + 1) false) p = simMatcher h env s := fun s p hp =>
      isPart_matcher h env hp (fun _ _ ⟨_, _, hf, _⟩ => hf.elim) (header_fromStr h env _) (input_fromStr h env _) (submit_fromStr h env _)
    rw [fromStr, hgs]
    simp only [groups_matchers h env hN hg]
  | d + 1, sel, t, w, w', ht, hw, hw', k, lookup => by
    obtain ⟨gs, hgs, hg⟩ := parse_core (coreD_nestOK d) ht hw hw'
    have e : d + 1 + k + 2 = (d + k + 2) + 1 := by omega
    have hN : ∀ s p, IsPart (KeptText fun sel t => CoreD d sel t ∧ NestLast sel) s p →
        partMatcher h env (fromStr h env (d + k + 2) false) p = simMatcher h env s := fun s p hp => by
      refine isPart_matcher h env hp ?_ (header_fromStr h env _) (input_fromStr h env _) (submit_fromStr h env _)
      rintro sel' u ⟨t', w'', ⟨hc, -⟩, hb, rfl⟩
      have := fromStr_core d hc (w := []) (by simp [Blank]) hb k false
      rw [List.nil_append] at this
      rw [this, innerSel_map]
    rw [e, fromStr, hgs]
    simp only [groups_matchers h env hN hg]

end Visdom
