import Verif.Proofs.ParseLoop
import Verif.Spec.Open
/-!
# The parser on texts that break off inside a simple selector
-/
namespace Visdom
open Spec

/-! ## Patterns at the end of a text -/

theorem execPats_panics {p : Pat} {ps : List Pat} {t u : List Char} {m : Matched} {e : Panic}
    (h1 : p.matched (t ++ u) = .ok (some m)) (hl : m.chars.length + m.ignore = t.length)
    (h2 : execPats ps u = .error e) : execPats (p :: ps) (t ++ u) = .error e := by
  simp only [execPats, h1, hl, List.drop_left, h2]

theorem findRule_panics {r : ParseRule} {rs : List ParseRule} {cs : List Char} {e : Panic}
    (he : execPats r.queues cs = .error e) : findRule (r :: rs) cs = .error e := by
  simp only [findRule, execQueues, he, Except.map]

/-- White space, and no closing character. -/
theorem execPats_unclosed {w : List Char} (c : Char) (hw : Blank w) : execPats [.spaces, .chr c] w = .error .outOfBounds := by
  have := execPats_panics (p := .spaces) (ps := [.chr c]) (u := []) (m := { chars := w }) (e := .outOfBounds)
    (spaces_matched hw stops_nil) (by simp) rfl
  simpa using this

theorem blank_stops {w : List Char} (hw : Blank w) {p : Char → Bool}
    (hp : ∀ y ∈ [' ', '\t', '\n', '\r', Char.ofNat 12], p y = false) : Stops p w := by
  have := stops_append (w := w) (r := []) (p := p) (fun x hx => by
    rcases hw x hx with rfl | rfl | rfl | rfl | rfl <;> exact hp _ (by simp)) stops_nil
  simpa using this

/-- A pattern in parentheses that are not closed. -/
theorem execPats_open {head w t w' : List Char} {p : Pat} {m : Matched} (hw : Blank w) (hw' : Blank w')
    (ht : Stops isAsciiWs (t ++ w')) (hp : p.matched (t ++ w') = .ok (some m)) (hl : m.chars.length + m.ignore = t.length) :
    execPats (callQueues head p) (head ++ (w ++ t ++ w')) = .error .outOfBounds := by
  rw [List.append_assoc]
  exact execPats_panics (lit_matched head _) (by simp) (execPats_panics (spaces_matched hw ht) (by simp)
    (execPats_panics hp hl (execPats_unclosed ')' hw')))

theorem findRule_bracket_open {w k w' t w'' : List Char} {m : Matched} (hw : Blank w) (hk : KeyText k) (hw' : Blank w')
    (ht : Stops isAsciiWs (t ++ w'')) (hs : Stops isCharAvailableInKey (t ++ w''))
    (hm : (Pat.regexp attrCtx).matched (t ++ w'') = .ok (some m)) (hl : m.chars.length + m.ignore = t.length) (hw'' : Blank w'') :
    findRule ruleTable ('[' :: (w ++ k ++ w' ++ t ++ w'')) = .error .outOfBounds := by
  have hskip : findRule ruleTable ('[' :: (w ++ k ++ w' ++ t ++ w'')) =
      findRule (ruleTable.drop 3) ('[' :: (w ++ k ++ w' ++ t ++ w'')) := rfl
  rw [hskip]
  refine findRule_panics (r := attrRule) (rs := ruleTable.drop 4) ?_
  have e : ('[' :: (w ++ k ++ w' ++ t ++ w'') : List Char) = ['['] ++ (w ++ (k ++ (w' ++ (t ++ w'')))) := by simp
  rw [e]
  exact execPats_panics (lit_matched ['['] _) rfl (execPats_panics (spaces_matched hw (keyText_stops hk _)) (by simp)
    (execPats_panics (attrKey_matched hk (stops_append (blank_notKey hw') hs)) (by simp)
      (execPats_panics (spaces_matched hw' ht) (by simp) (execPats_panics hm hl (execPats_unclosed ']' hw'')))))

theorem attrRe_end : attrRe.captures [] = some (0, []) := by decide

theorem findRule_attr_open {w k w' : List Char} (hw : Blank w) (hk : KeyText k) (hw' : Blank w') :
    findRule ruleTable ('[' :: (w ++ k ++ w')) = .error .outOfBounds := by
  have hm : (Pat.regexp attrCtx).matched ([] ++ []) = .ok (some { chars := [] }) := by
    rw [regexp_matched getRule_attr]
    show Except.ok (match attrRe.captures [] with
      | some (len, g) => some ({ chars := ([] : List Char).take len, groups := g } : Matched)
      | none => none) = _
    rw [attrRe_end]
    rfl
  have := findRule_bracket_open (t := []) (w'' := []) hw hk hw' stops_nil stops_nil hm rfl (by simp [Blank])
  simpa using this

theorem findRule_attrTest_open {w k w' w'' v t w''' : List Char} {o : AttrTest} (hw : Blank w) (hk : KeyText k) (hw' : Blank w')
    (hw'' : Blank w'') (hv : ValueText ']' v t) (hw''' : Blank w''') :
    findRule ruleTable ('[' :: (w ++ k ++ w' ++ (testText o ++ '=' :: (w'' ++ t)) ++ w''')) = .error .outOfBounds := by
  have hcap := attrRe_test (o := o) hw'' hv (blank_stops hw''' (p := isBareAttr) (by decide))
  have hm : (Pat.regexp attrCtx).matched ((testText o ++ '=' :: (w'' ++ t)) ++ w''') =
      .ok (some { chars := testText o ++ '=' :: (w'' ++ t), groups := [(valueGroup t, v), (1, testText o)] }) := by
    rw [regexp_matched getRule_attr, hcap]
    simp only [List.take_left]
  obtain ⟨x, r', e, hx1, hx2⟩ := testText_head o (w'' ++ t)
  have hst : ∀ {p : Char → Bool}, p x = false → Stops p ((testText o ++ '=' :: (w'' ++ t)) ++ w''') := by
    intro p hp; rw [e]; exact stops_cons hp
  exact findRule_bracket_open hw hk hw' (hst hx1) (hst hx2) hm rfl hw'''

/-! ## Numbers at the end of a text -/

theorem nthRe_an_end {neg : Bool} {k : Nat} {s t w : List Char} (hs : SignText? neg s) (ht : CoefText k t) (hw : Blank w) :
    nthRe.captures (s ++ t ++ ['n'] ++ w) = some ((s ++ t ++ ['n']).length, capOpt 2 t (capOpt 1 s [])) := by
  have hlen : (s ++ t ++ ['n'] ++ w).length - w.length = (s ++ t ++ ['n']).length := by
    rw [List.length_append, Nat.add_sub_cancel]
  rw [Re.captures, nthRe]
  apply run_alt_left
  rw [run_seq]
  have e : s ++ t ++ ['n'] ++ w = s ++ (t ++ 'n' :: w) := by simp
  conv_lhs => enter [3]; rw [e]
  refine run_sign? hs (coef_stops ht _) _ ?_
  rw [run_seq]
  refine run_coef ht (stops_cons (by decide)) _ ?_
  rw [run_seq, run_chr, run_opt_none]
  · rw [hlen]
  · rw [run_seq]
    apply run_none (q := fun x => isReSpace x = true) _ (show Re.Only _ (.many (.one isReSpace)) from fun x hx => hx)
    intro c' u s' hs' hu
    rw [run_seq, signRe, run_grp]
    apply run_one_fail
    exact blank_stops (fun x hx => hw x (by rw [hs']; exact List.mem_append_right _ hx)) (by decide)

theorem nthRe_idx_end {neg : Bool} {k : Nat} {s t w : List Char} (hs : SignText? neg s) (ht : NumText k t) (hw : Blank w) :
    nthRe.captures (s ++ t ++ w) = some ((s ++ t).length, (6, t) :: capOpt 5 s []) := by
  have hlen : (s ++ t ++ w).length - w.length = (s ++ t).length := by
    rw [List.length_append, Nat.add_sub_cancel]
  rw [Re.captures, nthRe, run_alt_right]
  · rw [run_seq]
    have e : s ++ t ++ w = s ++ (t ++ w) := by simp
    conv_lhs => enter [3]; rw [e]
    refine run_sign? hs (numText_stops ht _ (by decide)) _ ?_
    apply run_number ht (blank_stops hw (by decide))
    rw [hlen]
  · have hall : ∀ x ∈ s ++ t ++ w, (x == 'n') = false := by
      intro x hx
      rcases List.mem_append.1 hx with hx | hx
      · have h1 : isNumSign x = true := by
          rcases List.mem_append.1 hx with hx | hx
          · exact sign?_numSign hs x hx
          · simp [isNumSign, digit_reDigit (digit_iff.1 (ht.1 x hx))]
        cases hxn : (x == 'n') with
        | false => rfl
        | true => rw [eq_of_beq hxn] at h1; exact absurd h1 (by decide)
      · rcases hw x hx with rfl | rfl | rfl | rfl | rfl <;> decide
    rw [run_seq]
    apply run_none (q := fun _ => True) _ (show Re.Only _ (.opt (signRe 1)) from fun x hx => trivial)
    intro c' u s' hs' hu
    rw [run_seq]
    apply run_none (q := fun _ => True) _ (show Re.Only _ (.opt (numberRe 2)) from
      ⟨⟨fun x hx => trivial, fun x hx => trivial, fun x hx => trivial⟩, fun x hx => trivial⟩)
    intro c'' u' s'' hs'' hu'
    rw [run_seq]
    apply run_one_fail
    intro x r hx
    apply hall
    rw [hs', hs'', hx]
    simp

theorem nth_matched_an_end {neg : Bool} {k : Nat} {s t w : List Char} (hs : SignText? neg s) (ht : CoefText k t) (hw : Blank w) :
    nthMatched (s ++ t ++ ['n'] ++ w) =
      some { chars := s ++ t ++ ['n'], n := some (signedText neg (coefText t)), index := none } := by
  have hcap : nthRe.captures _ = _ := nthRe_an_end hs ht hw
  have h6 : capGet (capOpt 2 t (capOpt 1 s [])) 6 = none := by
    unfold capOpt; split <;> split <;> simp [capGet]
  have h4 : capGet (capOpt 2 t (capOpt 1 s [])) 4 = none := by
    unfold capOpt; split <;> split <;> simp [capGet]
  have h2 : (capGet (capOpt 2 t (capOpt 1 s [])) 2).or (some ['1']) = some (coefText t) := by
    unfold capOpt coefText; split <;> split <;> simp [capGet]
  have h1 : (capGet (capOpt 2 t (capOpt 1 s [])) 1 = some ['-']) ↔ neg = true := by
    rw [← sign?_cap hs 1]
    have : capGet (capOpt 2 t (capOpt 1 s [])) 1 = capGet (capOpt 1 s []) 1 := by
      conv_lhs => rw [capOpt]
      split <;> simp [capGet]
    rw [this]
  unfold nthMatched
  rw [hcap]
  simp only [h6, nthNumber, h4, h2, Option.isSome_none, Bool.false_eq_true, if_false, Option.or_none, h1,
    List.take_left]
  simp [signedText]

theorem nth_matched_idx_end {neg : Bool} {k : Nat} {s t w : List Char} (hs : SignText? neg s) (ht : NumText k t) (hw : Blank w) :
    nthMatched (s ++ t ++ w) = some { chars := s ++ t, n := none, index := some (signedText neg t) } := by
  have hcap : nthRe.captures _ = _ := nthRe_idx_end hs ht hw
  have h6 : capGet ((6, t) :: capOpt 5 s []) 6 = some t := by simp [capGet]
  have h5 : (capGet ((6, t) :: capOpt 5 s []) 5 = some ['-']) ↔ neg = true := by
    rw [← sign?_cap hs 5]
    simp [capGet]
  unfold nthMatched
  rw [hcap]
  simp only [h6, nthNumber, h5, Option.isSome_some, if_true, Option.some_or, List.take_left]
  simp [signedText]

theorem nth_matched_end {a b : Int} {t w : List Char} (ht : NthText a b t) (hw : Blank w) :
    ∃ n i, nthMatched (t ++ w) = some { chars := t, n := some n, index := i } := by
  cases ht with
  | @an neg k s t hs ht => exact ⟨_, _, nth_matched_an_end hs ht hw⟩
  | @anb neg neg' k k' s t w s' w' t' hs ht hw1 hs' hw' ht' =>
    exact ⟨_, _, nth_matched_anb hs ht hw1 hs' hw' ht' (blank_stops hw (by decide))⟩
  | even =>
    refine ⟨['2'], some ['0'], ?_⟩
    have hc : nthRe.captures (['e', 'v', 'e', 'n'] ++ w) = none := nthRe_word (by decide) (by decide)
    unfold nthMatched
    rw [hc]
    rfl
  | odd =>
    refine ⟨['2'], some ['1'], ?_⟩
    have hc : nthRe.captures (['o', 'd', 'd'] ++ w) = none := nthRe_word (by decide) (by decide)
    unfold nthMatched
    rw [hc]
    rfl

theorem findRule_nth_open {last ofType : Bool} {w t w' : List Char} {m : Matched} (hw : Blank w) (hw' : Blank w')
    (ht : Stops isAsciiWs (t ++ w')) (hm : nthMatched (t ++ w') = some m) (hl : m.chars.length + m.ignore = t.length) :
    findRule ruleTable (nthHead last ofType ++ (w ++ t ++ w')) = .error .outOfBounds := by
  have he : execPats (nthRule last ofType).queues (nthHead last ofType ++ (w ++ t ++ w')) = .error .outOfBounds :=
    execPats_open hw hw' ht (by show Except.ok (nthMatched _) = _; rw [hm]) hl
  generalize w ++ t ++ w' = y at he ⊢
  cases last <;> cases ofType
  · have hskip : findRule ruleTable (nthHead false false ++ y) = findRule (ruleTable.drop 9) (nthHead false false ++ y) := rfl
    rw [hskip]
    exact findRule_panics (r := nthRule false false) (rs := ruleTable.drop 10) he
  · have hskip : findRule ruleTable (nthHead false true ++ y) = findRule (ruleTable.drop 13) (nthHead false true ++ y) := rfl
    rw [hskip]
    exact findRule_panics (r := nthRule false true) (rs := ruleTable.drop 14) he
  · have hskip : findRule ruleTable (nthHead true false ++ y) = findRule (ruleTable.drop 10) (nthHead true false ++ y) := rfl
    rw [hskip]
    exact findRule_panics (r := nthRule true false) (rs := ruleTable.drop 11) he
  · have hskip : findRule ruleTable (nthHead true true ++ y) = findRule (ruleTable.drop 14) (nthHead true true ++ y) := rfl
    rw [hskip]
    exact findRule_panics (r := nthRule true true) (rs := ruleTable.drop 15) he

theorem findRule_contains_open {v w t w' : List Char} (hw : Blank w) (hv : ValueText ')' v t) (hw' : Blank w') :
    findRule ruleTable ([':', 'c', 'o', 'n', 't', 'a', 'i', 'n', 's', '('] ++ (w ++ t ++ w')) = .error .outOfBounds := by
  obtain ⟨g, hg⟩ := contains_matched hv (blank_stops hw' (p := isBareText) (by decide))
  have hst : Stops isAsciiWs (t ++ w') := by
    intro x r e
    have := valueText_stops hv w' x r e
    cases hx : isAsciiWs x with
    | false => rfl
    | true =>
      exfalso
      simp only [isAsciiWs, Bool.or_eq_true, beq_iff_eq] at hx
      rcases hx with (((rfl | rfl) | rfl) | rfl) | rfl <;> exact absurd this (by decide)
  have hskip : ∀ y : List Char, findRule ruleTable ([':', 'c', 'o', 'n', 't', 'a', 'i', 'n', 's', '('] ++ y) =
    findRule (ruleTable.drop 17) ([':', 'c', 'o', 'n', 't', 'a', 'i', 'n', 's', '('] ++ y) := fun _ => rfl
  rw [hskip]
  exact findRule_panics (r := containsRule) (rs := ruleTable.drop 18) (execPats_open hw hw' hst hg (by simp))

/-! ## What a simple selector that breaks off does -/

/-- How `parse_until` ends on a text that is over: it finds nothing left, or panics. -/
def Ends (n : Nat) (x : R (Except ParseErr (Nat × List Matched))) : Prop := x = .ok (.ok (n, [])) ∨ x = .error .outOfBounds

/-- The texts of `Q` do not begin with white space, and `parse_until` meets the end of the text in them. -/
def EndOK (Q : List Char → Prop) : Prop :=
  ∀ u, Q u → Stops isAsciiWs u ∧ ∀ level, Ends u.length (parseU u u 0 closing level)

theorem openSim_head {Q : List Char → Prop} {v : List Char} (hv : OpenSim Q v) :
    ∃ c v', v = c :: v' ∧ isReSpace c = false ∧ isOp c = false ∧ isAsciiWs c = false ∧ isIdent c = false := by
  cases hv with
  | @nth last ofType => cases last <;> cases ofType <;> exact ⟨_, _, rfl, by decide, by decide, by decide, by decide⟩
  | @nthIdx last ofType => cases last <;> cases ofType <;> exact ⟨_, _, rfl, by decide, by decide, by decide, by decide⟩
  | @nest b => cases b <;> exact ⟨_, _, rfl, by decide, by decide, by decide, by decide⟩
  | _ => exact ⟨_, _, rfl, by decide, by decide, by decide, by decide⟩

/-- Without nesting the rules panic; `:not` and `:has` are recognised. -/
theorem openSim_rule {Q : List Char → Prop} {v : List Char} (hv : OpenSim Q v) :
    findRule ruleTable v = .error .outOfBounds ∨ ∃ b w u, Blank w ∧ Q u ∧ v = nestHead b ++ (w ++ u) := by
  cases hv with
  | cls => exact .inl rfl
  | id => exact .inl rfl
  | attr hw hk hw' => exact .inl (findRule_attr_open hw hk hw')
  | attrTest hw hk hw' hw'' hv hw3 => exact .inl (findRule_attrTest_open hw hk hw' hw'' hv hw3)
  | nth hw ht hw' =>
    obtain ⟨n, i, hm⟩ := nth_matched_end ht hw'
    exact .inl (findRule_nth_open hw hw' (nthText_stops ht _) hm (by simp))
  | nthIdx hw ht hw' =>
    cases ht with
    | mk hs hn => exact .inl (findRule_nth_open hw hw' (idxText_stops (.mk hs hn) _) (nth_matched_idx_end hs hn hw') (by simp))
  | contains hw hv hw' => exact .inl (findRule_contains_open hw hv hw')
  | @nest b w u hw hq => exact .inr ⟨b, w, u, hw, hq, rfl⟩

theorem untilEnd_over {chars : List Char} {idx level : Nat} {w : List Char} (hw : Blank w) :
    untilEnd chars w idx closing level = .error .outOfBounds := by
  have := execPats_unclosed ')' hw
  simp [untilEnd, closing, this]

/-- `parse_until` in front of a simple selector that breaks off. -/
theorem until_open {Q : List Char → Prop} (hQ : EndOK Q) {v : List Char} (hv : OpenSim Q v) (chars : List Char) (idx level : Nat) :
    parseU chars v idx closing level = .error .outOfBounds := by
  obtain ⟨c, v', rfl, h1, h2, -, -⟩ := openSim_head hv
  have hs : execQueues splitterQueues (c :: v') = .ok none := splitter_none (stops_cons h1) (stops_cons h2)
  rcases openSim_rule hv with hr | ⟨b, w, u, hw, hq, e⟩
  · rw [parseU, parseUntil, hs, hr]
    rfl
  · obtain ⟨q1, q2⟩ := hQ u hq
    have hf := findRule_nest b hw q1
    rw [List.append_assoc, ← e] at hf
    have hd : List.drop (nestHead b ++ w).length (c :: v') = u := by rw [e, ← List.append_assoc, List.drop_left]
    have hn : ¬ (2 = (nestRule b).queues.length) := by simp [nestRule, callQueues]
    rcases q2 (level + 1) with hx | hx
    · rw [parseU_nest rfl hs hf hn (by rw [hd]; exact hx), ← List.drop_drop, hd, List.drop_length]
      exact untilEnd_over (by simp [Blank])
    · rw [parseU, parseUntil, hs, hf]
      have hcl : (nestRule b).queues.drop (2 + 1) = closing := rfl
      simp only [if_neg hn, hcl]
      rw [parseUntil_eq (drop_lt rfl (findRule_pos hf)), hd, hx]
      rfl

/-- `from_str` in front of a simple selector that breaks off. -/
theorem step_open {Q : List Char → Prop} (hQ : EndOK Q) {v : List Char} (hv : OpenSim Q v) (st : PState) (hst : st.rest = v) :
    parseStep st = .error .outOfBounds := by
  obtain ⟨c, v', rfl, h1, h2, -, -⟩ := openSim_head hv
  have hs : execQueues splitterQueues (c :: v') = .ok none := splitter_none (stops_cons h1) (stops_cons h2)
  rcases openSim_rule hv with hr | ⟨b, w, u, hw, hq, e⟩
  · simp only [parseStep, hst, hs, selectorStep, hr]
  · obtain ⟨q1, q2⟩ := hQ u hq
    have hf := findRule_nest b hw q1
    rw [List.append_assoc, ← e] at hf
    have hd : List.drop (nestHead b ++ w).length (c :: v') = u := by rw [e, ← List.append_assoc, List.drop_left]
    have hlen : ((2 : Nat) = (nestRule b).queues.length) = False := by simp [nestRule, callQueues]
    have hqq : (nestRule b).queues[2]? = some .nested := rfl
    have hcl : (nestRule b).queues.drop 3 = closing := rfl
    have hmk : makePart (nestRule b).id ([{ chars := nestHead b }, { chars := w }] ++ []) = .error .outOfBounds := by
      cases b <;> rfl
    rcases q2 0 with hx | hx
    · have hx' : parseUntil (u.length + 1) u u 0 closing 0 = _ := hx
      simp only [parseStep, hst, hs, selectorStep, hf, hlen, if_false, hqq, Pat.isNested, if_true, hd, hcl, hx', hmk, Except.map]
    · have hx' : parseUntil (u.length + 1) u u 0 closing 0 = _ := hx
      simp only [parseStep, hst, hs, selectorStep, hf, hlen, if_false, hqq, Pat.isNested, if_true, hd, hcl, hx']

theorem parseAll_panics {st : PState} {e : Panic} (hr : st.rest.isEmpty = false) (hs : parseStep st = .error e) :
    parseAll st = .error e := by
  rw [parseAll, parseLoop_fuel _ st le_rfl _ (st.rest.length + 1) le_rfl (Nat.le_succ _), parseLoop, hr, hs]
  rfl

theorem all_open {Q : List Char → Prop} (hQ : EndOK Q) {v : List Char} (hv : OpenSim Q v) (st : PState) (hst : st.rest = v) :
    parseAll st = .error .outOfBounds := by
  refine parseAll_panics ?_ (step_open hQ hv st hst)
  obtain ⟨c, v', rfl, -⟩ := openSim_head hv
  rw [hst]; rfl

/-! ## From the beginning of a text to the place where it breaks off -/

theorem combText_notIdent {c : Comb} {u : List Char} (hu : CombText c u) (R : List Char) : Stops isIdent (u ++ R) := by
  cases hu with
  | desc hne hw =>
    obtain ⟨x, w', rfl⟩ := List.exists_cons_of_ne_nil hne
    exact stops_cons (blank_notIdent hw x (List.mem_cons_self ..))
  | sign hc hw _ =>
    rw [List.append_assoc]
    exact stops_append (blank_notIdent hw) (stops_cons (combChar_op hc).2.1)

/-- The parser reaches the simple selector that breaks off. -/
theorem loop_lead {P : List Complex → List Char → Prop} (hP : NestOK P) {w : List Char} (hw : Blank w) {o : Option Sim} {p : List Char}
    (hp : Begun P o p) : ∀ {R : List Char}, (∀ s, o = some s → s.endsIdent = true → Stops isIdent R) →
    (o = none → Stops isReSpace R ∧ Stops isOp R) →
    ∃ st', parseAll { rest := w ++ (p ++ R) } = parseAll st' ∧ st'.rest = R ∧ (st'.prevIn = .selector ↔ o.isSome = true) := by
  induction hp with
  | @head c t ht =>
    intro R _ hR
    obtain ⟨h1, h2⟩ := hR rfl
    cases ht with
    | desc =>
      cases w with
      | nil => exact ⟨_, rfl, rfl, by simp⟩
      | cons x w =>
        obtain ⟨li, hk⟩ := step_comb (.desc (by simp) hw) h1 h2 { rest := x :: w ++ ([] ++ R) } rfl (by simp)
        exact ⟨_, hk, rfl, by simp⟩
    | @sign c x w' hc hw' =>
      obtain ⟨li, hk⟩ := step_comb (.sign hc hw hw') h1 h2 { rest := w ++ (x :: w' ++ R) } (by simp) (by simp)
      exact ⟨_, hk, rfl, by simp⟩
  | @sim o s p t _ ht hb ih =>
    intro R hR _
    have h1 := sim_stops ht R
    obtain ⟨st', k1, k2, -⟩ := ih (R := t ++ R) (fun s' ho he => by
      have := cons_boundary (s := s') (l := []) (fun hn => hb s' ho hn) (.one ht) R
      exact this he) (fun _ => ⟨h1.2.1, h1.2.2⟩)
    obtain ⟨q, -, hq⟩ := step_sim hP ht (fun he => hR s rfl he) st' k2
    rw [List.append_assoc]
    exact ⟨_, k1.trans (parseAll_step (by rw [k2]; exact h1.1) hq), rfl, by simp⟩
  | @comb s c p t _ ht ih =>
    intro R _ hR
    obtain ⟨h1, h2⟩ := hR rfl
    obtain ⟨st', k1, k2, k3⟩ := ih (R := t ++ R) (fun _ _ _ => combText_notIdent ht R) (fun h => by cases h)
    obtain ⟨li, hk⟩ := step_comb ht h1 h2 st' k2 (by rw [k3.2 rfl]; decide)
    rw [List.append_assoc]
    exact ⟨_, k1.trans hk, rfl, by simp⟩
  | @comma s p w1 w2 _ hw1 hw2 ih =>
    intro R _ hR
    obtain ⟨st', k1, k2, k3⟩ := ih (R := w1 ++ ',' :: (w2 ++ R))
      (fun _ _ _ => stops_append (blank_notIdent hw1) (stops_cons (by decide))) (fun h => by cases h)
    obtain ⟨li, hk⟩ := step_comma hw1 hw2 (hR rfl).1 st' k2 (k3.2 rfl)
    have e : p ++ (w1 ++ ',' :: w2) ++ R = p ++ (w1 ++ ',' :: (w2 ++ R)) := by simp
    rw [e]
    exact ⟨_, k1.trans hk, rfl, by simp⟩

/-- A text that breaks off makes the parser panic. -/
theorem parse_open {P : List Complex → List Char → Prop} (hP : NestOK P) {Q : List Char → Prop} (hQ : EndOK Q) {o : Option Sim}
    {w p v : List Char} (hw : Blank w) (hp : Begun P o p) (hv : OpenSim Q v) : parseGroups (w ++ (p ++ v)) = .error .outOfBounds := by
  obtain ⟨c, v', hc, h1, h2, -, h4⟩ := openSim_head hv
  obtain ⟨st', k1, k2, -⟩ := loop_lead hP hw hp (R := v) (fun _ _ _ => by rw [hc]; exact stops_cons h4)
    (fun _ => by rw [hc]; exact ⟨stops_cons h1, stops_cons h2⟩)
  rw [all_open hQ hv st' k2] at k1
  have hne : (w ++ (p ++ v)).isEmpty = false := by rw [hc]; simp
  rw [parseAll] at k1
  simp only [parseGroups, hne, Bool.false_eq_true, if_false, k1]

/-! ## The same inside a nested selector -/

/-- Nothing is nested. -/
def NoNest (P : List Complex → List Char → Prop) : Prop := ∀ sel t, ¬ P sel t

theorem simText_noNest {P : List Complex → List Char → Prop} (hP : NoNest P) {s : Sim} {t : List Char} (ht : SimText P s t) :
    s.isNest = false := by
  cases hs : s.isNest with
  | false => rfl
  | true =>
    obtain ⟨b, sel, w, u, w', -, -, hp, -⟩ := simText_nest ht hs
    exact absurd hp (hP _ _)

theorem scan_steps {P : List Complex → List Char → Prop} {l : Complex} {v : List Char} (hv : StepsText P l v) :
    (∀ s ∈ stepSims l, s.isNest = false) → ∀ {R : List Char}, Stops isIdent R → ∀ (chars : List Char) (idx : Nat) (untl : List Pat)
    (level : Nat), parseU chars (v ++ R) idx untl level = parseU chars R (idx + v.length) untl level := by
  induction hv with
  | nil => intro _ R _ chars idx untl level; rfl
  | @cons c ss l t u v ht hu hl ih =>
    intro hn R hR chars idx untl level
    have h1 := cmpd_stops hu (v ++ R)
    rw [List.append_assoc, List.append_assoc, scan_comb ht h1.2.1 h1.2.2.1,
      scan_cmpd hu (fun s hs => hn s (by simp [stepSims, hs])) (steps_stops hl hR),
      ih (fun s hs => hn s (by simp only [stepSims, List.flatMap_cons]; exact List.mem_append_right _ hs)) hR]
    simp [Nat.add_assoc]

theorem end_blank {w : List Char} (hw : Blank w) (chars : List Char) (idx level : Nat) :
    Ends (idx + w.length) (parseU chars w idx closing level) := by
  left
  cases w with
  | nil => rfl
  | cons x w =>
    obtain ⟨g, hg⟩ := splitter_space hw (by simp) (rest := []) stops_nil stops_nil
    rw [List.append_nil] at hg
    rw [parseU_split rfl hg, List.drop_length]
    rfl

theorem end_sim {P : List Complex → List Char → Prop} (hP : NestOK P) {s : Sim} {t : List Char} (ht : SimText P s t)
    {w : List Char} (hw : Blank w) (chars : List Char) (idx level : Nat) :
    Ends (idx + (t ++ w).length) (parseU chars (t ++ w) idx closing level) := by
  cases hs : s.isNest with
  | false =>
    rw [scan_sim ht hs (fun _ => blank_stops hw (by decide)), List.length_append, ← Nat.add_assoc]
    exact end_blank hw _ _ _
  | true =>
    right
    obtain ⟨h1, h2, h3⟩ := sim_stops ht w
    obtain ⟨b, sel, w1, u, w2, hw1, hw2, hp, rfl, -⟩ := simText_nest ht hs
    obtain ⟨hu1, hu2⟩ := hP sel u hp
    have e : nestHead b ++ (w1 ++ u ++ w2 ++ [')']) ++ w = nestHead b ++ w1 ++ (u ++ (w2 ++ ')' :: w)) := by simp
    have hf := findRule_nest b hw1 (hu1 (w2 ++ ')' :: w))
    rw [← e] at hf
    obtain ⟨y, z, -, hres⟩ := hu2 w2 w (level + 1) hw2
    have hd : List.drop (nestHead b ++ w1).length (nestHead b ++ (w1 ++ u ++ w2 ++ [')']) ++ w) = u ++ (w2 ++ ')' :: w) := by
      rw [e, List.drop_left]
    rw [parseU_nest h1 (splitter_none h2 h3) hf (by simp [nestRule, callQueues]) (by rw [hd]; exact hres)]
    have hlen : (nestHead b ++ w1).length + (u.length + w2.length + 1) = (nestHead b ++ (w1 ++ u ++ w2 ++ [')'])).length := by
      simp only [List.length_append, List.length_cons, List.length_nil]; omega
    rw [hlen, List.drop_left]
    exact untilEnd_over hw

theorem end_cmpd {P : List Complex → List Char → Prop} (hP : NestOK P) {ss : List Sim} {u : List Char} (hu : CmpdText P ss u) :
    ButLast ss → ∀ {w : List Char}, Blank w → ∀ (chars : List Char) (idx level : Nat),
    Ends (idx + (u ++ w).length) (parseU chars (u ++ w) idx closing level) := by
  induction hu with
  | one ht => intro _ w hw chars idx level; exact end_sim hP ht hw chars idx level
  | @cons s s' l t u ht hn hu ih =>
    intro hb w hw chars idx level
    have hs : s.isNest = false := hb s (by simp)
    have hb' : ButLast (s' :: l) := (butLast_append (a := [s]) (by simp) hb).2
    have := ih hb' hw chars (idx + t.length) level
    rw [List.append_assoc t u, scan_sim ht hs (cons_boundary hn hu _), List.length_append, ← Nat.add_assoc]
    exact this

theorem end_steps {P : List Complex → List Char → Prop} (hP : NestOK P) {l : Complex} {v : List Char} (hv : StepsText P l v) :
    ∀ {ss : List Sim} {u : List Char}, CmpdText P ss u → ButLast (ss ++ stepSims l) → ∀ {w : List Char}, Blank w →
    ∀ (chars : List Char) (idx level : Nat), Ends (idx + (u ++ (v ++ w)).length) (parseU chars (u ++ (v ++ w)) idx closing level) := by
  induction hv with
  | nil =>
    intro ss u hu hb w hw chars idx level
    exact end_cmpd hP hu (by simpa [stepSims] using hb) hw chars idx level
  | @cons c ss' l t u' v ht hu' hl ih =>
    intro ss u hu hb w hw chars idx level
    have hne : stepSims ((c, ss') :: l) ≠ [] := by
      simp only [stepSims, List.flatMap_cons, ne_eq, List.append_eq_nil_iff, not_and]
      intro h; exact absurd h (cmpd_ne hu')
    obtain ⟨h1, h2⟩ := butLast_append hne hb
    have h3 := cmpd_stops hu' (v ++ w)
    have := ih hu' (by simpa [stepSims] using h2) hw chars (idx + u.length + t.length) level
    have e : t ++ (u' ++ v) ++ w = t ++ (u' ++ (v ++ w)) := by simp
    rw [scan_cmpd hu h1 (steps_stops (.cons ht hu' hl) (blank_stops hw (by decide))), e, scan_comb ht h3.2.1 h3.2.2.1]
    simpa [Nat.add_assoc] using this

theorem end_alts {P : List Complex → List Char → Prop} (hP : NestOK P) {sel : List Complex} {z : List Char} (hz : AltsText P sel z) :
    ∀ {l : Complex} {v : List Char}, StepsText P l v → ∀ {ss : List Sim} {u : List Char}, CmpdText P ss u →
    ButLast (ss ++ (stepSims l ++ simsOf sel)) → ∀ {w : List Char}, Blank w → ∀ (chars : List Char) (idx level : Nat),
    Ends (idx + (u ++ (v ++ (z ++ w))).length) (parseU chars (u ++ (v ++ (z ++ w))) idx closing level) := by
  induction hz with
  | nil =>
    intro l v hv ss u hu hb w hw chars idx level
    exact end_steps hP hv hu (by simpa [simsOf] using hb) hw chars idx level
  | @cons ss0 l0 sel w0 w1 u0 v0 z hw0 hw1 hu0 hv0 hz ih =>
    intro l v hv ss u hu hb w hw chars idx level
    have hzz : AltsText P (((.childrenAll, ss0) :: l0) :: sel) (w0 ++ ',' :: (w1 ++ (u0 ++ (v0 ++ z)))) := .cons hw0 hw1 hu0 hv0 hz
    have hne : simsOf (((.childrenAll, ss0) :: l0) :: sel) ≠ [] := by
      simp only [simsOf, List.flatMap_cons, ne_eq, List.append_eq_nil_iff, not_and]
      intro h; exact absurd h.1 (cmpd_ne hu0)
    rw [← List.append_assoc] at hb
    obtain ⟨h1, h2⟩ := butLast_append hne hb
    have hb' : ButLast (ss0 ++ (stepSims l0 ++ simsOf sel)) := by simpa [stepSims, simsOf] using h2
    have hs := alts_stops hzz (blank_stops hw (p := isIdent) (by decide))
    have h3 := cmpd_stops hu0 (v0 ++ (z ++ w))
    have := ih hv0 hu0 hb' hw chars (idx + u.length + v.length + (w0 ++ ',' :: w1).length) level
    rw [scan_cmpd hu (fun s hs => h1 s (List.mem_append_left _ hs)) (steps_stops hv hs),
      scan_steps hv (fun s hs => h1 s (List.mem_append_right _ hs)) hs]
    have e : w0 ++ ',' :: (w1 ++ (u0 ++ (v0 ++ z))) ++ w = w0 ++ ',' :: (w1 ++ (u0 ++ (v0 ++ (z ++ w)))) := by simp
    rw [e, scan_comma hw0 hw1 h3.2.1]
    have e2 : idx + u.length + v.length + (w0 ++ ',' :: w1).length + (u0 ++ (v0 ++ (z ++ w))).length =
        idx + (u ++ (v ++ (w0 ++ ',' :: (w1 ++ (u0 ++ (v0 ++ (z ++ w))))))).length := by
      simp only [List.length_append, List.length_cons]; omega
    rw [e2] at this
    exact this

theorem end_core {P : List Complex → List Char → Prop} (hP : NestOK P) {sel : List Complex} {t w : List Char} (ht : CoreText P sel t)
    (hl : NestLast sel) (hw : Blank w) : Stops isAsciiWs (t ++ w) ∧
      ∀ level, Ends (t ++ w).length (parseU (t ++ w) (t ++ w) 0 closing level) := by
  cases ht with
  | @mk c ss l sel t u v z ht hu hv hz =>
    refine ⟨?_, fun level => ?_⟩
    · cases ht with
      | desc => rw [List.nil_append, List.append_assoc]; exact (cmpd_stops hu _).2.2.2
      | sign hc hw => exact stops_cons (combChar_op hc).2.2.1
    · have hb : ButLast (ss ++ (stepSims l ++ simsOf sel)) := by
        intro s hs
        apply hl s
        simpa [simsOf, stepSims] using hs
      have h1 := cmpd_stops hu (v ++ (z ++ w))
      have e : t ++ (u ++ (v ++ z)) ++ w = t ++ (u ++ (v ++ (z ++ w))) := by simp
      rw [e]
      have := end_alts hP hz hv hu hb hw (t ++ (u ++ (v ++ (z ++ w)))) t.length level
      rw [← List.length_append] at this
      rcases headText_cases ht with ⟨rfl, -⟩ | hct
      · exact this
      · rw [scan_comb hct h1.2.1 h1.2.2.1, Nat.zero_add]
        exact this

theorem noNest_false : NoNest fun _ _ => False := fun _ _ h => h

theorem scan_lead {P : List Complex → List Char → Prop} (hP : NoNest P) {o : Option Sim} {p : List Char} (hp : Begun P o p) :
    ∀ {R : List Char}, (∀ s, o = some s → s.endsIdent = true → Stops isIdent R) →
    (o = none → Stops isReSpace R ∧ Stops isOp R ∧ Stops isAsciiWs R) →
    Stops isAsciiWs (p ++ R) ∧ ∀ (chars : List Char) (idx : Nat) (untl : List Pat) (level : Nat),
      parseU chars (p ++ R) idx untl level = parseU chars R (idx + p.length) untl level := by
  induction hp with
  | head ht =>
    intro R _ hR
    obtain ⟨h1, h2, h4⟩ := hR rfl
    rcases headText_cases ht with ⟨rfl, -⟩ | hct
    · exact ⟨h4, fun _ _ _ _ => rfl⟩
    · refine ⟨?_, fun _ _ _ _ => scan_comb hct h1 h2 _ _ _ _⟩
      cases ht with
      | desc => exact h4
      | sign hc _ => exact stops_cons (combChar_op hc).2.2.1
  | @sim o s p t _ ht hb ih =>
    intro R hR _
    have h1 := cmpd_stops (.one ht) R
    obtain ⟨k1, k2⟩ := ih (R := t ++ R) (fun s' ho he => by
      have := cons_boundary (s := s') (l := []) (fun hn => hb s' ho hn) (.one ht) R
      exact this he) (fun _ => h1.2)
    rw [List.append_assoc]
    refine ⟨k1, fun _ _ _ _ => ?_⟩
    rw [k2, scan_sim ht (simText_noNest hP ht) (fun he => hR s rfl he), List.length_append, Nat.add_assoc]
  | @comb s c p t _ ht ih =>
    intro R _ hR
    obtain ⟨h1, h2, -⟩ := hR rfl
    obtain ⟨k1, k2⟩ := ih (R := t ++ R) (fun _ _ _ => combText_notIdent ht R) (fun h => by cases h)
    rw [List.append_assoc]
    refine ⟨k1, fun _ _ _ _ => ?_⟩
    rw [k2, scan_comb ht h1 h2, List.length_append, Nat.add_assoc]
  | @comma s p w1 w2 _ hw1 hw2 ih =>
    intro R _ hR
    obtain ⟨k1, k2⟩ := ih (R := w1 ++ ',' :: (w2 ++ R))
      (fun _ _ _ => stops_append (blank_notIdent hw1) (stops_cons (by decide))) (fun h => by cases h)
    have e : p ++ (w1 ++ ',' :: w2) ++ R = p ++ (w1 ++ ',' :: (w2 ++ R)) := by simp
    rw [e]
    refine ⟨k1, fun _ _ _ _ => ?_⟩
    rw [k2, scan_comma hw1 hw2 (hR rfl).1]
    simp [Nat.add_assoc]

theorem openInner_end : ∀ d, EndOK (OpenInner d)
  | 0 => fun u hu => by
    cases hu
    exact ⟨stops_nil, fun _ => .inl rfl⟩
  | d + 1 => fun u hu => by
    rcases hu with rfl | ⟨sel, t, w, ht, hl, hw, rfl⟩ | ⟨o, p, v, hp, hv, rfl⟩
    · exact ⟨stops_nil, fun _ => .inl rfl⟩
    · cases d with
      | zero => exact end_core (P := fun _ _ => False) (fun _ _ h => h.elim) ht hl hw
      | succ d => exact end_core (coreD_nestOK d) ht hl hw
    · obtain ⟨c, v', hc, h1, h2, h3, h4⟩ := openSim_head hv
      obtain ⟨k1, k2⟩ := scan_lead noNest_false hp (R := v) (fun _ _ _ => by rw [hc]; exact stops_cons h4)
        (fun _ => by rw [hc]; exact ⟨stops_cons h1, stops_cons h2, stops_cons h3⟩)
      refine ⟨k1, fun level => .inr ?_⟩
      rw [k2]
      exact until_open (openInner_end d) hv _ _ _

end Visdom
