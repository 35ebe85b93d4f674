import Verif.Proofs.ParseFuel
import Verif.Model.Text
/-!
# Every simple selector is recognised by its rule
-/
namespace Visdom
open Spec

/-- The part the parser makes of a simple selector. `N` relates a nested selector to the text kept for it. -/
inductive IsPart (N : List Complex → List Char → Prop) : Sim → Part → Prop
  | all : IsPart N .all .all
  | name {n : List Char} : IsPart N (.name n) (.name n)
  | cls {n : List Char} : IsPart N (.cls n) (.cls n)
  | id {n : List Char} : IsPart N (.id n) (.id n)
  | attr {k : List Char} : IsPart N (.attr k) (.attr k .eq none)
  | attrTest {k v : List Char} {o : AttrTest} : IsPart N (.attrTest k o v) (.attr k (testMode o) (some v))
  | nth {last ofType : Bool} {a b : Int} {n : List Char} {i : Option (List Char)} : parseIsize n = some a →
      i.map parseIsize ≠ some none → (i.bind parseIsize).getD 0 = b →
      IsPart N (.nth last ofType a b) (.nth last ofType (some n) i)
  | nthIdx {last ofType : Bool} {b : Int} {i : List Char} : parseIsize i = some b →
      IsPart N (.nthIdx last ofType b) (.nth last ofType none (some i))
  | edge {last ofType : Bool} : IsPart N (.edge last ofType) (.edge last ofType)
  | only {ofType : Bool} : IsPart N (.only ofType) (.only ofType)
  | root : IsPart N .root .root
  | empty : IsPart N .empty .empty
  | contains {v t : List Char} : t ≠ [] → containsText t = v → IsPart N (.contains v) (.contains t)
  | checked : IsPart N .checked .checked
  | header : IsPart N (.alias headerSel) .header
  | input : IsPart N (.alias inputSel) .input
  | submit : IsPart N (.alias submitSel) .submit
  | not {sel : List Complex} {t : List Char} : N sel t → IsPart N (.not sel) (.not t)
  | has {sel : List Complex} {t : List Char} : N sel t → IsPart N (.has sel) (.has t)

theorem findRule_hit {r : ParseRule} {rs : List ParseRule} {t rest : List Char} {ms : List Matched} {num : Nat}
    (he : execPats r.queues (t ++ rest) = .ok (ms, t.length, num)) (hne : t ≠ []) :
    findRule (r :: rs) (t ++ rest) = .ok (some (r, ms, t.length, num)) := by
  have hpos : t.length > 0 := List.length_pos_iff.2 hne
  simp only [findRule, execQueues, he, Except.map, hpos, if_true]

theorem ident_exec {n t rest : List Char} (hn : IdText n t) (hr : Stops isIdent rest) :
    ∃ k, execPats [.identity] (t ++ rest) = .ok ([{ chars := n, ignore := k }], t.length, 1) := by
  obtain ⟨k, h1, h2⟩ := ident_text hn hr
  refine ⟨k, ?_⟩
  simpa using execPats_cons (u := []) (ps := []) (m := { chars := n, ignore := k }) h1 h2 (execPats_nil rest)

theorem nameStart_ne {c : Char} (hc : NameStart c) : '.' ≠ c ∧ '#' ≠ c := by
  have := nameStart_iff.1 hc
  constructor <;> (rintro rfl; exact absurd this (by decide))

theorem findRule_name {n t rest : List Char} (hn : IdText n t) (hr : Stops isIdent rest) :
    ∃ k, findRule ruleTable (t ++ rest) = .ok (some (⟨.name, [.identity]⟩, [{ chars := n, ignore := k }], t.length, 1)) := by
  obtain ⟨k, hk⟩ := ident_exec hn hr
  refine ⟨k, ?_⟩
  obtain ⟨c, t', rfl, hc⟩ := identText_head hn
  have h1 := nameStart_ne hc
  have hskip : findRule ruleTable (c :: t' ++ rest) = findRule (ruleTable.drop 2) (c :: t' ++ rest) := by
    rw [List.cons_append]
    simp [ruleTable, findRule, execQueues, execPats, Pat.matched, List.isPrefixOf, h1, Except.map]
  rw [hskip]
  exact findRule_hit (r := ⟨.name, [.identity]⟩) (rs := ruleTable.drop 3) hk (by simp)

theorem findRule_cls {n t rest : List Char} (hn : IdText n t) (hr : Stops isIdent rest) :
    ∃ k, findRule ruleTable ('.' :: t ++ rest) =
      .ok (some (⟨.cls, [.lit ['.'], .identity]⟩, [{ chars := ['.'] }, { chars := n, ignore := k }], ('.' :: t).length, 2)) := by
  obtain ⟨k, hk⟩ := ident_exec hn hr
  refine ⟨k, ?_⟩
  refine findRule_hit (r := ⟨.cls, [.lit ['.'], .identity]⟩) (rs := ruleTable.drop 1) ?_ (by simp)
  exact execPats_cons (t := ['.']) (u := t) (lit_matched ['.'] (t ++ rest)) rfl hk

theorem findRule_id {n t rest : List Char} (hn : IdText n t) (hr : Stops isIdent rest) :
    ∃ k, findRule ruleTable ('#' :: t ++ rest) =
      .ok (some (⟨.id, [.lit ['#'], .identity]⟩, [{ chars := ['#'] }, { chars := n, ignore := k }], ('#' :: t).length, 2)) := by
  obtain ⟨k, hk⟩ := ident_exec hn hr
  refine ⟨k, ?_⟩
  have hskip : findRule ruleTable ('#' :: t ++ rest) = findRule (ruleTable.drop 1) ('#' :: t ++ rest) := rfl
  rw [hskip]
  refine findRule_hit (r := ⟨.id, [.lit ['#'], .identity]⟩) (rs := ruleTable.drop 2) ?_ (by simp)
  exact execPats_cons (t := ['#']) (u := t) (lit_matched ['#'] (t ++ rest)) rfl hk

/-- The rule of the attribute selectors. -/
def attrRule : ParseRule := ⟨.attr, [.lit ['['], .spaces, .attrKey, .spaces, .regexp attrCtx, .spaces, .chr ']']⟩

theorem findRule_bracket {w k w' t w'' rest : List Char} {m : Matched} (hw : Blank w) (hk : KeyText k) (hw' : Blank w')
    (ht : Stops isAsciiWs (t ++ ((w'' ++ [']']) ++ rest))) (hs : Stops isCharAvailableInKey (t ++ ((w'' ++ [']']) ++ rest)))
    (hm : (Pat.regexp attrCtx).matched (t ++ ((w'' ++ [']']) ++ rest)) = .ok (some m))
    (hl : m.chars.length + m.ignore = t.length) (hw'' : Blank w'') :
    findRule ruleTable ('[' :: (w ++ k ++ w' ++ t ++ w'' ++ [']']) ++ rest) =
      .ok (some (attrRule, [{ chars := ['['] }, { chars := w }, { chars := k }, { chars := w' }, m, { chars := w'' }, { chars := [']'] }],
        ('[' :: (w ++ k ++ w' ++ t ++ w'' ++ [']'])).length, attrRule.queues.length)) := by
  have hskip : findRule ruleTable ('[' :: (w ++ k ++ w' ++ t ++ w'' ++ [']']) ++ rest) =
      findRule (ruleTable.drop 3) ('[' :: (w ++ k ++ w' ++ t ++ w'' ++ [']']) ++ rest) := rfl
  rw [hskip]
  refine findRule_hit (r := attrRule) (rs := ruleTable.drop 4) ?_ (by simp)
  have h1 : execPats [.spaces, .chr ']'] ((w'' ++ [']']) ++ rest) =
      .ok ([{ chars := w'' }, { chars := [']'] }], (w'' ++ [']']).length, 2) := by
    rw [List.append_assoc]
    exact execPats_close rest hw'' (by decide)
  have h2 := execPats_cons hm hl h1
  have e2 : t ++ ((w'' ++ [']']) ++ rest) = (t ++ (w'' ++ [']'])) ++ rest := by simp
  have h3 := execPats_cons (t := w') (u := t ++ (w'' ++ [']'])) (rest := rest) (p := .spaces) (m := { chars := w' })
    (spaces_matched hw' (by rw [← e2]; exact ht)) (by simp) (by rw [← e2]; exact h2)
  have hs' : Stops isCharAvailableInKey (w' ++ (t ++ (w'' ++ [']'])) ++ rest) := by
    rw [List.append_assoc, ← e2]
    exact stops_append (blank_notKey hw') hs
  have e3 : w' ++ ((t ++ (w'' ++ [']'])) ++ rest) = (w' ++ (t ++ (w'' ++ [']']))) ++ rest := by simp
  rw [e3] at h3
  have h4 := execPats_cons (t := k) (u := w' ++ (t ++ (w'' ++ [']']))) (rest := rest) (p := .attrKey) (m := { chars := k })
    (attrKey_matched hk hs') (by simp) h3
  have e4 : k ++ ((w' ++ (t ++ (w'' ++ [']']))) ++ rest) = (k ++ (w' ++ (t ++ (w'' ++ [']'])))) ++ rest := by simp
  have h5 := execPats_cons (t := w) (u := k ++ (w' ++ (t ++ (w'' ++ [']'])))) (rest := rest) (p := .spaces) (m := { chars := w })
    (spaces_matched hw (by rw [← e4]; exact keyText_stops hk _)) (by simp) (by rw [← e4]; exact h4)
  have e5 : w ++ ((k ++ (w' ++ (t ++ (w'' ++ [']'])))) ++ rest) = (w ++ (k ++ (w' ++ (t ++ (w'' ++ [']']))))) ++ rest := by simp
  rw [e5] at h5
  have h6 := execPats_cons (t := ['[']) (u := w ++ (k ++ (w' ++ (t ++ (w'' ++ [']']))))) (rest := rest) (p := .lit ['['])
    (m := { chars := ['['] }) (lit_matched _ _) (by simp) h5
  have e6 : ('[' :: (w ++ k ++ w' ++ t ++ w'' ++ [']']) : List Char) = ['['] ++ (w ++ (k ++ (w' ++ (t ++ (w'' ++ [']']))))) := by simp
  rw [e6, List.append_assoc]
  exact h6

theorem findRule_attr {w k w' rest : List Char} (hw : Blank w) (hk : KeyText k) (hw' : Blank w') :
    ∃ m, findRule ruleTable ('[' :: (w ++ k ++ w' ++ [']']) ++ rest) =
      .ok (some (attrRule, m, ('[' :: (w ++ k ++ w' ++ [']'])).length, attrRule.queues.length)) ∧
      makePart .attr m = .ok (.attr k .eq none) := by
  have hm : (Pat.regexp attrCtx).matched ([] ++ (([] ++ [']']) ++ rest)) = .ok (some { chars := [] }) := by
    rw [regexp_matched getRule_attr]
    show Except.ok (match attrRe.captures (']' :: rest) with
      | some (len, g) => some ({ chars := (']' :: rest).take len, groups := g } : Matched)
      | none => none) = _
    rw [attrRe_absent]
    rfl
  have := findRule_bracket (t := []) (w'' := []) (rest := rest) hw hk hw' (stops_cons (by decide)) (stops_cons (by decide)) hm rfl
    (by simp [Blank])
  simp only [List.append_nil] at this
  exact ⟨_, this, rfl⟩

theorem testText_head (o : AttrTest) (r : List Char) : ∃ x r', testText o ++ '=' :: r = x :: r' ∧
    isAsciiWs x = false ∧ isCharAvailableInKey x = false := by
  cases o <;> exact ⟨_, _, rfl, by decide, by decide⟩

theorem attrModeOf_test (o : AttrTest) : attrModeOf (testText o) = testMode o := by cases o <;> rfl

theorem findRule_attrTest {w k w' w'' v t w''' rest : List Char} {o : AttrTest} (hw : Blank w) (hk : KeyText k) (hw' : Blank w')
    (hw'' : Blank w'') (hv : ValueText ']' v t) (hw''' : Blank w''') :
    ∃ m, findRule ruleTable ('[' :: (w ++ k ++ w' ++ (testText o ++ '=' :: (w'' ++ t)) ++ w''' ++ [']']) ++ rest) =
      .ok (some (attrRule, m, ('[' :: (w ++ k ++ w' ++ (testText o ++ '=' :: (w'' ++ t)) ++ w''' ++ [']'])).length,
        attrRule.queues.length)) ∧
      makePart .attr m = .ok (.attr k (testMode o) (some v)) := by
  have hbare : Stops isBareAttr ((w''' ++ [']']) ++ rest) := by
    rw [List.append_assoc]
    refine stops_append ?_ (stops_cons (by decide))
    intro x hx
    rcases hw''' x hx with rfl | rfl | rfl | rfl | rfl <;> decide
  have hcap := attrRe_test (o := o) hw'' hv hbare
  have hm : (Pat.regexp attrCtx).matched ((testText o ++ '=' :: (w'' ++ t)) ++ ((w''' ++ [']']) ++ rest)) =
      .ok (some { chars := testText o ++ '=' :: (w'' ++ t), groups := [(valueGroup t, v), (1, testText o)] }) := by
    rw [regexp_matched getRule_attr, hcap]
    simp only [List.take_left]
  obtain ⟨x, r', e, hx1, hx2⟩ := testText_head o (w'' ++ t)
  have hst : ∀ {p : Char → Bool}, p x = false → Stops p ((testText o ++ '=' :: (w'' ++ t)) ++ ((w''' ++ [']']) ++ rest)) := by
    intro p hp; rw [e]; exact stops_cons hp
  refine ⟨_, findRule_bracket (rest := rest) hw hk hw' (hst hx1) (hst hx2) hm rfl hw''', ?_⟩
  have h1 : capGet [(valueGroup t, v), (1, testText o)] 1 = some (testText o) := by
    unfold valueGroup
    split
    · simp [capGet]
    · split <;> simp [capGet]
  have h2 : ((capGet [(valueGroup t, v), (1, testText o)] 2).or (capGet [(valueGroup t, v), (1, testText o)] 3)).or
      (capGet [(valueGroup t, v), (1, testText o)] 4) = some v := by
    unfold valueGroup
    split
    · simp [capGet]
    · split <;> simp [capGet]
  show Except.ok (Part.attr k (attrModeOf ((capGet [(valueGroup t, v), (1, testText o)] 1).getD []))
    (((capGet [(valueGroup t, v), (1, testText o)] 2).or (capGet [(valueGroup t, v), (1, testText o)] 3)).or
      (capGet [(valueGroup t, v), (1, testText o)] 4))) = _
  rw [h1, h2, Option.getD_some, attrModeOf_test]

/-- The rule of `:nth-child` and its companions. -/
def nthRuleId : Bool → Bool → RuleId
  | false, false => .nthChild
  | true, false => .nthLastChild
  | false, true => .nthOfType
  | true, true => .nthLastOfType
def nthRule (last ofType : Bool) : ParseRule := ⟨nthRuleId last ofType, callQueues (nthHead last ofType) .nth⟩

theorem findRule_nth_hit {last ofType : Bool} {t rest : List Char} {ms : List Matched} {num : Nat}
    (he : execPats (nthRule last ofType).queues (nthHead last ofType ++ t ++ rest) = .ok (ms, (nthHead last ofType ++ t).length, num)) :
    findRule ruleTable (nthHead last ofType ++ t ++ rest) =
      .ok (some (nthRule last ofType, ms, (nthHead last ofType ++ t).length, num)) := by
  cases last <;> cases ofType
  · have hskip : findRule ruleTable (nthHead false false ++ t ++ rest) = findRule (ruleTable.drop 9) (nthHead false false ++ t ++ rest) := rfl
    rw [hskip]
    exact findRule_hit (r := nthRule false false) (rs := ruleTable.drop 10) he (by simp [nthHead])
  · have hskip : findRule ruleTable (nthHead false true ++ t ++ rest) = findRule (ruleTable.drop 13) (nthHead false true ++ t ++ rest) := rfl
    rw [hskip]
    exact findRule_hit (r := nthRule false true) (rs := ruleTable.drop 14) he (by simp [nthHead])
  · have hskip : findRule ruleTable (nthHead true false ++ t ++ rest) = findRule (ruleTable.drop 10) (nthHead true false ++ t ++ rest) := rfl
    rw [hskip]
    exact findRule_hit (r := nthRule true false) (rs := ruleTable.drop 11) he (by simp [nthHead])
  · have hskip : findRule ruleTable (nthHead true true ++ t ++ rest) = findRule (ruleTable.drop 14) (nthHead true true ++ t ++ rest) := rfl
    rw [hskip]
    exact findRule_hit (r := nthRule true true) (rs := ruleTable.drop 15) he (by simp [nthHead])

theorem sign?_cases {neg : Bool} {s : List Char} (hs : SignText? neg s) : s = [] ∨ s = ['+'] ∨ s = ['-'] := by
  cases hs with
  | none => exact .inl rfl
  | some hs => cases hs <;> simp

theorem nthText_stops {a b : Int} {t : List Char} (ht : NthText a b t) (rest : List Char) : Stops isAsciiWs (t ++ rest) := by
  have key : ∀ {neg : Bool} {k : Nat} {s t r : List Char}, SignText? neg s → CoefText k t → Stops isAsciiWs (s ++ t ++ 'n' :: r) := by
    intro neg k s t r hs ht
    rcases sign?_cases hs with rfl | rfl | rfl
    · cases ht with
      | none => exact stops_cons (by decide)
      | some ht => rw [List.nil_append]; exact numText_stops ht _ (by decide)
    · exact stops_cons (by decide)
    · exact stops_cons (by decide)
  cases ht with
  | an hs ht => rw [List.append_assoc]; exact key hs ht
  | anb hs ht _ _ _ _ => rw [List.append_assoc]; exact key hs ht
  | even => exact stops_cons (by decide)
  | odd => exact stops_cons (by decide)

theorem idxText_stops {b : Int} {t : List Char} (ht : IdxText b t) (rest : List Char) : Stops isAsciiWs (t ++ rest) := by
  cases ht with
  | mk hs ht =>
    rcases sign?_cases hs with rfl | rfl | rfl
    · rw [List.nil_append]; exact numText_stops ht _ (by decide)
    · exact stops_cons (by decide)
    · exact stops_cons (by decide)

theorem findRule_nth {last ofType : Bool} {a b : Int} {w t w' : List Char} (rest : List Char) (hw : Blank w) (ht : NthText a b t)
    (hw' : Blank w') : ∃ m n i, findRule ruleTable (nthHead last ofType ++ (w ++ t ++ w' ++ [')']) ++ rest) =
        .ok (some (nthRule last ofType, m, (nthHead last ofType ++ (w ++ t ++ w' ++ [')'])).length,
          (nthRule last ofType).queues.length)) ∧
      makePart (nthRule last ofType).id m = .ok (.nth last ofType (some n) i) ∧
      parseIsize n = some a ∧ i.map parseIsize ≠ some none ∧ (i.bind parseIsize).getD 0 = b := by
  obtain ⟨n, i, hm, h1, h2, h3⟩ := nth_matched (rest := rest) ht hw'
  refine ⟨_, n, i, findRule_nth_hit (execPats_call (m := { chars := t, n := some n, index := i }) hw hw' (nthText_stops ht _) ?_ (by simp)),
    ?_, h1, h2, h3⟩
  · show Except.ok (nthMatched _) = _
    rw [List.singleton_append, hm]
  · cases last <;> cases ofType <;> rfl

theorem findRule_idx {last ofType : Bool} {b : Int} {w t w' : List Char} (rest : List Char) (hw : Blank w) (ht : IdxText b t)
    (hw' : Blank w') : ∃ m i, findRule ruleTable (nthHead last ofType ++ (w ++ t ++ w' ++ [')']) ++ rest) =
        .ok (some (nthRule last ofType, m, (nthHead last ofType ++ (w ++ t ++ w' ++ [')'])).length,
          (nthRule last ofType).queues.length)) ∧
      makePart (nthRule last ofType).id m = .ok (.nth last ofType none (some i)) ∧ parseIsize i = some b := by
  obtain ⟨i, hm, h1⟩ := idx_matched (rest := rest) ht hw'
  refine ⟨_, i, findRule_nth_hit (execPats_call (m := { chars := t, n := none, index := some i }) hw hw' (idxText_stops ht _) ?_ (by simp)),
    ?_, h1⟩
  · show Except.ok (nthMatched _) = _
    rw [List.singleton_append, hm]
  · have : makeNth last ofType [{ chars := nthHead last ofType }, { chars := w },
        { chars := t, n := none, index := some i }, { chars := w' }, { chars := [')'] }] = .ok (.nth last ofType none (some i)) := by
      simp [makeNth, h1]
    cases last <;> cases ofType <;> exact this

/-- The rule of `:contains`. -/
def containsRule : ParseRule := ⟨.contains, callQueues [':', 'c', 'o', 'n', 't', 'a', 'i', 'n', 's', '('] (.regexp containsCtx)⟩

theorem findRule_contains {v w t w' : List Char} (rest : List Char) (hw : Blank w) (hv : ValueText ')' v t) (hw' : Blank w') :
    ∃ m, findRule ruleTable ([':', 'c', 'o', 'n', 't', 'a', 'i', 'n', 's', '('] ++ (w ++ t ++ w' ++ [')']) ++ rest) =
        .ok (some (containsRule, m, ([':', 'c', 'o', 'n', 't', 'a', 'i', 'n', 's', '('] ++ (w ++ t ++ w' ++ [')'])).length,
          containsRule.queues.length)) ∧
      makePart .contains m = .ok (.contains t) ∧ t ≠ [] ∧ containsText t = v := by
  have hbare : Stops isBareText (w' ++ ([')'] ++ rest)) := close_stops hw' (by decide)
  obtain ⟨g, hg⟩ := contains_matched hv hbare
  have hst : Stops isAsciiWs (t ++ (w' ++ ([')'] ++ rest))) := by
    intro x r e
    have := valueText_stops hv (w' ++ ([')'] ++ rest)) x r e
    cases hx : isAsciiWs x with
    | false => rfl
    | true =>
      exfalso
      simp only [isAsciiWs, Bool.or_eq_true, beq_iff_eq] at hx
      rcases hx with (((rfl | rfl) | rfl) | rfl) | rfl <;> exact absurd this (by decide)
  have hskip : ∀ y : List Char, findRule ruleTable ([':', 'c', 'o', 'n', 't', 'a', 'i', 'n', 's', '('] ++ y ++ rest) =
    findRule (ruleTable.drop 17) ([':', 'c', 'o', 'n', 't', 'a', 'i', 'n', 's', '('] ++ y ++ rest) := fun _ => rfl
  refine ⟨_, (hskip _).trans (findRule_hit (r := containsRule) (rs := ruleTable.drop 18)
    (execPats_call hw hw' hst hg (by simp)) (by simp)), rfl, ?_, ?_⟩
  · cases hv with
    | bare hne _ => exact hne
    | quoted _ _ => simp
  · cases hv with
    | bare hne hb =>
      obtain ⟨x, t', rfl⟩ := List.exists_cons_of_ne_nil hne
      have := (hb x (List.mem_cons_self ..)).2.2
      simp only [List.mem_cons, not_or] at this
      simp [containsText, this.1, this.2.1]
    | @quoted q v hq _ =>
      have e : (q :: (v ++ [q])).dropLast = q :: v := by
        rw [← List.cons_append, List.dropLast_concat]
      have hq' : q = '"' ∨ q = '\'' := hq.symm
      simp only [containsText, if_pos hq', e, List.drop_succ_cons, List.drop_zero]

/-- A simple selector that is not nested is recognised by a rule, which consumes its text. -/
theorem rule_plain {P N : List Complex → List Char → Prop} {s : Sim} {t : List Char} (ht : SimText P s t) (hs : s.isNest = false)
    (rest : List Char) (hr : s.endsIdent = true → Stops isIdent rest) :
    ∃ r m p, findRule ruleTable (t ++ rest) = .ok (some (r, m, t.length, r.queues.length)) ∧ makePart r.id m = .ok p ∧
      IsPart N s p := by
  cases ht with
  | all => exact ⟨_, _, _, rfl, rfl, .all⟩
  | name hn => obtain ⟨k, hk⟩ := findRule_name hn (hr rfl); exact ⟨_, _, _, hk, rfl, .name⟩
  | cls hn => obtain ⟨k, hk⟩ := findRule_cls hn (hr rfl); exact ⟨_, _, _, hk, rfl, .cls⟩
  | id hn => obtain ⟨k, hk⟩ := findRule_id hn (hr rfl); exact ⟨_, _, _, hk, rfl, .id⟩
  | attr hw hk hw' => obtain ⟨m, hm, hp⟩ := findRule_attr (rest := rest) hw hk hw'; exact ⟨_, _, _, hm, hp, .attr⟩
  | attrTest hw hk hw' hw'' hv hw''' =>
    obtain ⟨m, hm, hp⟩ := findRule_attrTest (rest := rest) hw hk hw' hw'' hv hw'''; exact ⟨_, _, _, hm, hp, .attrTest⟩
  | nth hw ht hw' => obtain ⟨m, n, i, hm, hp, h1, h2, h3⟩ := findRule_nth rest hw ht hw'; exact ⟨_, _, _, hm, hp, .nth h1 h2 h3⟩
  | nthIdx hw ht hw' => obtain ⟨m, i, hm, hp, h1⟩ := findRule_idx rest hw ht hw'; exact ⟨_, _, _, hm, hp, .nthIdx h1⟩
  | @edge last ofType => cases last <;> cases ofType <;> exact ⟨_, _, _, rfl, rfl, .edge⟩
  | @only ofType => cases ofType <;> exact ⟨_, _, _, rfl, rfl, .only⟩
  | root => exact ⟨_, _, _, rfl, rfl, .root⟩
  | empty => exact ⟨_, _, _, rfl, rfl, .empty⟩
  | contains hw hv hw' =>
    obtain ⟨m, hm, hp, h1, h2⟩ := findRule_contains rest hw hv hw'; exact ⟨_, _, _, hm, hp, .contains h1 h2⟩
  | checked => exact ⟨_, _, _, rfl, rfl, .checked⟩
  | header => exact ⟨_, _, _, rfl, rfl, .header⟩
  | input => exact ⟨_, _, _, rfl, rfl, .input⟩
  | submit => exact ⟨_, _, _, rfl, rfl, .submit⟩
  | not => cases hs
  | has => cases hs

/-! ## Nested selectors -/

/-- The rules of `:not` and `:has`. -/
def nestHead (not : Bool) : List Char := if not then [':', 'n', 'o', 't', '('] else [':', 'h', 'a', 's', '(']
def nestRule (not : Bool) : ParseRule := ⟨if not then .not else .has, callQueues (nestHead not) .nested⟩

theorem execPats_step {p : Pat} {ps : List Pat} {cs : List Char} {m : Matched} {ms : List Matched} {len num : Nat}
    (h1 : p.matched cs = .ok (some m)) (h2 : execPats ps (cs.drop (m.chars.length + m.ignore)) = .ok (ms, len, num)) :
    execPats (p :: ps) cs = .ok (m :: ms, m.chars.length + m.ignore + len, num + 1) := by
  rw [execPats, h1]
  simp only [h2]

theorem findRule_nest (not : Bool) {w rest : List Char} (hw : Blank w) (hr : Stops isAsciiWs rest) :
    findRule ruleTable (nestHead not ++ w ++ rest) =
      .ok (some (nestRule not, [{ chars := nestHead not }, { chars := w }], (nestHead not ++ w).length, 2)) := by
  have hex : execPats (nestRule not).queues (nestHead not ++ w ++ rest) =
      .ok ([{ chars := nestHead not }, { chars := w }], (nestHead not ++ w).length, 2) := by
    have h2 : execPats [.spaces, .nested, .spaces, .chr ')'] (w ++ rest) = .ok ([{ chars := w }], w.length, 1) := by
      simp only [execPats, spaces_matched hw hr]
      simp [Pat.matched]
    rw [List.append_assoc]
    have := execPats_step (lit_matched (nestHead not) (w ++ rest)) (by simpa using h2)
    simpa [nestRule, callQueues] using this
  cases not
  · have hskip : findRule ruleTable (nestHead false ++ w ++ rest) = findRule (ruleTable.drop 18) (nestHead false ++ w ++ rest) := rfl
    rw [hskip]
    exact findRule_hit (r := nestRule false) (rs := ruleTable.drop 19) hex (by simp [nestHead])
  · have hskip : findRule ruleTable (nestHead true ++ w ++ rest) = findRule (ruleTable.drop 16) (nestHead true ++ w ++ rest) := rfl
    rw [hskip]
    exact findRule_hit (r := nestRule true) (rs := ruleTable.drop 17) hex (by simp [nestHead])

theorem simText_nest {P : List Complex → List Char → Prop} {s : Sim} {t : List Char} (ht : SimText P s t) (hs : s.isNest = true) :
    ∃ b sel w u w', Blank w ∧ Blank w' ∧ P sel u ∧ t = nestHead b ++ (w ++ u ++ w' ++ [')']) ∧
      s = if b then .not sel else .has sel := by
  cases ht with
  | not hw hp hw' => exact ⟨true, _, _, _, _, hw, hw', hp, rfl, rfl⟩
  | has hw hp hw' => exact ⟨false, _, _, _, _, hw, hw', hp, rfl, rfl⟩
  | _ => cases hs

end Visdom
