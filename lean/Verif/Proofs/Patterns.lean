import Verif.Proofs.Regex
import Verif.Model.Parser
/-!
# The patterns on the texts of selectors
-/
namespace Visdom
open Spec

/-- What follows does not begin with a character satisfying `p`. -/
def Stops (p : Char → Bool) (rest : List Char) : Prop := ∀ x r, rest = x :: r → p x = false

theorem stops_nil {p : Char → Bool} : Stops p [] := by intro x r h; cases h
theorem stops_cons {p : Char → Bool} {x : Char} {r : List Char} (h : p x = false) : Stops p (x :: r) := by
  intro y s e; cases e; exact h
theorem stops_append {p : Char → Bool} {w r : List Char} (hw : ∀ x ∈ w, p x = false) (hr : Stops p r) : Stops p (w ++ r) := by
  cases w with
  | nil => exact hr
  | cons x w => exact stops_cons (hw x (List.mem_cons_self ..))

theorem takeWhile_stops {p : Char → Bool} {w r : List Char} (hw : ∀ x ∈ w, p x = true) (hr : Stops p r) :
    (w ++ r).takeWhile p = w := by
  induction w with
  | nil =>
    cases r with
    | nil => rfl
    | cons x r => simp [hr x r rfl]
  | cons x w ih =>
    rw [List.cons_append, List.takeWhile_cons_of_pos (hw x (List.mem_cons_self ..)),
      ih fun y hy => hw y (List.mem_cons_of_mem _ hy)]

theorem take_used (a b : List Char) : (a ++ b).take ((a ++ b).length - b.length) = a := by
  rw [List.length_append, Nat.add_sub_cancel, List.take_left]

/-! ## The splitter -/

theorem regexp_matched {ctx : List Char} {re : Re} (hre : getRule ctx = .ok re) (cs : List Char) :
    (Pat.regexp ctx).matched cs = .ok (match re.captures cs with
      | some (len, g) => some { chars := cs.take len, groups := g }
      | none => none) := by
  simp only [Pat.matched, hre]
  rfl

theorem getRule_splitter : getRule splitterCtx = .ok splitterRe := if_pos rfl
theorem getRule_attr : getRule attrCtx = .ok attrRe := by
  rw [getRule, if_neg (by decide), if_pos rfl]
theorem getRule_contains : getRule containsCtx = .ok containsRe := by
  rw [getRule, if_neg (by decide), if_neg (by decide), if_pos rfl]

theorem op_not_space {x : Char} (hx : isOp x = true) : isReSpace x = false := by
  simp only [isOp, List.contains_iff_mem] at hx
  simp only [List.mem_cons, List.not_mem_nil, or_false] at hx
  rcases hx with rfl | rfl | rfl | rfl <;> decide

theorem splitter_exec {cs : List Char} {len : Nat} {g : Caps} (hc : splitterRe.captures cs = some (len, g)) (hle : len ≤ cs.length) :
    execQueues splitterQueues cs = .ok (if len > 0 then some ([{ chars := cs.take len, groups := g }], len, 1) else none) := by
  simp only [execQueues, splitterQueues, execPats, regexp_matched getRule_splitter, hc, List.length_take,
    Nat.min_eq_left hle, Except.map, Nat.add_zero]

theorem splitter_exec_none {cs : List Char} (hc : splitterRe.captures cs = none) :
    execQueues splitterQueues cs = .ok none := by
  simp [execQueues, splitterQueues, execPats, regexp_matched getRule_splitter, hc, Except.map]

/-- A combinator character with white space around it. -/
theorem splitter_sign {w w' rest : List Char} {x : Char} (hw : Blank w) (hx : isOp x = true) (hw' : Blank w')
    (hr : Stops isReSpace rest) :
    ∃ g, execQueues splitterQueues (w ++ x :: w' ++ rest) =
      .ok (some ([{ chars := w ++ x :: w', groups := g }], (w ++ x :: w').length, 1)) := by
  have hrun : ∃ g, splitterRe.captures (w ++ x :: w' ++ rest) = some ((w ++ x :: w').length, g) := by
    refine ⟨[(1, w ++ x :: w')], ?_⟩
    have h2 : (w ++ x :: w' ++ rest).length - rest.length = (w ++ x :: w').length := by
      rw [List.length_append, Nat.add_sub_cancel]
    have h4 : w ++ x :: w' ++ rest = w ++ x :: (w' ++ rest) := by simp
    rw [Re.captures, splitterRe, run_grp]
    apply run_alt_left
    rw [run_seq]
    conv_lhs => enter [3]; rw [h4]
    refine run_many_one _ (stops_cons (op_not_space hx)) ?_ (blank_reSpace hw)
    rw [run_seq, run_one hx]
    refine run_many_one _ hr ?_ (blank_reSpace hw')
    rw [h2, List.take_left]
  obtain ⟨g, hg⟩ := hrun
  refine ⟨g, ?_⟩
  rw [splitter_exec hg (by simp), if_pos (by simp), List.take_left]

/-- White space only. -/
theorem splitter_space {w rest : List Char} (hw : Blank w) (hne : w ≠ []) (hr : Stops isReSpace rest) (ho : Stops isOp rest) :
    ∃ g, execQueues splitterQueues (w ++ rest) = .ok (some ([{ chars := w, groups := g }], w.length, 1)) := by
  have hrun : splitterRe.captures (w ++ rest) = some (w.length, [(1, w)]) := by
    rw [Re.captures, splitterRe, run_grp]
    rw [run_alt_right]
    · refine run_plus_one _ hr ?_ (blank_reSpace hw) hne
      simp
    rw [run_seq]
    apply run_none (q := fun x => isReSpace x = true) _ (show Re.Only _ (.many (.one isReSpace)) from fun x hx => hx)
    intro c' u s' hs hu
    rw [run_seq]
    apply run_one_fail
    have hsp : ∀ y, isReSpace y = true → isOp y = false := by
      intro y hy
      cases h : isOp y with
      | false => rfl
      | true => rw [op_not_space h] at hy; cases hy
    rcases List.append_eq_append_iff.1 hs with ⟨a, h1, h2⟩ | ⟨a, h1, h2⟩
    · cases a with
      | nil => rw [show s' = rest by simpa using h2.symm]; exact ho
      | cons y a =>
        have := hr y (a ++ s') h2
        rw [hu y (by simp [h1])] at this; cases this
    · subst h2
      exact stops_append (fun y hy => hsp y (blank_reSpace hw y (by simp [h1, hy]))) ho
  refine ⟨[(1, w)], ?_⟩
  rw [splitter_exec hrun (by simp), if_pos (List.length_pos_iff.2 hne), List.take_left]

/-- Anything else is not a combinator. -/
theorem splitter_none {rest : List Char} (hr : Stops isReSpace rest) (ho : Stops isOp rest) :
    execQueues splitterQueues rest = .ok none := by
  apply splitter_exec_none
  rw [Re.captures, splitterRe, run_grp, run_alt_right]
  · rw [Re.plus, run_seq]; exact run_one_fail hr _ _
  · rw [run_seq]
    cases rest with
    | nil => rfl
    | cons x r =>
      apply run_none (q := fun x => isReSpace x = true) _ (show Re.Only _ (.many (.one isReSpace)) from fun x hx => hx)
      intro c' u s' hs hu
      obtain ⟨t', h1, t'', h2⟩ := split_only (t := []) (by simp [hr x r rfl]) hs hu
      have : t' = [] := by simp at h2; exact h2.2
      subst this
      rw [h1, run_seq]
      exact run_one_fail ho _ _

theorem trim_sign {w w' : List Char} {x : Char} (hw : Blank w) (hx : isOp x = true) (hw' : Blank w') :
    trim (w ++ x :: w') = [x] := by
  have hx' : isUnicodeWs x = false := op_not_space hx
  have h1 : (w ++ x :: w').dropWhile isUnicodeWs = x :: w' := by
    rw [List.dropWhile_append_of_pos (p := isUnicodeWs) (blank_reSpace hw), List.dropWhile_cons_of_neg (by simp [hx'])]
  rw [trim, h1, List.reverse_cons, List.dropWhile_append_of_pos, List.dropWhile_cons_of_neg (by simp [hx'])]
  · rfl
  · intro y hy; exact blank_reSpace hw' y (List.mem_reverse.1 hy)

theorem trim_space {w : List Char} (hw : Blank w) : trim w = [] := by
  have h1 : w.dropWhile isUnicodeWs = [] := by
    have := List.dropWhile_append_of_pos (p := isUnicodeWs) (l₂ := []) (blank_reSpace hw)
    simpa using this
  rw [trim, h1]; rfl

/-! ## Identifiers -/

/-- A character that continues an identifier. -/
def isIdent (c : Char) : Bool := isAsciiAlnum c || c == '-' || c == '_' || c == '\\'

theorem nameStart_iff {c : Char} : NameStart c ↔ (isAsciiAlpha c || c == '_') = true := by
  simp [NameStart, isAsciiAlpha, isLowerAZ, isUpperAZ, or_assoc]
theorem digit_iff {c : Char} : Digit c ↔ isDigit09 c = true := by simp [Digit, isDigit09]
theorem nameChar_iff {c : Char} : NameChar c ↔ (isAsciiAlnum c || c == '-' || c == '_') = true := by
  rw [NameChar, nameStart_iff, digit_iff]
  simp only [isAsciiAlnum, Bool.or_eq_true, beq_iff_eq]
  tauto

theorem identLoop_tail {n t rest : List Char} (hn : IdTail n t) (hr : Stops isIdent rest) :
    ∃ k, identLoop false (t ++ rest) = (n, k) ∧ n.length + k = t.length := by
  induction hn with
  | nil =>
    refine ⟨0, ?_, rfl⟩
    cases rest with
    | nil => rfl
    | cons x r =>
      have := hr x r rfl
      simp only [isIdent, Bool.or_eq_false_iff] at this
      simp [identLoop, this]
  | @plain c n t hc _ ih =>
    obtain ⟨k, h1, h2⟩ := ih
    refine ⟨k, ?_, by simp; omega⟩
    rw [List.cons_append, identLoop, if_neg (by simp), if_pos (nameChar_iff.1 hc), h1]
  | @esc c n t _ ih =>
    obtain ⟨k, h1, h2⟩ := ih
    refine ⟨k + 1, ?_, by simp; omega⟩
    have : identLoop true (c :: (t ++ rest)) = (c :: n, k) := by
      rw [identLoop, if_pos rfl, h1]
    simp only [List.cons_append]
    rw [identLoop, if_neg (by simp), if_neg (by decide), if_pos (by decide), this]

theorem ident_text {n t rest : List Char} (hn : IdText n t) (hr : Stops isIdent rest) :
    ∃ k, Pat.identity.matched (t ++ rest) = .ok (some { chars := n, ignore := k }) ∧ n.length + k = t.length := by
  cases hn with
  | @mk c n t hc ht =>
    obtain ⟨k, h1, h2⟩ := identLoop_tail (.plain (.inl hc) ht) hr
    refine ⟨k, ?_, h2⟩
    rw [List.cons_append] at h1 ⊢
    simp only [Pat.matched, identMatched, nameStart_iff.1 hc, if_true, h1]

theorem identText_head {n t : List Char} (hn : IdText n t) : ∃ c t', t = c :: t' ∧ NameStart c := by
  cases hn with
  | mk hc _ => exact ⟨_, _, rfl, hc⟩

/-! ## Sequences of patterns -/

theorem execPats_cons {p : Pat} {ps : List Pat} {t u rest : List Char} {m : Matched} {ms : List Matched}
    (h1 : p.matched (t ++ (u ++ rest)) = .ok (some m)) (hl : m.chars.length + m.ignore = t.length)
    (h2 : execPats ps (u ++ rest) = .ok (ms, u.length, ps.length)) :
    execPats (p :: ps) (t ++ (u ++ rest)) = .ok (m :: ms, (t ++ u).length, (p :: ps).length) := by
  simp only [execPats, h1, hl, List.drop_left, h2, List.length_append, List.length_cons]

theorem execPats_nil (rest : List Char) : execPats [] ([] ++ rest) = .ok ([], ([] : List Char).length, ([] : List Pat).length) := rfl

theorem spaces_matched {w rest : List Char} (hw : Blank w) (hr : Stops isAsciiWs rest) :
    Pat.spaces.matched (w ++ rest) = .ok (some { chars := w }) := by
  simp only [Pat.matched, takeWhile_stops (blank_ascii hw) hr]

theorem lit_matched (l rest : List Char) : (Pat.lit l).matched (l ++ rest) = .ok (some { chars := l }) := by
  have : l.isPrefixOf (l ++ rest) = true := List.isPrefixOf_iff_prefix.2 (List.prefix_append l rest)
  simp only [Pat.matched, this, if_true]

theorem chr_matched (c : Char) (rest : List Char) : (Pat.chr c).matched ([c] ++ rest) = .ok (some { chars := [c] }) := by
  simp [Pat.matched]

/-- White space and a closing character. -/
theorem execPats_close {w : List Char} {c : Char} (rest : List Char) (hw : Blank w) (hc : isAsciiWs c = false) :
    execPats [.spaces, .chr c] (w ++ ([c] ++ rest)) = .ok ([{ chars := w }, { chars := [c] }], (w ++ [c]).length, 2) :=
  execPats_cons (spaces_matched hw (stops_cons hc)) (by simp)
    (by simpa using execPats_cons (u := []) (chr_matched c rest) (by simp) (execPats_nil rest))

/-- White space, a pattern, white space and a closing parenthesis. -/
theorem execPats_call {head w t w' rest : List Char} {p : Pat} {m : Matched} (hw : Blank w) (hw' : Blank w')
    (ht : Stops isAsciiWs (t ++ (w' ++ ([')'] ++ rest)))) (hp : p.matched (t ++ (w' ++ ([')'] ++ rest))) = .ok (some m))
    (hl : m.chars.length + m.ignore = t.length) :
    execPats (callQueues head p) (head ++ (w ++ t ++ w' ++ [')']) ++ rest) =
      .ok ([{ chars := head }, { chars := w }, m, { chars := w' }, { chars := [')'] }],
        (head ++ (w ++ t ++ w' ++ [')'])).length, (callQueues head p).length) := by
  have h1 := execPats_close (c := ')') rest hw' (by decide)
  have h2 : execPats [p, .spaces, .chr ')'] (t ++ ((w' ++ [')']) ++ rest)) =
      .ok ([m, { chars := w' }, { chars := [')'] }], (t ++ (w' ++ [')'])).length, 3) :=
    execPats_cons (by simpa using hp) hl (by simpa using h1)
  have h3 : execPats [.spaces, p, .spaces, .chr ')'] (w ++ ((t ++ (w' ++ [')'])) ++ rest)) =
      .ok ([{ chars := w }, m, { chars := w' }, { chars := [')'] }], (w ++ (t ++ (w' ++ [')']))).length, 4) :=
    execPats_cons (spaces_matched hw (by simpa using ht)) (by simp) (by simpa using h2)
  have h4 := execPats_cons (p := .lit head) (t := head) (u := w ++ (t ++ (w' ++ [')']))) (rest := rest)
    (lit_matched head _) (by simp)
    (by rw [show (w ++ (t ++ (w' ++ [')']))) ++ rest = w ++ ((t ++ (w' ++ [')'])) ++ rest) by simp]; exact h3)
  simpa [callQueues] using h4

/-! ## Attributes -/

theorem keyChar_available {c : Char} (hc : KeyChar c) : isCharAvailableInKey c = true := by
  rcases hc with hc | rfl | rfl | ⟨h1, h2, h3, h4⟩
  · have := nameChar_iff.1 hc
    simp only [Bool.or_eq_true, beq_iff_eq] at this
    unfold isCharAvailableInKey
    rcases this with (h | rfl) | rfl
    · simp [h]
    · decide
    · decide
  · decide
  · decide
  · have hws : isAsciiWs c = false := by
      simp only [isAsciiWs, Bool.or_eq_false_iff, beq_eq_false_iff_ne]
      refine ⟨⟨⟨⟨?_, ?_⟩, ?_⟩, ?_⟩, ?_⟩ <;> (rintro rfl; revert h1; decide)
    have hz : (c == Char.ofNat 0) = false := by
      rw [beq_eq_false_iff_ne]; rintro rfl; revert h1; decide
    have hctl : isAsciiControl c = false := by simp [isAsciiControl]; omega
    have hp : isAsciiPunct c = false := by simp [isAsciiPunct]; omega
    have hnc : isNonCharacter c = false := by
      simp only [isNonCharacter, Bool.or_eq_false_iff, beq_eq_false_iff_ne, Bool.and_eq_false_iff, decide_eq_false_iff_not]
      refine ⟨⟨?_, h3⟩, h4⟩
      by_contra hcon
      apply h2
      omega
    unfold isCharAvailableInKey
    split
    · rfl
    · simp [hws, hctl, hnc, hp, hz]

theorem blank_notKey {w : List Char} (hw : Blank w) : ∀ x ∈ w, isCharAvailableInKey x = false := by
  intro x hx
  rcases hw x hx with rfl | rfl | rfl | rfl | rfl <;> decide

theorem attrKey_matched {k rest : List Char} (hk : KeyText k) (hr : Stops isCharAvailableInKey rest) :
    Pat.attrKey.matched (k ++ rest) = .ok (some { chars := k }) := by
  have h1 := takeWhile_stops (fun x hx => keyChar_available (hk.2 x hx)) hr
  have h2 : k.isEmpty = false := by cases k with
    | nil => exact absurd rfl hk.1
    | cons => rfl
  simp only [Pat.matched, h1, h2]
  rfl

theorem keyText_stops {k : List Char} (hk : KeyText k) (rest : List Char) : Stops isAsciiWs (k ++ rest) := by
  obtain ⟨c, k', rfl⟩ := List.exists_cons_of_ne_nil hk.1
  apply stops_cons
  have := keyChar_available (hk.2 c (List.mem_cons_self ..))
  cases h : isAsciiWs c with
  | false => rfl
  | true =>
    simp only [isAsciiWs, Bool.or_eq_true, beq_iff_eq] at h
    rcases h with (((rfl | rfl) | rfl) | rfl) | rfl <;> exact absurd this (by decide)

theorem attrRe_absent (rest : List Char) : attrRe.captures (']' :: rest) = some (0, []) := by
  rw [Re.captures, attrRe, run_opt_none]
  · simp
  rw [run_seq, run_grp, run_opt_none (run_one_fail (stops_cons (by decide)) _ _), run_seq]
  exact run_one_fail (stops_cons (by decide)) _ _

theorem isBareAttr_iff {c : Char} : isBareAttr c = true ↔ isUnicodeWs c = false ∧ c ≠ ']' ∧ c ∉ ['\'', '"', '<', '>', '/', '=', '`'] := by
  simp [isBareAttr, isReSpace]
theorem isBareText_iff {c : Char} : isBareText c = true ↔ isUnicodeWs c = false ∧ c ≠ ')' ∧ c ∉ ['\'', '"', '<', '>', '/', '=', '`'] := by
  simp [isBareText, isReSpace]

/-- The alternatives for the value. -/
def valueRe : Re := .alt (quotedRe 2 '\'') (.alt (.grp 3 (.plus (.one isBareAttr))) (quotedRe 4 '"'))

/-- The group the value is found in. -/
def valueGroup (t : List Char) : Nat := if t.head? = some '\'' then 2 else if t.head? = some '"' then 4 else 3

theorem chr_fail {α : Type} {x y : Char} (hxy : y ≠ x) (c : Caps) (s : List Char) (k : Caps → List Char → Option α) :
    (Re.chr x).run c (y :: s) k = none := by simp [Re.chr, Re.run, hxy]
theorem quoted_fail {α : Type} {n : Nat} {x y : Char} (hxy : y ≠ x) (c : Caps) (s : List Char) (k : Caps → List Char → Option α) :
    (quotedRe n x).run c (y :: s) k = none := by
  rw [quotedRe, run_seq]
  exact chr_fail hxy c s _

theorem valueRe_run {α : Type} {v t rest : List Char} (hv : ValueText ']' v t) (hr : Stops isBareAttr rest) (c : Caps)
    {k : Caps → List Char → Option α} {a : α} (hk : k ((valueGroup t, v) :: c) rest = some a) :
    valueRe.run c (t ++ rest) k = some a := by
  have h0 : ∀ s (k : Caps → List Char → Option α), valueRe.run c s k = match (quotedRe 2 '\'').run c s k with
      | some x => some x
      | none => match (Re.grp 3 (.plus (.one isBareAttr))).run c s k with
        | some x => some x
        | none => (quotedRe 4 '"').run c s k := fun _ _ => rfl
  cases hv with
  | bare hne hb =>
    obtain ⟨x, t', rfl⟩ := List.exists_cons_of_ne_nil hne
    have hx := hb x (List.mem_cons_self ..)
    have hx1 : x ≠ '\'' := by intro e; exact hx.2.2 (by simp [e])
    have hx2 : x ≠ '"' := by intro e; exact hx.2.2 (by simp [e])
    have hg : valueGroup (x :: t') = 3 := by simp [valueGroup, hx1, hx2]
    rw [hg] at hk
    have h1 : (Re.grp 3 (.plus (.one isBareAttr))).run c (x :: t' ++ rest) k = some a := by
      show (Re.plus (.one isBareAttr)).run c (x :: t' ++ rest) _ = some a
      apply run_plus_one c hr _ (fun y hy => isBareAttr_iff.2 ⟨wsTable_not.2 (hb y hy).1, (hb y hy).2⟩) hne
      rw [take_used]; exact hk
    rw [h0, List.cons_append, quoted_fail hx1]
    rw [List.cons_append] at h1
    simp only [h1]
  | @quoted q _ hq hv =>
    rcases hq with rfl | rfl
    · have := run_quoted (n := 2) (by decide) hv c (rest := rest) (k := k) (a := a) (by simpa [valueGroup] using hk)
      rw [h0]
      simp only [List.cons_append, List.append_assoc, List.nil_append, this]
    · have := run_quoted (n := 4) (by decide) hv c (rest := rest) (k := k) (a := a) (by simpa [valueGroup] using hk)
      rw [h0]
      simp only [List.cons_append, List.append_assoc, List.nil_append]
      rw [quoted_fail (by decide)]
      have h1 : (Re.grp 3 (.plus (.one isBareAttr))).run c ('"' :: (v ++ '"' :: rest)) k = none := by
        have : isBareAttr '"' = false := by decide
        simp [Re.run, Re.plus, this]
      simp only [h1, this]

theorem valueText_stops {close : Char} {v t : List Char} (hv : ValueText close v t) (rest : List Char) :
    Stops isReSpace (t ++ rest) := by
  cases hv with
  | bare hne hb =>
    obtain ⟨x, t', rfl⟩ := List.exists_cons_of_ne_nil hne
    exact stops_cons (wsTable_not.2 (hb x (List.mem_cons_self ..)).1)
  | quoted hq _ => rcases hq with rfl | rfl <;> exact stops_cons (by decide)

/-- The groups of an attribute test. -/
theorem attrRe_test {o : AttrTest} {w v t rest : List Char} (hw : Blank w) (hv : ValueText ']' v t) (hr : Stops isBareAttr rest) :
    attrRe.captures ((testText o ++ '=' :: (w ++ t)) ++ rest) =
      some ((testText o ++ '=' :: (w ++ t)).length, [(valueGroup t, v), (1, testText o)]) := by
  have hlen : ((testText o ++ '=' :: (w ++ t)) ++ rest).length - rest.length = (testText o ++ '=' :: (w ++ t)).length := by
    rw [List.length_append, Nat.add_sub_cancel]
  have h0 : ∀ k : Caps → List Char → Option (Nat × Caps), k [(valueGroup t, v), (1, testText o)] rest =
      some ((testText o ++ '=' :: (w ++ t)).length, [(valueGroup t, v), (1, testText o)]) →
      (Re.many (.one isReSpace)).run [(1, testText o)] (w ++ (t ++ rest)) (fun c' s' => valueRe.run c' s' k) =
        some ((testText o ++ '=' :: (w ++ t)).length, [(valueGroup t, v), (1, testText o)]) := by
    intro k hk
    exact run_many_one _ (valueText_stops hv rest) (valueRe_run hv hr _ hk) (blank_reSpace hw)
  have hcase : testText o = [] ∨ ∃ x, testText o = [x] ∧ isAttrOp x = true := by
    cases o
    · exact .inl rfl
    all_goals exact .inr ⟨_, rfl, by decide⟩
  rw [Re.captures, attrRe]
  apply run_opt_some
  rw [run_seq, run_grp]
  rcases hcase with ho | ⟨x, ho, hx⟩
  · rw [ho] at h0 hlen ⊢
    simp only [List.nil_append, List.cons_append, List.append_assoc] at h0 hlen ⊢
    rw [run_opt_none (run_one_fail (stops_cons (by decide)) _ _)]
    simp only [Nat.sub_self, List.take_zero]
    rw [run_seq, run_chr, run_seq]
    apply h0
    rw [hlen]
  · rw [ho] at h0 hlen ⊢
    simp only [List.nil_append, List.cons_append, List.append_assoc] at h0 hlen ⊢
    apply run_opt_some
    rw [run_one hx]
    simp only [List.length_cons, Nat.add_sub_cancel_left, List.take_succ_cons, List.take_zero]
    rw [run_seq, run_chr, run_seq]
    apply h0
    rw [show (w ++ (t ++ rest)).length + 1 + 1 - rest.length = (x :: '=' :: (w ++ t)).length from hlen]

/-! ## The text of `:contains` -/

theorem containsRe_value {v t rest : List Char} (hv : ValueText ')' v t) (hr : Stops isBareText rest) :
    ∃ g, containsRe.captures (t ++ rest) = some (t.length, g) := by
  have hlen : (t ++ rest).length - rest.length = t.length := by rw [List.length_append, Nat.add_sub_cancel]
  cases hv with
  | bare hne hb =>
    obtain ⟨x, t', rfl⟩ := List.exists_cons_of_ne_nil hne
    have hx := hb x (List.mem_cons_self ..)
    have hx1 : x ≠ '\'' := by intro e; exact hx.2.2 (by simp [e])
    have hx2 : x ≠ '"' := by intro e; exact hx.2.2 (by simp [e])
    refine ⟨[(3, x :: t')], ?_⟩
    rw [Re.captures, containsRe]
    conv_lhs => enter [3]; rw [List.cons_append]
    rw [run_alt_right (quoted_fail hx1 _ _ _), run_alt_right (quoted_fail hx2 _ _ _), run_grp, ← List.cons_append]
    refine run_many_one _ hr ?_ fun y hy => isBareText_iff.2 ⟨wsTable_not.2 (hb y hy).1, (hb y hy).2⟩
    rw [take_used, hlen]
  | @quoted q _ hq hv =>
    have e : q :: (v ++ [q]) ++ rest = q :: (v ++ q :: rest) := by simp
    rw [e] at hlen ⊢
    rcases hq with rfl | rfl
    · refine ⟨[(1, v)], ?_⟩
      rw [Re.captures, containsRe]
      refine run_alt_left (run_quoted (by decide) hv _ ?_)
      rw [hlen]
    · refine ⟨[(2, v)], ?_⟩
      rw [Re.captures, containsRe, run_alt_right (quoted_fail (by decide) _ _ _)]
      refine run_alt_left (run_quoted (by decide) hv _ ?_)
      rw [hlen]

theorem contains_matched {v t rest : List Char} (hv : ValueText ')' v t) (hr : Stops isBareText rest) :
    ∃ g, (Pat.regexp containsCtx).matched (t ++ rest) = .ok (some { chars := t, groups := g }) := by
  obtain ⟨g, hg⟩ := containsRe_value hv hr
  exact ⟨g, by rw [regexp_matched getRule_contains, hg]; simp⟩

/-! ## Numbers -/

theorem digit_reDigit {c : Char} (hc : isDigit09 c = true) : isReDigit c = true := by
  simp only [isDigit09, Bool.and_eq_true, decide_eq_true_eq] at hc
  rw [isReDigit, List.any_eq_true]
  exact ⟨0x30, by decide, by simp; omega⟩

theorem digit19 {c : Char} (hc : isDigit09 c = true) (h0 : c ≠ '0') : isDigit19 c = true := by
  simp only [isDigit09, Bool.and_eq_true, decide_eq_true_eq] at hc
  simp only [isDigit19, Bool.and_eq_true, decide_eq_true_eq]
  refine ⟨?_, hc.2⟩
  by_contra hlt
  apply h0
  apply Char.ext
  apply UInt32.toNat_inj.1
  show c.toNat = 48
  omega

theorem run_number {α : Type} {n k : Nat} {t rest : List Char} (ht : NumText k t) (hr : Stops isReDigit rest) (c : Caps)
    {f : Caps → List Char → Option α} {a : α} (hf : f ((n, t) :: c) rest = some a) :
    (numberRe n).run c (t ++ rest) f = some a := by
  obtain ⟨hd, hne, hz, -, -⟩ := ht
  have hd' : ∀ x ∈ t, isDigit09 x = true := fun x hx => digit_iff.1 (hd x hx)
  rw [numberRe, run_grp]
  cases t with
  | nil => exact absurd rfl hne
  | cons x t =>
    cases t with
    | nil =>
      rw [run_alt_right]
      · rw [List.cons_append, List.nil_append, run_one (hd' x (by simp))]
        rw [show (x :: rest).take ((x :: rest).length - rest.length) = [x] from take_used [x] rest]
        exact hf
      · rw [run_seq, List.cons_append, List.nil_append]
        by_cases h19 : isDigit19 x = true
        · rw [run_one h19, Re.plus, run_seq]
          exact run_one_fail hr _ _
        · exact run_one_fail (stops_cons (by simpa using h19)) _ _
    | cons y t =>
      apply run_alt_left
      have h0 : x ≠ '0' := by
        rintro rfl
        have := hz rfl
        simp at this
      rw [run_seq, List.cons_append, run_one (digit19 (hd' x (by simp)) h0)]
      refine run_plus_one _ hr ?_ (fun z hz => digit_reDigit (hd' z (List.mem_cons_of_mem _ hz))) (by simp)
      rw [← List.cons_append, take_used]
      exact hf

/-- The groups with an optional one. -/
def capOpt (n : Nat) (t : List Char) (c : Caps) : Caps := if t = [] then c else (n, t) :: c

theorem run_sign {α : Type} {n : Nat} {neg : Bool} {s rest : List Char} (hs : SignText neg s) (c : Caps)
    {f : Caps → List Char → Option α} {a : α} (hf : f ((n, s) :: c) rest = some a) :
    (signRe n).run c (s ++ rest) f = some a := by
  cases hs
  all_goals
    rw [signRe, run_grp, List.cons_append, List.nil_append, run_one (by decide)]
    simpa using hf

theorem run_sign? {α : Type} {n : Nat} {neg : Bool} {s rest : List Char} (hs : SignText? neg s) (hr : Stops isSign rest)
    (c : Caps) {f : Caps → List Char → Option α} {a : α} (hf : f (capOpt n s c) rest = some a) :
    (Re.opt (signRe n)).run c (s ++ rest) f = some a := by
  cases hs with
  | none =>
    rw [run_opt_none]
    · exact hf
    · rw [signRe, run_grp]; exact run_one_fail hr _ _
  | some hs =>
    apply run_opt_some
    apply run_sign hs
    cases hs <;> simpa [capOpt] using hf

theorem run_coef {α : Type} {n k : Nat} {t rest : List Char} (ht : CoefText k t) (hr : Stops isReDigit rest)
    (c : Caps) {f : Caps → List Char → Option α} {a : α} (hf : f (capOpt n t c) rest = some a) :
    (Re.opt (numberRe n)).run c (t ++ rest) f = some a := by
  cases ht with
  | none =>
    have hr' : Stops isDigit09 rest := by
      intro x r e
      cases h : isDigit09 x with
      | false => rfl
      | true => rw [← hr x r e, digit_reDigit h]
    have hr'' : Stops isDigit19 rest := by
      intro x r e
      cases h : isDigit19 x with
      | false => rfl
      | true =>
        have : isDigit09 x = true := by
          simp only [isDigit19, Bool.and_eq_true, decide_eq_true_eq] at h
          simp only [isDigit09, Bool.and_eq_true, decide_eq_true_eq]
          omega
        rw [← hr' x r e, this]
    rw [run_opt_none]
    · exact hf
    · rw [numberRe, run_grp, List.nil_append, run_alt_right]
      · exact run_one_fail hr' _ _
      · rw [run_seq]; exact run_one_fail hr'' _ _
  | some ht =>
    apply run_opt_some
    apply run_number ht hr
    simpa [capOpt, ht.2.1] using hf

theorem numText_head {k : Nat} {t : List Char} (ht : NumText k t) : ∃ x t', t = x :: t' ∧ isDigit09 x = true := by
  obtain ⟨x, t', rfl⟩ := List.exists_cons_of_ne_nil ht.2.1
  exact ⟨x, t', rfl, digit_iff.1 (ht.1 x (by simp))⟩

theorem digit_not {x : Char} (hx : isDigit09 x = true) {p : Char → Bool}
    (hp : ∀ y ∈ ['0', '1', '2', '3', '4', '5', '6', '7', '8', '9'], p y = false) : p x = false := by
  simp only [isDigit09, Bool.and_eq_true, decide_eq_true_eq] at hx
  have key : ∀ n : Nat, ∀ y : Char, y.toNat = n → x.toNat = n → x = y := by
    intro n y h1 h2
    apply Char.ext
    apply UInt32.toNat_inj.1
    show x.toNat = y.toNat
    omega
  have : x = '0' ∨ x = '1' ∨ x = '2' ∨ x = '3' ∨ x = '4' ∨ x = '5' ∨ x = '6' ∨ x = '7' ∨ x = '8' ∨ x = '9' := by
    have h10 : x.toNat = 48 ∨ x.toNat = 49 ∨ x.toNat = 50 ∨ x.toNat = 51 ∨ x.toNat = 52 ∨ x.toNat = 53 ∨ x.toNat = 54 ∨
      x.toNat = 55 ∨ x.toNat = 56 ∨ x.toNat = 57 := by omega
    rcases h10 with e | e | e | e | e | e | e | e | e | e
    · exact .inl (key 48 _ rfl e)
    · exact .inr (.inl (key 49 _ rfl e))
    · exact .inr (.inr (.inl (key 50 _ rfl e)))
    · exact .inr (.inr (.inr (.inl (key 51 _ rfl e))))
    · exact .inr (.inr (.inr (.inr (.inl (key 52 _ rfl e)))))
    · exact .inr (.inr (.inr (.inr (.inr (.inl (key 53 _ rfl e))))))
    · exact .inr (.inr (.inr (.inr (.inr (.inr (.inl (key 54 _ rfl e)))))))
    · exact .inr (.inr (.inr (.inr (.inr (.inr (.inr (.inl (key 55 _ rfl e))))))))
    · exact .inr (.inr (.inr (.inr (.inr (.inr (.inr (.inr (.inl (key 56 _ rfl e)))))))))
    · exact .inr (.inr (.inr (.inr (.inr (.inr (.inr (.inr (.inr (key 57 _ rfl e)))))))))
  rcases this with rfl | rfl | rfl | rfl | rfl | rfl | rfl | rfl | rfl | rfl <;> exact hp _ (by simp)

theorem numText_stops {k : Nat} {t : List Char} (ht : NumText k t) (rest : List Char) {p : Char → Bool}
    (hp : ∀ y ∈ ['0', '1', '2', '3', '4', '5', '6', '7', '8', '9'], p y = false) : Stops p (t ++ rest) := by
  obtain ⟨x, t', rfl, hx⟩ := numText_head ht
  exact stops_cons (digit_not hx hp)

/-- What follows the argument of a pseudo-class. -/
theorem close_stops {w rest : List Char} (hw : Blank w) {p : Char → Bool}
    (hp : ∀ y ∈ [')', ' ', '\t', '\n', '\r', Char.ofNat 12], p y = false) : Stops p (w ++ ')' :: rest) := by
  apply stops_append _ (stops_cons (hp _ (by simp)))
  intro x hx
  rcases hw x hx with rfl | rfl | rfl | rfl | rfl <;> exact hp _ (by simp)

theorem coef_stops {k : Nat} {t : List Char} (ht : CoefText k t) (rest : List Char) :
    Stops isSign (t ++ 'n' :: rest) := by
  cases ht with
  | none => exact stops_cons (by decide)
  | some ht => exact numText_stops ht _ (by decide)

/-- The groups of `an`. -/
theorem nthRe_an {neg : Bool} {k : Nat} {s t w rest : List Char} (hs : SignText? neg s) (ht : CoefText k t) (hw : Blank w) :
    nthRe.captures (s ++ t ++ ['n'] ++ (w ++ ')' :: rest)) =
      some ((s ++ t ++ ['n']).length, capOpt 2 t (capOpt 1 s [])) := by
  have hlen : (s ++ t ++ ['n'] ++ (w ++ ')' :: rest)).length - (w ++ ')' :: rest).length = (s ++ t ++ ['n']).length := by
    rw [List.length_append, Nat.add_sub_cancel]
  rw [Re.captures, nthRe]
  apply run_alt_left
  rw [run_seq]
  have e : s ++ t ++ ['n'] ++ (w ++ ')' :: rest) = s ++ (t ++ 'n' :: (w ++ ')' :: rest)) := by simp
  conv_lhs => enter [3]; rw [e]
  refine run_sign? hs (coef_stops ht _) _ ?_
  rw [run_seq]
  refine run_coef ht (stops_cons (by decide)) _ ?_
  rw [run_seq, run_chr, run_opt_none]
  · rw [hlen]
  · rw [run_seq]
    apply run_none (q := fun x => isReSpace x = true) _ (show Re.Only _ (.many (.one isReSpace)) from fun x hx => hx)
    intro c' u s' hs' hu
    rw [run_seq, signRe, run_grp]
    apply run_one_fail
    obtain ⟨t', h1, t'', h2⟩ := split_only (by decide) hs' hu
    rw [h1]
    have hb : Blank t' := fun x hx => hw x (by rw [h2]; exact List.mem_append_right _ hx)
    exact close_stops hb (by decide)

/-- The groups of `an+b`. -/
theorem nthRe_anb {neg neg' : Bool} {k k' : Nat} {s t w s' w' t' rest : List Char} (hs : SignText? neg s) (ht : CoefText k t)
    (hw : Blank w) (hs' : SignText neg' s') (hw' : Blank w') (ht' : NumText k' t') (hr : Stops isReDigit rest) :
    nthRe.captures (s ++ t ++ 'n' :: (w ++ s' ++ w' ++ t') ++ rest) =
      some ((s ++ t ++ 'n' :: (w ++ s' ++ w' ++ t')).length, (4, t') :: (3, s') :: capOpt 2 t (capOpt 1 s [])) := by
  have hlen : (s ++ t ++ 'n' :: (w ++ s' ++ w' ++ t') ++ rest).length - rest.length =
      (s ++ t ++ 'n' :: (w ++ s' ++ w' ++ t')).length := by
    rw [List.length_append, Nat.add_sub_cancel]
  rw [Re.captures, nthRe]
  apply run_alt_left
  rw [run_seq]
  have e : s ++ t ++ 'n' :: (w ++ s' ++ w' ++ t') ++ rest = s ++ (t ++ 'n' :: (w ++ (s' ++ (w' ++ (t' ++ rest))))) := by simp
  conv_lhs => enter [3]; rw [e]
  refine run_sign? hs (coef_stops ht _) _ ?_
  rw [run_seq]
  refine run_coef ht (stops_cons (by decide)) _ ?_
  rw [run_seq, run_chr]
  apply run_opt_some
  rw [run_seq]
  have hsp : Stops isReSpace (s' ++ (w' ++ (t' ++ rest))) := by
    cases hs' <;> exact stops_cons (by decide)
  refine run_many_one _ hsp ?_ (blank_reSpace hw)
  rw [run_seq]
  apply run_sign hs'
  rw [run_seq]
  refine run_many_one _ (numText_stops ht' _ (by decide)) ?_ (blank_reSpace hw')
  apply run_number ht' hr
  rw [hlen]

/-- A sign or a digit. -/
def isNumSign (c : Char) : Bool := isReDigit c || isSign c

theorem sign?_numSign {neg : Bool} {s : List Char} (hs : SignText? neg s) : ∀ x ∈ s, isNumSign x = true := by
  cases hs with
  | none => simp
  | some hs => cases hs <;> (intro x hx; rw [List.mem_singleton.1 hx]; decide)

/-- The groups of a plain number. -/
theorem nthRe_idx {neg : Bool} {k : Nat} {s t w rest : List Char} (hs : SignText? neg s) (ht : NumText k t) (hw : Blank w) :
    nthRe.captures (s ++ t ++ (w ++ ')' :: rest)) = some ((s ++ t).length, (6, t) :: capOpt 5 s []) := by
  have hlen : (s ++ t ++ (w ++ ')' :: rest)).length - (w ++ ')' :: rest).length = (s ++ t).length := by
    rw [List.length_append, Nat.add_sub_cancel]
  rw [Re.captures, nthRe, run_alt_right]
  · rw [run_seq]
    have e : s ++ t ++ (w ++ ')' :: rest) = s ++ (t ++ (w ++ ')' :: rest)) := by simp
    conv_lhs => enter [3]; rw [e]
    refine run_sign? hs (numText_stops ht _ (by decide)) _ ?_
    apply run_number ht (close_stops hw (by decide))
    rw [hlen]
  · obtain ⟨z, r, hz, hzn⟩ : ∃ z r, w ++ ')' :: rest = z :: r ∧ isNumSign z = false ∧ z ≠ 'n' := by
      cases w with
      | nil => exact ⟨_, _, rfl, by decide, by decide⟩
      | cons z w =>
        refine ⟨z, _, rfl, ?_⟩
        rcases hw z (by simp) with rfl | rfl | rfl | rfl | rfl <;> exact ⟨by decide, by decide⟩
    rw [hz, run_seq]
    have hall : ∀ x ∈ s ++ t, isNumSign x = true := by
      intro x hx
      rcases List.mem_append.1 hx with hx | hx
      · exact sign?_numSign hs x hx
      · simp [isNumSign, digit_reDigit (digit_iff.1 (ht.1 x hx))]
    apply run_none (q := fun x => isNumSign x = true) _ (show Re.Only _ (.opt (signRe 1)) from fun x hx => by
      simp [isNumSign, hx])
    intro c' u s' hs' hu
    rw [run_seq]
    apply run_none (q := fun x => isNumSign x = true) _ (show Re.Only _ (.opt (numberRe 2)) from by
      refine ⟨⟨fun x hx => ?_, fun x hx => ?_, fun x hx => ?_⟩, fun x hx => ?_⟩
      · have : isDigit09 x = true := by
          simp only [isDigit19, Bool.and_eq_true, decide_eq_true_eq] at hx
          simp only [isDigit09, Bool.and_eq_true, decide_eq_true_eq]
          omega
        simp [isNumSign, digit_reDigit this]
      · simp [isNumSign, hx]
      · simp [isNumSign, hx]
      · simp [isNumSign, digit_reDigit hx])
    intro c'' u' s'' hs'' hu'
    rw [run_seq]
    apply run_one_fail
    have hcat : s ++ t ++ z :: r = (u ++ u') ++ s'' := by rw [hs', hs'', List.append_assoc]
    obtain ⟨t', h1, t'', h2⟩ := split_only (q := fun x => isNumSign x = true) (by simp [hzn.1]) hcat (by
      intro x hx
      rcases List.mem_append.1 hx with hx | hx
      · exact hu x hx
      · exact hu' x hx)
    rw [h1]
    refine stops_append (fun x hx => ?_) (stops_cons (by simpa using hzn.2))
    have := hall x (by rw [h2]; exact List.mem_append_right _ hx)
    cases hxn : (x == 'n') with
    | false => rfl
    | true => rw [eq_of_beq hxn] at this; exact absurd this (by decide)

/-- Neither `even` nor `odd` is a number. -/
theorem nthRe_word {x : Char} {r : List Char} (hx : isNumSign x = false) (hn : x ≠ 'n') : nthRe.captures (x :: r) = none := by
  simp only [isNumSign, Bool.or_eq_false_iff] at hx
  have h9 : isDigit09 x = false := by
    cases h : isDigit09 x with
    | false => rfl
    | true => rw [← hx.1, digit_reDigit h]
  have h19 : isDigit19 x = false := by
    cases h : isDigit19 x with
    | false => rfl
    | true =>
      have : isDigit09 x = true := by
        simp only [isDigit19, Bool.and_eq_true, decide_eq_true_eq] at h
        simp only [isDigit09, Bool.and_eq_true, decide_eq_true_eq]
        omega
      rw [← h9, this]
  have hnum : ∀ n c (k : Caps → List Char → Option (Nat × Caps)), (numberRe n).run c (x :: r) k = none := by
    intro n c k
    rw [numberRe, run_grp, run_alt_right]
    · exact run_one_fail (stops_cons h9) _ _
    · rw [run_seq]; exact run_one_fail (stops_cons h19) _ _
  have hsg : ∀ n c (k : Caps → List Char → Option (Nat × Caps)), (signRe n).run c (x :: r) k = none := by
    intro n c k
    rw [signRe, run_grp]; exact run_one_fail (stops_cons hx.2) _ _
  rw [Re.captures, nthRe, run_alt_right]
  · rw [run_seq, run_opt_none (hsg _ _ _), hnum]
  · rw [run_seq, run_opt_none (hsg _ _ _), run_seq, run_opt_none (hnum _ _ _), run_seq]
    exact chr_fail hn _ _ _

/-! ## Reading the numbers -/

theorem parseIsize_num {k : Nat} {t : List Char} (ht : NumText k t) : parseIsize t = some (k : Int) := by
  obtain ⟨x, t', rfl, hx⟩ := numText_head ht
  have h1 : x ≠ '-' := by rintro rfl; exact absurd hx (by decide)
  have h2 : x ≠ '+' := by rintro rfl; exact absurd hx (by decide)
  have hall : (x :: t').all isDigit09 = true := List.all_eq_true.2 fun y hy => digit_iff.1 (ht.1 y hy)
  obtain ⟨-, -, -, hdec, hlt⟩ := ht
  have : parseIsize (x :: t') = if (decimal (x :: t')) < 2 ^ 63 then some ((decimal (x :: t') : Nat) : Int) else none := by
    unfold parseIsize
    split
    rename_i neg ds heq
    split at heq
    · rename_i h; exact absurd (List.cons.inj h).1 h1
    · rename_i h; exact absurd (List.cons.inj h).1 h2
    · cases heq
      rw [hall]
      simp [decimal]
  rw [this, hdec, if_pos hlt]

theorem parseIsize_neg {k : Nat} {t : List Char} (ht : NumText k t) : parseIsize ('-' :: t) = some (-(k : Int)) := by
  have hall : t.all isDigit09 = true := List.all_eq_true.2 fun y hy => digit_iff.1 (ht.1 y hy)
  have hne : t.isEmpty = false := by
    cases t with
    | nil => exact absurd rfl ht.2.1
    | cons => rfl
  obtain ⟨-, -, -, hdec, hlt⟩ := ht
  have : parseIsize ('-' :: t) = if (decimal t) ≤ 2 ^ 63 then some (-((decimal t : Nat) : Int)) else none := by
    simp only [parseIsize, hall, hne, decimal]
    simp only [Bool.not_true, Bool.or_false, Bool.false_eq_true, if_false, if_true]
    congr
  rw [this, hdec, if_pos (Nat.le_of_lt hlt)]

/-- The text `get_number` returns. -/
def signedText (neg : Bool) (t : List Char) : List Char := if neg then '-' :: t else t

theorem parseIsize_signed {k : Nat} {t : List Char} (neg : Bool) (ht : NumText k t) :
    parseIsize (signedText neg t) = some (signed neg k) := by
  cases neg
  · exact parseIsize_num ht
  · exact parseIsize_neg ht

theorem one_numText : NumText 1 ['1'] := ⟨by intro c hc; rw [List.mem_singleton.1 hc]; exact ⟨by decide, by decide⟩, by simp, by decide, by decide, by decide⟩

/-- The coefficient as `get_number` returns it. -/
def coefText (t : List Char) : List Char := if t = [] then ['1'] else t

theorem coef_numText {k : Nat} {t : List Char} (ht : CoefText k t) : NumText k (coefText t) := by
  cases ht with
  | none => exact one_numText
  | some ht => rw [coefText, if_neg ht.2.1]; exact ht

theorem sign_iff {neg : Bool} {s : List Char} (hs : SignText neg s) : (some s = some ['-']) ↔ neg = true := by
  cases hs <;> decide
theorem sign?_cap {neg : Bool} {s : List Char} (hs : SignText? neg s) (n : Nat) :
    (capGet (capOpt n s []) n = some ['-']) ↔ neg = true := by
  cases hs with
  | none => simp [capOpt, capGet]
  | some hs => cases hs <;> simp [capOpt, capGet]

theorem nth_matched_an {neg : Bool} {k : Nat} {s t w rest : List Char} (hs : SignText? neg s) (ht : CoefText k t) (hw : Blank w) :
    nthMatched (s ++ t ++ ['n'] ++ (w ++ ')' :: rest)) =
      some { chars := s ++ t ++ ['n'], n := some (signedText neg (coefText t)), index := none } := by
  have hcap : nthRe.captures _ = _ := nthRe_an (rest := rest) hs ht hw
  have h6 : capGet (capOpt 2 t (capOpt 1 s [])) 6 = none := by
    unfold capOpt; split <;> split <;> simp [capGet]
  have h4 : capGet (capOpt 2 t (capOpt 1 s [])) 4 = none := by
    unfold capOpt; split <;> split <;> simp [capGet]
  have h2 : (capGet (capOpt 2 t (capOpt 1 s [])) 2).or (some ['1']) = some (coefText t) := by
    unfold capOpt coefText; split <;> split <;> simp [capGet]
  have h1 : (capGet (capOpt 2 t (capOpt 1 s [])) 1 = some ['-']) ↔ neg = true := by
    rw [← sign?_cap hs 1]
    have : capGet (capOpt 2 t (capOpt 1 s [])) 1 = capGet (capOpt 1 s []) 1 := by
      conv_lhs => rw [capOpt]
      split <;> simp [capGet]
    rw [this]
  unfold nthMatched
  rw [hcap]
  simp only [h6, nthNumber, h4, h2, Option.isSome_none, Bool.false_eq_true, if_false, Option.or_none, h1,
    List.take_left]
  simp [signedText]

theorem nth_matched_anb {neg neg' : Bool} {k k' : Nat} {s t w s' w' t' rest : List Char} (hs : SignText? neg s)
    (ht : CoefText k t) (hw : Blank w) (hs' : SignText neg' s') (hw' : Blank w') (ht' : NumText k' t')
    (hr : Stops isReDigit rest) :
    nthMatched (s ++ t ++ 'n' :: (w ++ s' ++ w' ++ t') ++ rest) =
      some { chars := s ++ t ++ 'n' :: (w ++ s' ++ w' ++ t'), n := some (signedText neg (coefText t)),
             index := some (signedText neg' t') } := by
  have hcap : nthRe.captures _ = _ := nthRe_anb (rest := rest) hs ht hw hs' hw' ht' hr
  have h6 : capGet ((4, t') :: (3, s') :: capOpt 2 t (capOpt 1 s [])) 6 = none := by
    unfold capOpt; split <;> split <;> simp [capGet]
  have h4 : capGet ((4, t') :: (3, s') :: capOpt 2 t (capOpt 1 s [])) 4 = some t' := by simp [capGet]
  have h3 : capGet ((4, t') :: (3, s') :: capOpt 2 t (capOpt 1 s [])) 3 = some s' := by simp [capGet]
  have h2 : (capGet ((4, t') :: (3, s') :: capOpt 2 t (capOpt 1 s [])) 2).or (some ['1']) = some (coefText t) := by
    unfold capOpt coefText; split <;> split <;> simp [capGet]
  have h1 : (capGet ((4, t') :: (3, s') :: capOpt 2 t (capOpt 1 s [])) 1 = some ['-']) ↔ neg = true := by
    rw [← sign?_cap hs 1]
    have : capGet ((4, t') :: (3, s') :: capOpt 2 t (capOpt 1 s [])) 1 = capGet (capOpt 1 s []) 1 := by
      conv_lhs => rw [capOpt]
      split <;> simp [capGet]
    rw [this]
  unfold nthMatched
  rw [hcap]
  simp only [h6, nthNumber, h4, h3, h2, Option.isSome_none, Bool.false_eq_true, if_false, Option.or_none, h1, sign_iff hs',
    List.take_left]
  simp [signedText]

theorem nth_matched_idx {neg : Bool} {k : Nat} {s t w rest : List Char} (hs : SignText? neg s) (ht : NumText k t) (hw : Blank w) :
    nthMatched (s ++ t ++ (w ++ ')' :: rest)) =
      some { chars := s ++ t, n := none, index := some (signedText neg t) } := by
  have hcap : nthRe.captures _ = _ := nthRe_idx (rest := rest) hs ht hw
  have h6 : capGet ((6, t) :: capOpt 5 s []) 6 = some t := by simp [capGet]
  have h5 : (capGet ((6, t) :: capOpt 5 s []) 5 = some ['-']) ↔ neg = true := by
    rw [← sign?_cap hs 5]
    simp [capGet]
  unfold nthMatched
  rw [hcap]
  simp only [h6, nthNumber, h5, Option.isSome_some, if_true, Option.some_or, List.take_left]
  simp [signedText]

/-- What `Nth` finds in a text of `an+b`. -/
theorem nth_matched {a b : Int} {t w rest : List Char} (ht : NthText a b t) (hw : Blank w) :
    ∃ n i, nthMatched (t ++ (w ++ ')' :: rest)) = some { chars := t, n := some n, index := i } ∧
      parseIsize n = some a ∧ i.map parseIsize ≠ some none ∧ (i.bind parseIsize).getD 0 = b := by
  cases ht with
  | an hs ht => exact ⟨_, _, nth_matched_an hs ht hw, parseIsize_signed _ (coef_numText ht), by simp, by simp⟩
  | @anb neg neg' k k' s t w s' w' t' hs ht hw1 hs' hw' ht' =>
    refine ⟨_, _, nth_matched_anb hs ht hw1 hs' hw' ht' (close_stops hw (by decide)), parseIsize_signed _ (coef_numText ht), ?_, ?_⟩
    · simp [parseIsize_signed _ ht']
    · simp [parseIsize_signed _ ht']
  | even =>
    refine ⟨['2'], some ['0'], ?_, by decide, by decide, by decide⟩
    have hc : nthRe.captures (['e', 'v', 'e', 'n'] ++ (w ++ ')' :: rest)) = none := nthRe_word (by decide) (by decide)
    unfold nthMatched
    rw [hc]
    rfl
  | odd =>
    refine ⟨['2'], some ['1'], ?_, by decide, by decide, by decide⟩
    have hc : nthRe.captures (['o', 'd', 'd'] ++ (w ++ ')' :: rest)) = none := nthRe_word (by decide) (by decide)
    unfold nthMatched
    rw [hc]
    rfl

theorem idx_matched {b : Int} {t w rest : List Char} (ht : IdxText b t) (hw : Blank w) :
    ∃ i, nthMatched (t ++ (w ++ ')' :: rest)) = some { chars := t, n := none, index := some i } ∧ parseIsize i = some b := by
  cases ht with
  | mk hs ht => exact ⟨_, nth_matched_idx hs ht hw, parseIsize_signed _ ht⟩

end Visdom
