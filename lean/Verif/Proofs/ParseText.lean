import Verif.Proofs.RuleText
/-!
# The parser on the texts of selectors
-/
namespace Visdom
open Spec

/-! ## What the texts begin with -/

theorem nameStart_plain {c : Char} (hc : NameStart c) : isReSpace c = false ∧ isOp c = false ∧ isAsciiWs c = false := by
  have h1 := nameStart_iff.1 hc
  have key : ∀ {p : Char → Bool}, (∀ y, p y = true → (isAsciiAlpha y || y == '_') = false) → p c = false := by
    intro p hp
    cases h : p c with
    | false => rfl
    | true => rw [hp c h] at h1; cases h1
  refine ⟨key ?_, key ?_, key ?_⟩
  · intro y hy
    have : ¬ (isAsciiAlpha y || y == '_') = true := by
      intro ha
      simp only [isReSpace, isUnicodeWs, Bool.or_eq_true, Bool.and_eq_true, decide_eq_true_eq, beq_iff_eq] at hy
      rcases nameStart_iff.2 ha with h | h | rfl
      · omega
      · omega
      · revert hy; decide
    simpa using this
  · intro y hy
    simp only [isOp, List.contains_iff_mem] at hy
    simp only [List.mem_cons, List.not_mem_nil, or_false] at hy
    rcases hy with rfl | rfl | rfl | rfl <;> decide
  · intro y hy
    simp only [isAsciiWs, Bool.or_eq_true, beq_iff_eq] at hy
    rcases hy with (((rfl | rfl) | rfl) | rfl) | rfl <;> decide

theorem simText_head {P : List Complex → List Char → Prop} {s : Sim} {t : List Char} (ht : SimText P s t) :
    ∃ c t', t = c :: t' ∧ isReSpace c = false ∧ isOp c = false ∧ isAsciiWs c = false ∧ (s.isName = false → isIdent c = false) := by
  cases ht with
  | name hn =>
    obtain ⟨c, t', rfl, hc⟩ := identText_head hn
    obtain ⟨h1, h2, h3⟩ := nameStart_plain hc
    exact ⟨c, t', rfl, h1, h2, h3, fun h => by cases h⟩
  | @nth last ofType =>
    cases last <;> cases ofType <;> exact ⟨_, _, rfl, by decide, by decide, by decide, fun _ => by decide⟩
  | @nthIdx last ofType =>
    cases last <;> cases ofType <;> exact ⟨_, _, rfl, by decide, by decide, by decide, fun _ => by decide⟩
  | @edge last ofType =>
    cases last <;> cases ofType <;> exact ⟨_, _, rfl, by decide, by decide, by decide, fun _ => by decide⟩
  | @only ofType => cases ofType <;> exact ⟨_, _, rfl, by decide, by decide, by decide, fun _ => by decide⟩
  | _ => exact ⟨_, _, rfl, by decide, by decide, by decide, fun _ => by decide⟩

theorem cmpdText_head {P : List Complex → List Char → Prop} {ss : List Sim} {t : List Char} (ht : CmpdText P ss t) :
    ∃ s l c t', ss = s :: l ∧ t = c :: t' ∧ isReSpace c = false ∧ isOp c = false ∧ isAsciiWs c = false ∧
      (s.isName = false → isIdent c = false) := by
  cases ht with
  | one h =>
    obtain ⟨c, t', rfl, h1⟩ := simText_head h
    exact ⟨_, _, c, t', rfl, rfl, h1⟩
  | cons h _ _ =>
    obtain ⟨c, t', rfl, h1⟩ := simText_head h
    exact ⟨_, _, c, _, rfl, rfl, h1⟩

theorem cmpd_stops {P : List Complex → List Char → Prop} {ss : List Sim} {t : List Char} (ht : CmpdText P ss t) (R : List Char) :
    (t ++ R).isEmpty = false ∧ Stops isReSpace (t ++ R) ∧ Stops isOp (t ++ R) ∧ Stops isAsciiWs (t ++ R) := by
  obtain ⟨s, l, c, t', -, rfl, h1, h2, h3, -⟩ := cmpdText_head ht
  exact ⟨rfl, stops_cons h1, stops_cons h2, stops_cons h3⟩

theorem sim_stops {P : List Complex → List Char → Prop} {s : Sim} {t : List Char} (ht : SimText P s t) (R : List Char) :
    (t ++ R).isEmpty = false ∧ Stops isReSpace (t ++ R) ∧ Stops isOp (t ++ R) :=
  let h := cmpd_stops (.one ht) R
  ⟨h.1, h.2.1, h.2.2.1⟩

theorem blank_notIdent {w : List Char} (hw : Blank w) : ∀ x ∈ w, isIdent x = false := by
  intro x hx
  rcases hw x hx with rfl | rfl | rfl | rfl | rfl <;> decide

theorem combChar_op {c : Comb} {x : Char} (hc : combChar c = some x) : isOp x = true ∧ isIdent x = false ∧ isAsciiWs x = false ∧
    x ≠ ',' ∧ combOf [x] = .ok c := by
  cases c <;> cases hc <;> exact ⟨by decide, by decide, by decide, by decide, rfl⟩

theorem steps_stops {P : List Complex → List Char → Prop} {l : Complex} {v R : List Char} (hv : StepsText P l v)
    (hR : Stops isIdent R) : Stops isIdent (v ++ R) := by
  cases hv with
  | nil => exact hR
  | @cons c ss l t u v ht hu hl =>
    rw [List.append_assoc]
    cases ht with
    | desc hne hw =>
      obtain ⟨x, w', rfl⟩ := List.exists_cons_of_ne_nil hne
      exact stops_cons (blank_notIdent hw x (List.mem_cons_self ..))
    | sign hc hw _ =>
      rw [List.append_assoc]
      exact stops_append (blank_notIdent hw) (stops_cons (combChar_op hc).2.1)

theorem alts_stops {P : List Complex → List Char → Prop} {sel : List Complex} {z R : List Char} (hz : AltsText P sel z)
    (hR : Stops isIdent R) : Stops isIdent (z ++ R) := by
  cases hz with
  | nil => exact hR
  | cons hw _ _ _ _ =>
    rw [List.append_assoc]
    exact stops_append (blank_notIdent hw) (stops_cons (by decide))

/-- What the splitter finds in front of a compound. -/
theorem comb_split {c : Comb} {t R : List Char} (ht : CombText c t) (h1 : Stops isReSpace R) (h2 : Stops isOp R) :
    ∃ m, execQueues splitterQueues (t ++ R) = .ok (some ([m], t.length, 1)) ∧ trim m.chars ≠ [','] ∧
      combOf (trim m.chars) = .ok c ∧ t ≠ [] := by
  cases ht with
  | desc hne hw =>
    obtain ⟨g, hg⟩ := splitter_space hw hne h1 h2
    refine ⟨_, hg, ?_, ?_, hne⟩
    · simp [trim_space hw]
    · simp only [trim_space hw]; rfl
  | @sign c x w w' hc hw hw' =>
    obtain ⟨g, hg⟩ := splitter_sign (x := x) hw (combChar_op hc).1 hw' h1
    refine ⟨_, hg, ?_, ?_, by simp⟩
    · simp only [trim_sign hw (combChar_op hc).1 hw']
      simpa using (combChar_op hc).2.2.2.1
    · simp only [trim_sign hw (combChar_op hc).1 hw']
      exact (combChar_op hc).2.2.2.2

theorem comma_split {w w' R : List Char} (hw : Blank w) (hw' : Blank w') (h1 : Stops isReSpace R) :
    ∃ m, execQueues splitterQueues ((w ++ ',' :: w') ++ R) = .ok (some ([m], (w ++ ',' :: w').length, 1)) ∧ trim m.chars = [','] := by
  obtain ⟨g, hg⟩ := splitter_sign (x := ',') hw (by decide) hw' h1
  exact ⟨_, hg, trim_sign hw (by decide) hw'⟩

/-! ## The end of a nested selector -/

/-- The patterns that close a nested selector. -/
def closing : List Pat := [.spaces, .chr ')']

/-- The result of `parse_until` when the nested text is `pre`, followed by `w` and `)`. -/
def Fin (pre w : List Char) (level : Nat) (x : R (Except ParseErr (Nat × List Matched))) : Prop :=
  ∃ y z, (y = w ∧ z = [] ∨ y = [] ∧ z = w) ∧
    x = .ok (.ok (pre.length + w.length + 1, if level = 0 then [{ chars := pre ++ y }, { chars := z }, { chars := [')'] }] else []))

theorem untilEnd_close {pre w rest : List Char} {level : Nat} (hw : Blank w) :
    untilEnd (pre ++ (w ++ ')' :: rest)) (w ++ ')' :: rest) pre.length closing level =
      .ok (.ok (pre.length + w.length + 1, if level = 0 then [{ chars := pre }, { chars := w }, { chars := [')'] }] else [])) := by
  have h1 := execPats_close (c := ')') rest hw (by decide)
  rw [List.singleton_append] at h1
  simp only [untilEnd, closing, List.isEmpty_cons, h1]
  simp only [List.take_left, List.length_append, List.length_cons, List.length_nil]
  split <;> simp_all <;> omega

theorem fin_nested {pre w rest : List Char} {level : Nat} (hw : Blank w) :
    Fin pre w level (untilEnd (pre ++ (w ++ ')' :: rest)) (w ++ ')' :: rest) pre.length closing level) := by
  refine ⟨[], w, .inr ⟨rfl, rfl⟩, ?_⟩
  rw [untilEnd_close hw, List.append_nil]

theorem paren_end (chars rest : List Char) (idx level : Nat) :
    parseU chars (')' :: rest) idx closing level = untilEnd chars (')' :: rest) idx closing level :=
  parseU_end rfl (splitter_none (stops_cons (by decide)) (stops_cons (by decide))) rfl

theorem fin_plain {pre w rest : List Char} {level : Nat} (hw : Blank w) :
    Fin pre w level (parseU (pre ++ (w ++ ')' :: rest)) (w ++ ')' :: rest) pre.length closing level) := by
  refine ⟨w, [], .inl ⟨rfl, rfl⟩, ?_⟩
  have hb : Blank [] := by simp [Blank]
  cases w with
  | nil =>
    rw [List.nil_append, paren_end]
    have := untilEnd_close (pre := pre) (rest := rest) (level := level) hb
    simpa using this
  | cons x w =>
    obtain ⟨g, hg⟩ := splitter_space hw (by simp) (rest := ')' :: rest) (stops_cons (by decide)) (stops_cons (by decide))
    rw [parseU_split rfl hg, List.drop_left, paren_end]
    have := untilEnd_close (pre := pre ++ x :: w) (rest := rest) (level := level) hb
    simpa [Nat.add_assoc] using this

/-! ## `parse_until` -/

/-- A relation whose texts are recognised as nested selectors. -/
def NestOK (P : List Complex → List Char → Prop) : Prop :=
  ∀ sel t, P sel t → (∀ R, Stops isAsciiWs (t ++ R)) ∧
    ∀ w rest level, Blank w → Fin t w level (parseU (t ++ (w ++ ')' :: rest)) (t ++ (w ++ ')' :: rest)) 0 closing level)

theorem scan_sim {P : List Complex → List Char → Prop} {s : Sim} {t R : List Char} (ht : SimText P s t) (hs : s.isNest = false)
    (hR : s.endsIdent = true → Stops isIdent R) (chars : List Char) (idx : Nat) (untl : List Pat) (level : Nat) :
    parseU chars (t ++ R) idx untl level = parseU chars R (idx + t.length) untl level := by
  obtain ⟨r, m, p, hf, -, -⟩ := rule_plain (N := P) ht hs R hR
  obtain ⟨h1, h2, h3⟩ := sim_stops ht R
  rw [parseU_rule h1 (splitter_none h2 h3) hf, List.drop_left]

theorem cons_boundary {P : List Complex → List Char → Prop} {s s' : Sim} {l : List Sim} {u : List Char}
    (hs : s'.isName = true → s.endsIdent = false) (hu : CmpdText P (s' :: l) u) (R : List Char) :
    s.endsIdent = true → Stops isIdent (u ++ R) := by
  intro he
  obtain ⟨s1, l1, c, t', e, rfl, -, -, -, h4⟩ := cmpdText_head hu
  cases e
  refine stops_cons (h4 ?_)
  cases hn : s'.isName with
  | false => rfl
  | true => rw [hs hn] at he; cases he

theorem scan_cmpd {P : List Complex → List Char → Prop} {ss : List Sim} {u : List Char} (hu : CmpdText P ss u) :
    (∀ s ∈ ss, s.isNest = false) → ∀ {R : List Char}, Stops isIdent R → ∀ (chars : List Char) (idx : Nat) (untl : List Pat) (level : Nat),
    parseU chars (u ++ R) idx untl level = parseU chars R (idx + u.length) untl level := by
  induction hu with
  | one ht =>
    intro hs R hR chars idx untl level
    exact scan_sim ht (hs _ (List.mem_cons_self ..)) (fun _ => hR) chars idx untl level
  | cons ht hn hu ih =>
    intro hs R hR chars idx untl level
    rw [List.append_assoc, scan_sim ht (hs _ (List.mem_cons_self ..)) (cons_boundary hn hu R) chars idx untl level,
      ih (fun s h => hs s (List.mem_cons_of_mem _ h)) hR, List.length_append, Nat.add_assoc]

theorem scan_comb {c : Comb} {t R : List Char} (ht : CombText c t) (h1 : Stops isReSpace R) (h2 : Stops isOp R)
    (chars : List Char) (idx : Nat) (untl : List Pat) (level : Nat) :
    parseU chars (t ++ R) idx untl level = parseU chars R (idx + t.length) untl level := by
  obtain ⟨m, hm, -, -, hne⟩ := comb_split ht h1 h2
  have : (t ++ R).isEmpty = false := by
    obtain ⟨x, t', rfl⟩ := List.exists_cons_of_ne_nil hne; rfl
  rw [parseU_split this hm, List.drop_left]

theorem scan_comma {w w' R : List Char} (hw : Blank w) (hw' : Blank w') (h1 : Stops isReSpace R)
    (chars : List Char) (idx : Nat) (untl : List Pat) (level : Nat) :
    parseU chars (w ++ ',' :: (w' ++ R)) idx untl level = parseU chars R (idx + (w ++ ',' :: w').length) untl level := by
  obtain ⟨m, hm, -⟩ := comma_split hw hw' h1
  have e : w ++ ',' :: (w' ++ R) = (w ++ ',' :: w') ++ R := by simp
  rw [e, parseU_split (by simp) hm, List.drop_left]

/-- Only the last one may be nested. -/
def ButLast (l : List Sim) : Prop := ∀ s ∈ l.dropLast, s.isNest = false

theorem butLast_append {a b : List Sim} (hb : b ≠ []) (h : ButLast (a ++ b)) : (∀ s ∈ a, s.isNest = false) ∧ ButLast b := by
  unfold ButLast at h
  rw [List.dropLast_append_of_ne_nil hb] at h
  exact ⟨fun s hs => h s (List.mem_append_left _ hs), fun s hs => h s (List.mem_append_right _ hs)⟩

theorem fin_sim {P : List Complex → List Char → Prop} (hP : NestOK P) {s : Sim} {t : List Char} (ht : SimText P s t)
    {w : List Char} (hw : Blank w) (pre rest : List Char) (level : Nat) :
    Fin (pre ++ t) w level (parseU (pre ++ t ++ (w ++ ')' :: rest)) (t ++ (w ++ ')' :: rest)) pre.length closing level) := by
  cases hs : s.isNest with
  | false =>
    have hR : Stops isIdent (w ++ ')' :: rest) := close_stops hw (by decide)
    rw [scan_sim ht hs (fun _ => hR), ← List.length_append]
    exact fin_plain hw
  | true =>
    obtain ⟨h1, h2, h3⟩ := sim_stops ht (w ++ ')' :: rest)
    obtain ⟨b, sel, w1, u, w2, hw1, hw2, hp, rfl, -⟩ := simText_nest ht hs
    obtain ⟨hu1, hu2⟩ := hP sel u hp
    have e : nestHead b ++ (w1 ++ u ++ w2 ++ [')']) ++ (w ++ ')' :: rest) =
        nestHead b ++ w1 ++ (u ++ (w2 ++ ')' :: (w ++ ')' :: rest))) := by simp
    have hf := findRule_nest b hw1 (hu1 (w2 ++ ')' :: (w ++ ')' :: rest)))
    rw [← e] at hf
    obtain ⟨y, z, -, hres⟩ := hu2 w2 (w ++ ')' :: rest) (level + 1) hw2
    have hd : List.drop (nestHead b ++ w1).length (nestHead b ++ (w1 ++ u ++ w2 ++ [')']) ++ (w ++ ')' :: rest)) =
        u ++ (w2 ++ ')' :: (w ++ ')' :: rest)) := by rw [e, List.drop_left]
    have hn := parseU_nest (chars := pre ++ (nestHead b ++ (w1 ++ u ++ w2 ++ [')'])) ++ (w ++ ')' :: rest)) (idx := pre.length)
      (untl := closing) (level := level) h1 (splitter_none h2 h3) hf
      (by simp [nestRule, callQueues]) (by rw [hd]; exact hres)
    rw [hn]
    have hlen : (nestHead b ++ w1).length + (u.length + w2.length + 1) = (nestHead b ++ (w1 ++ u ++ w2 ++ [')'])).length := by
      simp only [List.length_append, List.length_cons, List.length_nil]; omega
    rw [hlen, List.drop_left, Nat.add_assoc, hlen, ← List.length_append]
    exact fin_nested hw

theorem fin_cmpd {P : List Complex → List Char → Prop} (hP : NestOK P) {ss : List Sim} {u : List Char} (hu : CmpdText P ss u) :
    ButLast ss → ∀ {w : List Char}, Blank w → ∀ (pre rest : List Char) (level : Nat),
    Fin (pre ++ u) w level (parseU (pre ++ u ++ (w ++ ')' :: rest)) (u ++ (w ++ ')' :: rest)) pre.length closing level) := by
  induction hu with
  | one ht => intro _ w hw pre rest level; exact fin_sim hP ht hw pre rest level
  | @cons s s' l t u ht hn hu ih =>
    intro hb w hw pre rest level
    have hs : s.isNest = false := hb s (by simp)
    have hb' : ButLast (s' :: l) := (butLast_append (a := [s]) (by simp) hb).2
    have := ih hb' hw (pre ++ t) rest level
    rw [List.append_assoc t u, scan_sim ht hs (cons_boundary hn hu _), ← List.length_append, ← List.append_assoc pre t u]
    exact this

theorem cmpd_ne {P : List Complex → List Char → Prop} {ss : List Sim} {u : List Char} (hu : CmpdText P ss u) : ss ≠ [] := by
  cases hu <;> simp

/-- The simple selectors of one alternative. -/
def stepSims (l : Complex) : List Sim := l.flatMap (·.2)

theorem fin_alts {P : List Complex → List Char → Prop} (hP : NestOK P) {sel : List Complex} {z : List Char} (hz : AltsText P sel z) :
    ∀ {l : Complex} {v : List Char}, StepsText P l v → ∀ {ss : List Sim} {u : List Char}, CmpdText P ss u →
    ButLast (ss ++ (stepSims l ++ simsOf sel)) → ∀ {w : List Char}, Blank w → ∀ (pre rest : List Char) (level : Nat),
    Fin (pre ++ (u ++ (v ++ z))) w level
      (parseU (pre ++ (u ++ (v ++ z)) ++ (w ++ ')' :: rest)) (u ++ (v ++ z) ++ (w ++ ')' :: rest)) pre.length closing level) := by
  induction hz with
  | nil =>
    intro l v hv
    induction hv with
    | nil =>
      intro ss u hu hb w hw pre rest level
      simp only [List.append_nil]
      exact fin_cmpd hP hu (by simpa [stepSims, simsOf] using hb) hw pre rest level
    | @cons c ss' l t u' v ht hu' hl ih =>
      intro ss u hu hb w hw pre rest level
      have hne : stepSims ((c, ss') :: l) ++ simsOf [] ≠ [] := by
        simp only [stepSims, List.flatMap_cons, ne_eq, List.append_eq_nil_iff, not_and]
        intro h; exact absurd h.1 (cmpd_ne hu')
      obtain ⟨h1, h2⟩ := butLast_append hne hb
      have hb' : ButLast (ss' ++ (stepSims l ++ simsOf [])) := by simpa [stepSims] using h2
      have hst := cmpd_stops hu' ((v ++ []) ++ (w ++ ')' :: rest))
      have := ih hu' hb' hw (pre ++ (u ++ t)) rest level
      have hR : Stops isIdent (t ++ (u' ++ v) ++ ([] ++ (w ++ ')' :: rest))) :=
        steps_stops (.cons ht hu' hl) (close_stops hw (by decide))
      have e1 : u ++ (t ++ (u' ++ v) ++ []) ++ (w ++ ')' :: rest) = u ++ (t ++ (u' ++ v) ++ ([] ++ (w ++ ')' :: rest))) := by simp
      have e2 : t ++ (u' ++ v) ++ ([] ++ (w ++ ')' :: rest)) = t ++ (u' ++ ((v ++ []) ++ (w ++ ')' :: rest))) := by simp
      have e3 : u' ++ ((v ++ []) ++ (w ++ ')' :: rest)) = u' ++ (v ++ []) ++ (w ++ ')' :: rest) := by simp
      rw [e1, scan_cmpd hu h1 hR, e2, scan_comb ht hst.2.1 hst.2.2.1, e3]
      have e4 : pre ++ (u ++ (t ++ (u' ++ v) ++ [])) = pre ++ (u ++ t) ++ (u' ++ (v ++ [])) := by simp
      have e5 : pre.length + u.length + t.length = (pre ++ (u ++ t)).length := by simp [Nat.add_assoc]
      rw [e4, e5]
      exact this
  | @cons ss0 l0 sel w0 w1 u0 v0 z hw0 hw1 hu0 hv0 hz ihz =>
    intro l v hv
    have hzz : AltsText P (((.childrenAll, ss0) :: l0) :: sel) (w0 ++ ',' :: (w1 ++ (u0 ++ (v0 ++ z)))) := .cons hw0 hw1 hu0 hv0 hz
    induction hv with
    | nil =>
      intro ss u hu hb w hw pre rest level
      have hne : stepSims [] ++ simsOf (((.childrenAll, ss0) :: l0) :: sel) ≠ [] := by
        simp only [stepSims, simsOf, List.flatMap_cons, List.flatMap_nil, List.nil_append, ne_eq, List.append_eq_nil_iff, not_and]
        intro h; exact absurd h.1 (cmpd_ne hu0)
      obtain ⟨h1, h2⟩ := butLast_append hne hb
      have hb' : ButLast (ss0 ++ (stepSims l0 ++ simsOf sel)) := by simpa [stepSims, simsOf] using h2
      have := ihz hv0 hu0 hb' hw (pre ++ (u ++ (w0 ++ ',' :: w1))) rest level
      have hR : Stops isIdent (w0 ++ ',' :: (w1 ++ (u0 ++ (v0 ++ z))) ++ (w ++ ')' :: rest)) :=
        alts_stops hzz (close_stops hw (by decide))
      have hst := cmpd_stops hu0 ((v0 ++ z) ++ (w ++ ')' :: rest))
      have e1 : u ++ ([] ++ (w0 ++ ',' :: (w1 ++ (u0 ++ (v0 ++ z))))) ++ (w ++ ')' :: rest) =
        u ++ (w0 ++ ',' :: (w1 ++ (u0 ++ (v0 ++ z))) ++ (w ++ ')' :: rest)) := by simp
      have e2 : w0 ++ ',' :: (w1 ++ (u0 ++ (v0 ++ z))) ++ (w ++ ')' :: rest) =
        w0 ++ ',' :: (w1 ++ (u0 ++ ((v0 ++ z) ++ (w ++ ')' :: rest)))) := by simp
      have e3 : u0 ++ ((v0 ++ z) ++ (w ++ ')' :: rest)) = u0 ++ (v0 ++ z) ++ (w ++ ')' :: rest) := by simp
      rw [e1, scan_cmpd hu h1 hR, e2, scan_comma hw0 hw1 hst.2.1, e3]
      have e4 : pre ++ (u ++ ([] ++ (w0 ++ ',' :: (w1 ++ (u0 ++ (v0 ++ z)))))) =
        pre ++ (u ++ (w0 ++ ',' :: w1)) ++ (u0 ++ (v0 ++ z)) := by simp
      have e5 : pre.length + u.length + (w0 ++ ',' :: w1).length = (pre ++ (u ++ (w0 ++ ',' :: w1))).length := by
        simp [Nat.add_assoc]
      rw [e4, e5]
      exact this
    | @cons c ss' l t u' v ht hu' hl ih =>
      intro ss u hu hb w hw pre rest level
      have hne : stepSims ((c, ss') :: l) ++ simsOf (((.childrenAll, ss0) :: l0) :: sel) ≠ [] := by
        simp only [stepSims, List.flatMap_cons, ne_eq, List.append_eq_nil_iff, not_and]
        intro h; exact absurd h.1 (cmpd_ne hu')
      obtain ⟨h1, h2⟩ := butLast_append hne hb
      have hb' : ButLast (ss' ++ (stepSims l ++ simsOf (((.childrenAll, ss0) :: l0) :: sel))) := by simpa [stepSims] using h2
      generalize hZ : w0 ++ ',' :: (w1 ++ (u0 ++ (v0 ++ z))) = Z at *
      have hst := cmpd_stops hu' ((v ++ Z) ++ (w ++ ')' :: rest))
      have := ih hu' hb' hw (pre ++ (u ++ t)) rest level
      have hR : Stops isIdent (t ++ (u' ++ v) ++ (Z ++ (w ++ ')' :: rest))) :=
        steps_stops (.cons ht hu' hl) (alts_stops hzz (close_stops hw (by decide)))
      have e1 : u ++ (t ++ (u' ++ v) ++ Z) ++ (w ++ ')' :: rest) = u ++ (t ++ (u' ++ v) ++ (Z ++ (w ++ ')' :: rest))) := by simp
      have e2 : t ++ (u' ++ v) ++ (Z ++ (w ++ ')' :: rest)) = t ++ (u' ++ ((v ++ Z) ++ (w ++ ')' :: rest))) := by simp
      have e3 : u' ++ ((v ++ Z) ++ (w ++ ')' :: rest)) = u' ++ (v ++ Z) ++ (w ++ ')' :: rest) := by simp
      rw [e1, scan_cmpd hu h1 hR, e2, scan_comb ht hst.2.1 hst.2.2.1, e3]
      have e4 : pre ++ (u ++ (t ++ (u' ++ v) ++ Z)) = pre ++ (u ++ t) ++ (u' ++ (v ++ Z)) := by simp
      have e5 : pre.length + u.length + t.length = (pre ++ (u ++ t)).length := by simp [Nat.add_assoc]
      rw [e4, e5]
      exact this

theorem headText_cases {c : Comb} {t : List Char} (ht : HeadText c t) : (t = [] ∧ c = .childrenAll) ∨ CombText c t := by
  cases ht with
  | desc => exact .inl ⟨rfl, rfl⟩
  | sign hc hw => exact .inr (.sign (w := []) hc (by simp [Blank]) hw)

/-- The text of a selector in which only the last simple selector may be nested is recognised as a nested selector. -/
theorem core_nestOK {P : List Complex → List Char → Prop} (hP : NestOK P) : NestOK (fun sel t => CoreText P sel t ∧ NestLast sel) := by
  intro sel t ⟨hc, hl⟩
  cases hc with
  | @mk c ss l sel t u v z ht hu hv hz =>
    constructor
    · intro R
      cases ht with
      | desc => rw [List.nil_append, List.append_assoc]; exact (cmpd_stops hu _).2.2.2
      | sign hc hw => exact stops_cons (combChar_op hc).2.2.1
    · intro w rest level hw
      have hb : ButLast (ss ++ (stepSims l ++ simsOf sel)) := by
        intro s hs
        apply hl s
        simpa [simsOf, stepSims] using hs
      have := fin_alts hP hz hv hu hb hw t rest level
      rcases headText_cases ht with ⟨rfl, -⟩ | hct
      · simpa using this
      · have hst := cmpd_stops hu ((v ++ z) ++ (w ++ ')' :: rest))
        have e1 : t ++ (u ++ (v ++ z)) ++ (w ++ ')' :: rest) = t ++ (u ++ ((v ++ z) ++ (w ++ ')' :: rest))) := by simp
        have e2 : u ++ ((v ++ z) ++ (w ++ ')' :: rest)) = u ++ (v ++ z) ++ (w ++ ')' :: rest) := by simp
        conv in (parseU _ _ 0 _ _) => arg 2; rw [e1]
        rw [scan_comb hct hst.2.1 hst.2.2.1, e2, Nat.zero_add]
        exact this

theorem coreD_nestOK : ∀ d, NestOK (fun sel t => CoreD d sel t ∧ NestLast sel)
  | 0 => core_nestOK (fun _ _ h => h.elim)
  | d + 1 => core_nestOK (coreD_nestOK d)

end Visdom
