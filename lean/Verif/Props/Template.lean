import Verif.Proofs.Template
/-!
# C47: rule templates
-/
namespace Visdom
open Spec

/-- C47: the text of a rule compiles to the patterns it denotes, when the parameters in three or more hashes leave the
search for their end enough room (`Roomy`). Together with `Denotes` this covers every sequence of characters,
placeholders and quoted expressions. -/
theorem C47_template_partial {l : List Piece} {ps : List Pat} (hd : Denotes [] l ps) (hr : Roomy l) :
    getQueues (written l) = .ok ps := by
  obtain ⟨s, acc, q, h1, h2, h3⟩ := run_between hd hr between_start
  simp only [getQueues, h1, h2.close, h3, List.nil_append]

/-- C47: no condition is needed when parameters are quoted with one or two hashes, as in all rules of the library. -/
theorem C47_template_few_hashes {l : List Piece} {ps : List Pat} (hd : Denotes [] l ps)
    (hk : ∀ n k p ws, Piece.quoted n k p ws ∈ l → k ≤ 2) : getQueues (written l) = .ok ps := by
  have key : ∀ {acc : List Char} {l : List Piece} {ps : List Pat}, Denotes acc l ps →
      (∀ n k p ws, Piece.quoted n k p ws ∈ l → k ≤ 2) → Roomy l := by
    intro acc l ps hd
    induction hd with
    | done => intro _ n k p ws hm; cases hm
    | one => intro _ n k p ws hm; cases hm
    | many => intro _ n k p ws hm; cases hm
    | chr hd ih =>
      intro hk n k p ws hm
      rcases List.mem_cons.1 hm with e | hm
      · cases e
      · exact ih (fun n k p ws hx => hk n k p ws (List.mem_cons_of_mem _ hx)) n k p ws hm
    | hole hn hd ih =>
      intro hk n k p ws hm
      rcases List.mem_cons.1 hm with e | hm
      · cases e
      · exact ih (fun n k p ws hx => hk n k p ws (List.mem_cons_of_mem _ hx)) n k p ws hm
    | @quoted acc k' p' ws' l ps hq hb hd ih =>
      intro hk n k p ws hm
      rcases List.mem_cons.1 hm with e | hm
      · cases e
        have h1 := hk _ _ _ _ (List.mem_cons_self ..)
        cases p' with
        | nil => exact absurd rfl hq.ne
        | cons c p' =>
          have hc : c ≠ '#' := fun e => hq.first.1 (by simp [e])
          simp [hc]
          omega
      · exact ih (fun n k p ws hx => hk n k p ws (List.mem_cons_of_mem _ hx)) n k p ws hm
  exact C47_template_partial hd (key hd hk)

/-- `a{{}}{spaces}{regexp##x#y## }.` -/
example : getQueues "a{{}}{spaces}{regexp##x#y## }.".toList =
    .ok [.lit "a{}".toList, .spaces, .regexp "x#y".toList, .chr '.'] := by
  have hd : Denotes [] [.chr 'a', .chr '{', .chr '}', .hole "spaces".toList, .quoted "regexp".toList 2 "x#y".toList [' '], .chr '.']
      [.lit "a{}".toList, .spaces, .regexp "x#y".toList, .chr '.'] :=
    .chr (.chr (.chr (.hole .spaces (.quoted ⟨by decide, by decide, by decide, by decide, by decide⟩ (by decide) (.chr (.one '.'))))))
  refine C47_template_few_hashes hd fun n k p ws hm => ?_
  simp at hm
  omega

/-- C47, the exact condition: the text of a rule compiles to the patterns it denotes iff its parameters leave the search for
their end enough room; otherwise `raw_len - leave_count` underflows. -/
theorem C47_exact_partial {l : List Piece} {ps : List Pat} (hd : Denotes [] l ps) :
    (getQueues (written l) = .ok ps ↔ Roomy l) ∧ (¬ Roomy l → getQueues (written l) = .error .overflow) := by
  have h1 : ¬ Roomy l → getQueues (written l) = .error .overflow := by
    intro hr
    simp only [getQueues, run_cramped hd hr between_start]
  refine ⟨⟨fun he => ?_, C47_template_partial hd⟩, h1⟩
  by_contra hr
  rw [h1 hr] at he
  cases he

/-- Four hashes need three characters before the first inner hash. -/
example : getQueues (written [.quoted "regexp".toList 4 "ab".toList []]) = .error .overflow ∧
    getQueues (written [.quoted "regexp".toList 4 "abc".toList []]) = .ok [.regexp "abc".toList] := by
  refine ⟨(C47_exact_partial (.quoted ⟨by decide, by decide, by decide, by decide, by decide⟩ (by decide) .done)).2 fun hr => ?_,
    (C47_exact_partial (.quoted ⟨by decide, by decide, by decide, by decide, by decide⟩ (by decide) .done)).1.2 fun n k p ws hm => ?_⟩
  · exact absurd (hr _ _ _ _ List.mem_cons_self) (by decide)
  · simp only [List.mem_cons, Piece.quoted.injEq, List.not_mem_nil, or_false] at hm
    obtain ⟨rfl, rfl, rfl, rfl⟩ := hm
    decide

/-- C47 does not hold in full: a short parameter in three hashes makes `raw_len - leave_count` underflow. -/
theorem C47_fails : Denotes [] [.quoted "regexp".toList 3 ['a'] []] [.regexp ['a']] ∧
    getQueues (written [.quoted "regexp".toList 3 ['a'] []]) = .error .overflow :=
  ⟨.quoted ⟨by decide, by decide, by decide, by decide, by decide⟩ (by decide) .done, by decide⟩

/-- C47: a text that ends with a single brace is refused. -/
theorem C47_single_brace {l : List Piece} {ps : List Pat} (hd : Denotes [] l ps) (hr : Roomy l) (c : Char)
    (hc : c = '{' ∨ c = '}') : getQueues (written l ++ [c]) = .error .explicit := by
  obtain ⟨s, acc, q, h1, h2, h3⟩ := run_between hd hr between_start
  have hp := h2.push c
  obtain ⟨-, a2, a3, -⟩ := h2
  unfold getQueues
  rw [TplState.run_ok h1]
  simp only [TplState.run, hp, TplState.close, a2, a3]
  rcases hc with rfl | rfl <;> simp

example : getQueues "a{spaces}}".toList = .error .explicit :=
  C47_single_brace (l := [.chr 'a', .hole "spaces".toList]) (.chr (.hole .spaces .done))
    (by intro n k p ws hm; simp at hm) '}' (.inr rfl)

theorem wordy_nameChar {n : List Char} : Wordy n ↔ n ≠ [] ∧ ∀ c ∈ n, nameChar c = true := by
  unfold Wordy nameChar isAsciiAlnum isAsciiAlpha isUpperAZ isLowerAZ isDigit09
  have hx : ∀ a b : Char, a ≤ b ↔ a.toNat ≤ b.toNat := fun a b => Iff.rfl
  simp only [Bool.or_eq_true, beq_iff_eq, Bool.and_eq_true, decide_eq_true_eq, hx]
  refine and_congr_right fun _ => forall₂_congr fun c _ => ?_
  rw [show 'a'.toNat = 97 from rfl, show 'z'.toNat = 122 from rfl, show 'A'.toNat = 65 from rfl, show 'Z'.toNat = 90 from rfl,
    show '0'.toNat = 48 from rfl, show '9'.toNat = 57 from rfl]
  tauto

/-- C47: after a well-formed beginning, a placeholder with an unregistered name, with a parameter or a suffix it does not
take, with hashes but no parameter, or with anything after its parameter is refused, whatever follows. -/
theorem C47_wrong_placeholder {l : List Piece} {ps : List Pat} (hd : Denotes [] l ps) (hr : Roomy l) {w : List Char}
    (hw : Wrong w) (rest : List Char) : getQueues (written l ++ w ++ rest) = .error .explicit := by
  obtain ⟨s, acc, q, h1, h2, h3⟩ := run_between hd hr between_start
  suffices hx : s.run (w ++ rest) = .error .explicit by
    unfold getQueues
    rw [List.append_assoc, TplState.run_ok h1, hx]
  cases hw with
  | unknown hn hu =>
    obtain ⟨s1, h4, a1, a2, a3, a4, a5, a6, a7, a8, a9⟩ := h2.enter (wordy_nameChar.1 hn).1 (wordy_nameChar.1 hn).2
    rw [List.append_assoc]
    refine TplState.run_error h4 ?_ rest
    unfold TplState.step
    simp [a1, a2, a3, a4, TplState.next, a6, toPattern_unknown hu]
  | param hn hne hq hk hb =>
    obtain ⟨s1, h4, c1, c2, c3, c4, c5, c6⟩ := h2.param (wordy_nameChar.1 hn).1 (wordy_nameChar.1 hn).2 hq hk
    obtain ⟨f, h5⟩ := wait_spaces c1 hb
    rw [List.append_assoc]
    refine TplState.run_error ((TplState.run_ok h4 _).trans h5) ?_ rest
    unfold TplState.step
    simp only [c1, if_true]
    rw [if_neg (by decide)]
    simp only [TplState.next, c4, c2, c3, toPattern_param hne hq.ne]
  | suffix hn hc hl =>
    obtain ⟨s1, h4, h5⟩ := h2.enter (wordy_nameChar.1 hn).1 (wordy_nameChar.1 hn).2
    have hc' := by simpa using (not_congr wordy_nameChar).1 hc
    obtain ⟨s2, h6, a1, a2, a3, a4, a5, a6, a7⟩ := h5.suffix hc' hl
    rw [List.append_assoc]
    refine TplState.run_error ((TplState.run_ok h4 _).trans h6) ?_ rest
    unfold TplState.step
    simp [a1, a2, a3, a4, TplState.next, a6, toPattern_suffix, a5]
  | hashes hn hk =>
    obtain ⟨s1, h4, h5⟩ := h2.enter (wordy_nameChar.1 hn).1 (wordy_nameChar.1 hn).2
    obtain ⟨s2, h6, a1, a2, a3, a4, a5, a6, a7, a8, a9⟩ := h5.addHashes _
    rw [List.append_assoc]
    refine TplState.run_error ((TplState.run_ok h4 _).trans h6) ?_ rest
    unfold TplState.step
    simp [a1, a2, a3, a4, hk]
  | after hn hq hk hb hc1 hc2 =>
    obtain ⟨s1, h4, c1, c2, c3, c4, c5, c6⟩ := h2.param (wordy_nameChar.1 hn).1 (wordy_nameChar.1 hn).2 hq hk
    obtain ⟨f, h5⟩ := wait_spaces c1 hb
    rw [List.append_assoc]
    refine TplState.run_error ((TplState.run_ok h4 _).trans h5) ?_ rest
    unfold TplState.step
    simp only [c1, if_true]
    rw [if_neg, if_neg hc2]
    intro hx
    apply hc1
    unfold isAsciiWs at hx
    simp only [Bool.or_eq_true, beq_iff_eq] at hx
    rcases hx with (((rfl | rfl) | rfl) | rfl) | rfl <;> decide

/-- `.{nth#x# }`, `{identity*}`, `{nth##}`. -/
example : getQueues ".{nth#x# }".toList = .error .explicit :=
  C47_wrong_placeholder (l := [.chr '.']) (.chr (.one '.')) (by intro n k p ws hm; simp at hm)
    (.param (n := "nth".toList) (k := 1) (p := ['x']) (ws := [' ']) ⟨by decide, by decide⟩ (by decide)
      ⟨by decide, by decide, by decide, by decide, by decide⟩ (by decide) (by decide)) []

/-- C47: a placeholder that is not closed is refused: in its name, its hashes, its parameter or after it. -/
theorem C47_unclosed {l : List Piece} {ps : List Pat} (hd : Denotes [] l ps) (hr : Roomy l) {n : List Char} (hn : Wordy n)
    (k : Nat) : getQueues (written l ++ ('{' :: n ++ List.replicate k '#')) = .error .explicit := by
  obtain ⟨s, acc, q, h1, h2, h3⟩ := run_between hd hr between_start
  obtain ⟨s1, h4, h5⟩ := h2.enter (wordy_nameChar.1 hn).1 (wordy_nameChar.1 hn).2
  obtain ⟨s2, h6, a1, a2, a3, -⟩ := h5.addHashes k
  unfold getQueues
  rw [TplState.run_ok h1, TplState.run_ok h4, h6]
  simp [TplState.close, a3]

example : getQueues "a{spaces}{nth".toList = .error .explicit :=
  C47_unclosed (l := [.chr 'a', .hole "spaces".toList]) (.chr (.hole .spaces .done))
    (by intro n k p ws hm; simp at hm) (n := "nth".toList) ⟨by decide, by decide⟩ 0

set_option maxRecDepth 100000 in
/-- C47: the table of rules used by the model is what the texts of the rules compile to. -/
theorem C47_rule_table : ruleTable.map (fun r => (r.id, Except.ok r.queues)) = templates.map (fun t => (t.1, getQueues t.2)) ∧
    getQueues splitterTemplate = .ok splitterQueues := by
  constructor <;> decide

end Visdom
