import Verif.Proofs.Patterns
/-!
# The steps of the parser do not depend on the bound on their number
-/
namespace Visdom
open Spec

theorem execQueues_pos {ps : List Pat} {cs : List Char} {m : List Matched} {len num : Nat}
    (he : execQueues ps cs = .ok (some (m, len, num))) : 0 < len := by
  unfold execQueues at he
  cases hx : execPats ps cs with
  | error e => rw [hx] at he; cases he
  | ok r =>
    rw [hx] at he
    simp only [Except.map] at he
    split at he
    · rename_i hpos
      cases he; exact hpos
    · cases he

theorem findRule_pos : ∀ {rs : List ParseRule} {cs : List Char} {r : ParseRule} {m : List Matched} {len num : Nat},
    findRule rs cs = .ok (some (r, m, len, num)) → 0 < len
  | [], _, _, _, _, _, he => by cases he
  | r' :: rs, cs, r, m, len, num, he => by
    simp only [findRule] at he
    cases hx : execQueues r'.queues cs with
    | error e => rw [hx] at he; cases he
    | ok o =>
      rw [hx] at he
      cases o with
      | none => exact findRule_pos he
      | some x =>
        obtain ⟨m', len', num'⟩ := x
        cases he
        exact execQueues_pos hx

theorem drop_lt {cs : List Char} {n : Nat} (hc : cs.isEmpty = false) (hn : 0 < n) : (cs.drop n).length < cs.length := by
  have : cs.length ≠ 0 := by
    cases cs with
    | nil => cases hc
    | cons => simp
  rw [List.length_drop]
  omega

theorem parseUntil_fuel : ∀ (n : Nat) (rest : List Char), rest.length ≤ n → ∀ (f f' : Nat) (chars : List Char) (idx : Nat)
    (untl : List Pat) (level : Nat), rest.length < f → rest.length < f' →
    parseUntil f chars rest idx untl level = parseUntil f' chars rest idx untl level := by
  intro n
  induction n with
  | zero =>
    intro rest hn f f' chars idx untl level hf hf'
    have : rest = [] := List.length_eq_zero_iff.1 (Nat.le_zero.1 hn)
    subst this
    cases f with
    | zero => simp at hf
    | succ f =>
      cases f' with
      | zero => simp at hf'
      | succ f' => simp [parseUntil]
  | succ n ih =>
    intro rest hn f f' chars idx untl level hf hf'
    cases f with
    | zero => simp at hf
    | succ f =>
      cases f' with
      | zero => simp at hf'
      | succ f' =>
        cases hr : rest.isEmpty with
        | true => simp only [parseUntil, hr, if_true]
        | false =>
          have hd : ∀ k, 0 < k → ∀ chars idx untl level, parseUntil f chars (rest.drop k) idx untl level =
              parseUntil f' chars (rest.drop k) idx untl level := by
            intro k hk chars idx untl level
            have := drop_lt hr hk
            exact ih _ (by omega) _ _ _ _ _ _ (by omega) (by omega)
          simp only [parseUntil, hr]
          cases hs : execQueues splitterQueues rest with
          | error e => rfl
          | ok o =>
            cases o with
            | some x =>
              obtain ⟨m, len, num⟩ := x
              exact hd len (execQueues_pos hs) _ _ _ _
            | none =>
              simp only
              cases hfr : findRule ruleTable rest with
              | error e => rfl
              | ok o =>
                cases o with
                | none => rfl
                | some x =>
                  obtain ⟨r, m, len, num⟩ := x
                  have hpos := findRule_pos hfr
                  simp only [hd len hpos]

/-- `parse_until` from a position. -/
def parseU (chars rest : List Char) (idx : Nat) (untl : List Pat) (level : Nat) : R (Except ParseErr (Nat × List Matched)) :=
  parseUntil (rest.length + 1) chars rest idx untl level

theorem parseUntil_eq {f : Nat} {rest : List Char} (hf : rest.length < f) (chars : List Char) (idx : Nat)
    (untl : List Pat) (level : Nat) : parseUntil f chars rest idx untl level = parseU chars rest idx untl level :=
  parseUntil_fuel _ rest le_rfl _ _ _ _ _ _ hf (Nat.lt_succ_self _)

theorem parseU_split {chars rest : List Char} {idx : Nat} {untl : List Pat} {level : Nat} {m : List Matched} {len num : Nat}
    (hr : rest.isEmpty = false) (hs : execQueues splitterQueues rest = .ok (some (m, len, num))) :
    parseU chars rest idx untl level = parseU chars (rest.drop len) (idx + len) untl level := by
  rw [parseU, parseUntil, hr, hs]
  exact parseUntil_eq (drop_lt hr (execQueues_pos hs)) _ _ _ _

theorem parseU_rule {chars rest : List Char} {idx : Nat} {untl : List Pat} {level : Nat} {r : ParseRule} {m : List Matched}
    {len : Nat} (hr : rest.isEmpty = false) (hs : execQueues splitterQueues rest = .ok none)
    (hf : findRule ruleTable rest = .ok (some (r, m, len, r.queues.length))) :
    parseU chars rest idx untl level = parseU chars (rest.drop len) (idx + len) untl level := by
  rw [parseU, parseUntil, hr, hs, hf]
  simp only [if_true]
  exact parseUntil_eq (drop_lt hr (findRule_pos hf)) _ _ _ _

theorem parseU_end {chars rest : List Char} {idx : Nat} {untl : List Pat} {level : Nat} (hr : rest.isEmpty = false)
    (hs : execQueues splitterQueues rest = .ok none) (hf : findRule ruleTable rest = .ok none) :
    parseU chars rest idx untl level = untilEnd chars rest idx untl level := by
  rw [parseU, parseUntil, hr, hs, hf]; rfl

theorem parseU_nest {chars rest : List Char} {idx : Nat} {untl : List Pat} {level : Nat} {r : ParseRule} {m : List Matched}
    {len num count : Nat} {nm : List Matched} (hr : rest.isEmpty = false) (hs : execQueues splitterQueues rest = .ok none)
    (hf : findRule ruleTable rest = .ok (some (r, m, len, num))) (hn : num ≠ r.queues.length)
    (hu : parseU (rest.drop len) (rest.drop len) 0 (r.queues.drop (num + 1)) (level + 1) = .ok (.ok (count, nm))) :
    parseU chars rest idx untl level = untilEnd chars (rest.drop (len + count)) (idx + len + count) untl level := by
  rw [parseU, parseUntil, hr, hs, hf]
  simp only [if_neg hn]
  rw [parseUntil_eq (drop_lt hr (findRule_pos hf)), hu]
  rfl

/-! ## The loop of `from_str` -/

theorem selectorStep_shrinks {st st' : PState} (hr : st.rest.isEmpty = false) (hs : selectorStep st = .ok (.ok st')) :
    st'.rest.length < st.rest.length := by
  unfold selectorStep at hs
  cases hf : findRule ruleTable st.rest with
  | error e => rw [hf] at hs; cases hs
  | ok o =>
    rw [hf] at hs
    cases o with
    | none => cases hs
    | some x =>
      obtain ⟨r, m, len, num⟩ := x
      have hpos := findRule_pos hf
      have hlt := drop_lt hr hpos
      simp only at hs
      split at hs
      · cases hm : makePart r.id m with
        | error e => rw [hm] at hs; cases hs
        | ok p => rw [hm] at hs; cases hs; exact hlt
      · split at hs
        · cases hs
        · split at hs
          · split at hs
            · cases hs
            · cases hs
            · rename_i count nm _
              cases hm : makePart r.id (m ++ nm) with
              | error e => rw [hm] at hs; cases hs
              | ok p =>
                rw [hm] at hs; cases hs
                refine lt_of_le_of_lt ?_ hlt
                simp only [List.length_drop]
                omega
          · cases hs

theorem splitterStep_shrinks {st st' : PState} {m : List Matched} {len : Nat} (hr : st.rest.isEmpty = false) (hl : 0 < len)
    (hs : splitterStep st m len = .ok (.ok st')) : st'.rest.length < st.rest.length := by
  have hlt := drop_lt hr hl
  unfold splitterStep at hs
  split at hs
  · cases hs
  · simp only at hs
    split at hs
    · cases hs
    · split at hs
      · split at hs
        · cases hs
        · cases hs; exact hlt
      · split at hs
        · cases hs
        · cases hs; exact hlt

theorem parseStep_shrinks {st st' : PState} (hr : st.rest.isEmpty = false) (hs : parseStep st = .ok (.ok st')) :
    st'.rest.length < st.rest.length := by
  unfold parseStep at hs
  cases hx : execQueues splitterQueues st.rest with
  | error e => rw [hx] at hs; cases hs
  | ok o =>
    rw [hx] at hs
    cases o with
    | none => exact selectorStep_shrinks hr hs
    | some x =>
      obtain ⟨m, len, num⟩ := x
      exact splitterStep_shrinks hr (execQueues_pos hx) hs

theorem parseLoop_fuel : ∀ (n : Nat) (st : PState), st.rest.length ≤ n → ∀ f f' : Nat, st.rest.length ≤ f → st.rest.length ≤ f' →
    parseLoop f st = parseLoop f' st := by
  intro n
  induction n with
  | zero =>
    intro st hn f f' _ _
    have he : st.rest.isEmpty = true := by
      cases hr : st.rest with
      | nil => rfl
      | cons => rw [hr] at hn; simp at hn
    cases f <;> cases f' <;> simp [parseLoop, he]
  | succ n ih =>
    intro st hn f f' hf hf'
    cases he : st.rest.isEmpty with
    | true => cases f <;> cases f' <;> simp [parseLoop, he]
    | false =>
      have hpos : 0 < st.rest.length := by
        cases hr : st.rest with
        | nil => rw [hr] at he; cases he
        | cons => simp
      cases f with
      | zero => omega
      | succ f =>
        cases f' with
        | zero => omega
        | succ f' =>
          simp only [parseLoop, he]
          cases hs : parseStep st with
          | error e => rfl
          | ok o =>
            cases o with
            | error e => rfl
            | ok st' =>
              have := parseStep_shrinks he hs
              exact ih st' (by omega) _ _ (by omega) (by omega)

/-- The loop of `from_str` from a state. -/
def parseAll (st : PState) : R (Except ParseErr PState) := parseLoop st.rest.length st

theorem parseAll_nil {st : PState} (hr : st.rest = []) : parseAll st = .ok (.ok st) := by
  rw [parseAll, hr]; simp [parseLoop, hr]

theorem parseAll_step {st st' : PState} (hr : st.rest.isEmpty = false) (hs : parseStep st = .ok (.ok st')) :
    parseAll st = parseAll st' := by
  have hlt := parseStep_shrinks hr hs
  rw [parseAll, parseLoop_fuel _ st le_rfl _ (st.rest.length + 1) le_rfl (Nat.le_succ _), parseLoop, hr, hs]
  exact parseLoop_fuel _ st' le_rfl _ _ (by omega) le_rfl

end Visdom
