import Verif.Spec.Lang
import Verif.Proofs.ParseFuel
/-!
# The matcher of regular expressions is sound for their languages
-/
namespace Visdom
open Spec

variable {α : Type}

/-- The groups captured come from before or from the expression. -/
def CapsOk (re : Re) (s : List Char) (c c' : Caps) : Prop :=
  ∀ p ∈ c', p ∈ c ∨ (p.2 <:+: s ∧ ∃ r, Group re p.1 r ∧ Lang r p.2)

theorem CapsOk.refl (re : Re) (s : List Char) (c : Caps) : CapsOk re s c c := fun _ hp => .inl hp
theorem CapsOk.trans {re : Re} {w s : List Char} {c c' c'' : Caps} (h1 : CapsOk re (w ++ s) c c') (h2 : CapsOk re s c' c'') :
    CapsOk re (w ++ s) c c'' := by
  intro p hp
  rcases h2 p hp with h | ⟨h, hr⟩
  · exact h1 p h
  · exact .inr ⟨h.trans ⟨w, [], by simp⟩, hr⟩
theorem CapsOk.mono {re re' : Re} {s : List Char} {c c' : Caps} (h : CapsOk re s c c')
    (hg : ∀ n r, Group re n r → Group re' n r) : CapsOk re' s c c' := fun p hp =>
  (h p hp).imp_right fun ⟨h1, r, h2, h3⟩ => ⟨h1, r, hg _ _ h2, h3⟩

/-- Soundness of a matcher. -/
def Sound (f : Caps → List Char → (Caps → List Char → Option α) → Option α) (re : Re) (L : List Char → Prop) : Prop :=
  ∀ c s k a, f c s k = some a → ∃ w s' c', s = w ++ s' ∧ L w ∧ k c' s' = some a ∧ CapsOk re s c c'

theorem manyRun_sound {f : Caps → List Char → (Caps → List Char → Option α) → Option α} {re : Re}
    (hf : Sound f re (Lang re)) : ∀ n, Sound (manyRun f n) re (Lang (.many re))
  | 0, c, s, k, a, he => ⟨[], s, c, rfl, .manyN, he, .refl _ _ _⟩
  | n + 1, c, s, k, a, he => by
    simp only [manyRun] at he
    split at he
    · rename_i x hx
      cases he
      obtain ⟨w, s', c', rfl, hw, hk, hc⟩ := hf _ _ _ _ hx
      split at hk
      · obtain ⟨w', s'', c'', rfl, hw', hk', hc'⟩ := manyRun_sound hf n _ _ _ _ hk
        exact ⟨w ++ w', s'', c'', by simp, .manyS hw hw', hk', hc.trans hc'⟩
      · cases hk
    · exact ⟨[], s, c, rfl, .manyN, he, .refl _ _ _⟩

theorem lazyRun_sound {f : Caps → List Char → (Caps → List Char → Option α) → Option α} {re : Re}
    (hf : Sound f re (Lang re)) : ∀ n, Sound (lazyRun f n) re (Lang (.lazy re))
  | 0, c, s, k, a, he => ⟨[], s, c, rfl, .lazyN, he, .refl _ _ _⟩
  | n + 1, c, s, k, a, he => by
    simp only [lazyRun] at he
    split at he
    · rename_i x hx
      cases he
      exact ⟨[], s, c, rfl, .lazyN, hx, .refl _ _ _⟩
    · obtain ⟨w, s', c', rfl, hw, hk, hc⟩ := hf _ _ _ _ he
      split at hk
      · obtain ⟨w', s'', c'', rfl, hw', hk', hc'⟩ := lazyRun_sound hf n _ _ _ _ hk
        exact ⟨w ++ w', s'', c'', by simp, .lazyS hw hw', hk', hc.trans hc'⟩
      · cases hk

theorem run_sound : ∀ re : Re, Sound (fun c s k => re.run c s k (α := α)) re (Lang re) := by
  intro re
  induction re with
  | one p =>
    intro c s k a he
    cases s with
    | nil => cases he
    | cons x s =>
      simp only [Re.run] at he
      split at he
      · rename_i hp
        exact ⟨[x], s, c, rfl, .one hp, he, .refl _ _ _⟩
      · cases he
  | seq a b iha ihb =>
    intro c s k x he
    obtain ⟨w, s', c', rfl, hw, hk, hc⟩ := iha _ _ _ _ he
    obtain ⟨w', s'', c'', rfl, hw', hk', hc'⟩ := ihb _ _ _ _ hk
    exact ⟨w ++ w', s'', c'', by simp, .seq hw hw', hk',
      (hc.mono fun _ _ => Or.inl).trans (hc'.mono fun _ _ => Or.inr)⟩
  | alt a b iha ihb =>
    intro c s k x he
    simp only [Re.run] at he
    split at he
    · rename_i y hy
      cases he
      obtain ⟨w, s', c', rfl, hw, hk, hc⟩ := iha _ _ _ _ hy
      exact ⟨w, s', c', rfl, .altL hw, hk, hc.mono fun _ _ => Or.inl⟩
    · obtain ⟨w, s', c', rfl, hw, hk, hc⟩ := ihb _ _ _ _ he
      exact ⟨w, s', c', rfl, .altR hw, hk, hc.mono fun _ _ => Or.inr⟩
  | opt a iha =>
    intro c s k x he
    simp only [Re.run] at he
    split at he
    · rename_i y hy
      cases he
      obtain ⟨w, s', c', rfl, hw, hk, hc⟩ := iha _ _ _ _ hy
      exact ⟨w, s', c', rfl, .optS hw, hk, hc.mono fun _ _ h => h⟩
    · exact ⟨[], s, c, rfl, .optN, he, .refl _ _ _⟩
  | many a iha =>
    intro c s k x he
    obtain ⟨w, s', c', rfl, hw, hk, hc⟩ := manyRun_sound iha _ _ _ _ _ he
    exact ⟨w, s', c', rfl, hw, hk, hc.mono fun _ _ h => h⟩
  | lazy a iha =>
    intro c s k x he
    obtain ⟨w, s', c', rfl, hw, hk, hc⟩ := lazyRun_sound iha _ _ _ _ _ he
    exact ⟨w, s', c', rfl, hw, hk, hc.mono fun _ _ h => h⟩
  | grp n a iha =>
    intro c s k x he
    obtain ⟨w, s', c', rfl, hw, hk, hc⟩ := iha _ _ _ _ he
    refine ⟨w, s', _, rfl, .grp hw, hk, ?_⟩
    intro p hp
    rcases List.mem_cons.1 hp with rfl | hp
    · rw [take_used]
      exact .inr ⟨⟨[], s', by simp⟩, a, .inl ⟨rfl, rfl⟩, hw⟩
    · exact (hc.mono fun _ _ => Or.inr) p hp

/-- What a search finds is a word of the expression at the beginning of the text, and so are its groups. -/
theorem captures_sound {re : Re} {s : List Char} {len : Nat} {g : Caps} (he : re.captures s = some (len, g)) :
    ∃ w s', s = w ++ s' ∧ Lang re w ∧ len = w.length ∧ CapsOk re s [] g := by
  obtain ⟨w, s', c', rfl, hw, hk, hc⟩ := run_sound re _ _ _ _ he
  cases hk
  exact ⟨w, s', rfl, hw, by simp, hc⟩

theorem keyChar_iff {c : Char} : KeyChar c ↔ isCharAvailableInKey c = true := by
  refine ⟨keyChar_available, fun hc => ?_⟩
  unfold isCharAvailableInKey at hc
  split at hc
  · rename_i h1
    rcases Bool.or_eq_true _ _ ▸ h1 with h1 | h1
    · exact .inl (nameChar_iff.2 (by simp [h1]))
    · simp only [List.contains_eq_mem, List.mem_cons, List.not_mem_nil, or_false, decide_eq_true_eq] at h1
      rcases h1 with rfl | rfl | rfl | rfl
      · exact .inl (nameChar_iff.2 (by decide))
      · exact .inl (nameChar_iff.2 (by decide))
      · exact .inr (.inl rfl)
      · exact .inr (.inr (.inl rfl))
  · rename_i h1
    split at hc
    · cases hc
    · rename_i h2
      simp only [Bool.or_eq_true, not_or, Bool.not_eq_true] at h1 h2
      obtain ⟨⟨⟨⟨hws, hctl⟩, hnc⟩, hp⟩, -⟩ := h2
      refine .inr (.inr (.inr ?_))
      have h3 : 128 ≤ c.toNat := by
        by_contra hlt
        have hws' : c.toNat ≠ 32 := by
          intro h32
          have : c = ' ' := by rw [← Char.ofNat_toNat c, h32]
          subst this; revert hws; decide
        have h4 := h1.1
        simp [isAsciiAlnum, isAsciiAlpha, isLowerAZ, isUpperAZ, isDigit09] at h4
        simp [isAsciiControl] at hctl
        simp [isAsciiPunct] at hp
        omega
      simp only [isNonCharacter, Bool.or_eq_false_iff, beq_eq_false_iff_ne, Bool.and_eq_false_iff, decide_eq_false_iff_not] at hnc
      exact ⟨h3, by omega, hnc.1.2, hnc.2⟩

theorem asciiWs_blank {c : Char} (hc : isAsciiWs c = true) :
    c = ' ' ∨ c = '\t' ∨ c = '\n' ∨ c = '\r' ∨ c = Char.ofNat 12 := by
  simp only [isAsciiWs, Bool.or_eq_true, beq_iff_eq] at hc
  tauto

/-! ## Patterns -/

theorem takeWhile_all (p : Char → Bool) (s : List Char) : ∀ x ∈ s.takeWhile p, p x = true := by
  intro x hx
  induction s with
  | nil => cases hx
  | cons y s ih =>
    rw [List.takeWhile_cons] at hx
    split at hx
    · rename_i hy
      rcases List.mem_cons.1 hx with rfl | hx
      · exact hy
      · exact ih hx
    · cases hx

theorem identLoop_sound : ∀ (s : List Char) (b : Bool), ∃ u s', s = u ++ s' ∧
    (identLoop b s).1.length + (identLoop b s).2 = u.length ∧
    (b = false → ∃ t, IdTail (identLoop b s).1 t ∧ (u = t ∨ u = t ++ ['\\'])) ∧
    (b = true → s = [] ∨ ∃ x v t, u = x :: v ∧ IdTail (identLoop b s).1 ('\\' :: x :: t) ∧ (v = t ∨ v = t ++ ['\\'])) := by
  intro s
  induction s with
  | nil =>
    intro b
    exact ⟨[], [], rfl, rfl, fun _ => ⟨[], .nil, .inl rfl⟩, fun _ => .inl rfl⟩
  | cons x s ih =>
    intro b
    cases b with
    | true =>
      obtain ⟨u, s', hs, hl, hf, -⟩ := ih false
      obtain ⟨t, ht, hu⟩ := hf rfl
      refine ⟨x :: u, s', by simp [hs], ?_, by simp, fun _ => .inr ⟨x, u, t, rfl, .esc ht, hu⟩⟩
      simp only [identLoop, if_true, List.length_cons]; omega
    | false =>
      by_cases h1 : (isAsciiAlnum x || x == '-' || x == '_') = true
      · obtain ⟨u, s', hs, hl, hf, -⟩ := ih false
        obtain ⟨t, ht, hu⟩ := hf rfl
        refine ⟨x :: u, s', by simp [hs], ?_, fun _ => ?_, by simp⟩
        · simp only [identLoop, h1, if_true, Bool.false_eq_true, if_false, List.length_cons]; omega
        · simp only [identLoop, h1, if_true, Bool.false_eq_true, if_false]
          refine ⟨x :: t, .plain (nameChar_iff.2 h1) ht, ?_⟩
          rcases hu with rfl | rfl
          · exact .inl rfl
          · exact .inr rfl
      · by_cases h2 : (x == '\\') = true
        · obtain rfl := beq_iff_eq.1 h2
          obtain ⟨u, s', hs, hl, -, hf⟩ := ih true
          refine ⟨'\\' :: u, s', by simp [hs], ?_, fun _ => ?_, by simp⟩
          · simp only [identLoop, h1, h2, if_true, Bool.false_eq_true, if_false, List.length_cons]; omega
          · simp only [identLoop, h1, h2, if_true, Bool.false_eq_true, if_false]
            rcases hf rfl with rfl | ⟨y, v, t, rfl, ht, hv⟩
            · have : u = [] := by
                cases u with
                | nil => rfl
                | cons => simp at hs
              subst this
              exact ⟨[], .nil, .inr rfl⟩
            · refine ⟨_, ht, ?_⟩
              rcases hv with rfl | rfl
              · exact .inl rfl
              · exact .inr rfl
        · refine ⟨[], x :: s, rfl, ?_, fun _ => ?_, by simp⟩
          · simp [identLoop, h1, h2]
          · simp only [identLoop, h1, h2, Bool.false_eq_true, if_false]
            exact ⟨[], .nil, .inl rfl⟩

theorem ident_sound {s : List Char} {m : Matched} (he : identMatched s = .ok (some m)) :
    ∃ u s', s = u ++ s' ∧ m.chars.length + m.ignore = u.length ∧ PatLang .identity u := by
  cases s with
  | nil => cases he
  | cons x s =>
    simp only [identMatched] at he
    split at he
    · rename_i hx
      cases he
      have h1 : (isAsciiAlnum x || x == '-' || x == '_') = true := nameChar_iff.1 (.inl (nameStart_iff.2 hx))
      obtain ⟨u, s', hs, hl, hf, -⟩ := identLoop_sound s false
      obtain ⟨t, ht, hu⟩ := hf rfl
      refine ⟨x :: u, s', by simp [hs], ?_, x :: (identLoop false s).1, x :: t, .mk (nameStart_iff.2 hx) ht, ?_⟩
      · simp only [identLoop, h1, if_true, Bool.false_eq_true, if_false, List.length_cons]; omega
      · rcases hu with rfl | rfl
        · exact .inl rfl
        · exact .inr rfl
    · cases he

theorem reOf_getRule {ctx : List Char} {re : Re} (he : getRule ctx = .ok re) : ReOf ctx re := by
  unfold getRule at he
  split at he
  · cases he; exact .inl ⟨‹_›, rfl⟩
  · split at he
    · cases he; exact .inr (.inl ⟨‹_›, rfl⟩)
    · split at he
      · cases he; exact .inr (.inr ⟨‹_›, rfl⟩)
      · cases he

theorem nthMatched_sound {s : List Char} {m : Matched} (he : nthMatched s = some m) :
    ∃ u s', s = u ++ s' ∧ m.chars.length + m.ignore = u.length ∧ PatLang .nth u := by
  unfold nthMatched at he
  split at he
  · rename_i len g hc
    obtain ⟨w, s', rfl, hw, rfl, -⟩ := captures_sound hc
    dsimp only at he
    generalize hi : (if (capGet g 6).isSome then nthNumber g 6 5 none else nthNumber g 4 3 none) = i at he
    generalize hn : (if (capGet g 6).isSome then none else nthNumber g 2 1 (some ['1'])) = n at he
    split at he
    · cases he
      exact ⟨w, s', rfl, by simp, .inl hw⟩
    · cases he
  · split at he
    · rename_i hp
      cases he
      obtain ⟨r, hr⟩ := List.isPrefixOf_iff_prefix.1 hp
      exact ⟨_, r, hr.symm, rfl, .inr (.inl rfl)⟩
    · split at he
      · rename_i hp
        cases he
        obtain ⟨r, hr⟩ := List.isPrefixOf_iff_prefix.1 hp
        exact ⟨_, r, hr.symm, rfl, .inr (.inr rfl)⟩
      · cases he

theorem matched_sound {p : Pat} {s : List Char} {m : Matched} (he : p.matched s = .ok (some m)) :
    ∃ u s', s = u ++ s' ∧ m.chars.length + m.ignore = u.length ∧ PatLang p u := by
  cases p with
  | chr c =>
    cases s with
    | nil => cases he
    | cons x s =>
      simp only [Pat.matched, Except.ok.injEq] at he
      split at he
      · rename_i hx
        cases he; subst hx
        exact ⟨[c], s, rfl, rfl, rfl⟩
      · cases he
  | lit l =>
    simp only [Pat.matched, Except.ok.injEq] at he
    split at he
    · rename_i hp
      cases he
      obtain ⟨r, hr⟩ := List.isPrefixOf_iff_prefix.1 hp
      exact ⟨_, r, hr.symm, rfl, rfl⟩
    · cases he
  | identity => exact ident_sound he
  | attrKey =>
    simp only [Pat.matched, Except.ok.injEq] at he
    split at he
    · cases he
    · rename_i hne
      cases he
      refine ⟨s.takeWhile isCharAvailableInKey, s.dropWhile isCharAvailableInKey, (List.takeWhile_append_dropWhile ..).symm, rfl, ?_, ?_⟩
      · intro h0; rw [h0] at hne; exact hne rfl
      · intro c hc; exact keyChar_iff.2 (takeWhile_all _ _ c hc)
  | spaces =>
    cases he
    exact ⟨s.takeWhile isAsciiWs, s.dropWhile isAsciiWs, (List.takeWhile_append_dropWhile ..).symm, rfl,
      fun c hc => asciiWs_blank (takeWhile_all _ _ c hc)⟩
  | nth => exact nthMatched_sound (by simpa [Pat.matched] using he)
  | regexp ctx =>
    simp only [Pat.matched] at he
    cases hr : getRule ctx with
    | error e => rw [hr] at he; cases he
    | ok re =>
      rw [hr] at he
      simp only [Except.map, Except.ok.injEq] at he
      split at he
      · rename_i len g hc
        cases he
        obtain ⟨w, s', rfl, hw, rfl, -⟩ := captures_sound hc
        exact ⟨w, s', rfl, by simp, re, reOf_getRule hr, hw⟩
      · cases he
  | nested => cases he

theorem matched_needs {p : Pat} {s : List Char} {e : Panic} (hk : ∀ ctx, p = .regexp ctx → ∃ re, ReOf ctx re)
    (he : p.matched s = .error e) : s = [] ∧ Needs p := by
  cases p with
  | chr c =>
    cases s with
    | nil => exact ⟨rfl, .inr ⟨c, rfl⟩⟩
    | cons => cases he
  | identity =>
    cases s with
    | nil => exact ⟨rfl, .inl rfl⟩
    | cons x s =>
      simp only [Pat.matched, identMatched] at he
      split at he <;> cases he
  | regexp ctx =>
    obtain ⟨re, hre⟩ := hk ctx rfl
    rcases hre with ⟨rfl, -⟩ | ⟨rfl, -⟩ | ⟨rfl, -⟩
    · simp only [Pat.matched, getRule_splitter] at he; cases he
    · simp only [Pat.matched, getRule_attr] at he; cases he
    · simp only [Pat.matched, getRule_contains] at he; cases he
  | _ => cases he

/-- The patterns have known expressions. -/
def KnownPats (ps : List Pat) : Prop := ∀ p ∈ ps, ∀ ctx, p = .regexp ctx → ∃ re, ReOf ctx re

theorem execPats_sound : ∀ {ps : List Pat} {s : List Char} {ms : List Matched} {len num : Nat},
    execPats ps s = .ok (ms, len, num) → num ≤ ps.length ∧ ms.length = num ∧
      ∃ u s', s = u ++ s' ∧ len = u.length ∧ Pieces (ps.take num) u
  | [], s, ms, len, num, he => by
    cases he
    exact ⟨le_rfl, rfl, [], s, rfl, rfl, .nil⟩
  | p :: ps, s, ms, len, num, he => by
    simp only [execPats] at he
    cases hm : p.matched s with
    | error e => rw [hm] at he; cases he
    | ok o =>
      rw [hm] at he
      cases o with
      | none => cases he; exact ⟨Nat.zero_le _, rfl, [], s, rfl, rfl, .nil⟩
      | some m =>
        obtain ⟨u, s', rfl, hu, hp⟩ := matched_sound hm
        simp only [hu, List.drop_left] at he
        cases hx : execPats ps s' with
        | error e => rw [hx] at he; cases he
        | ok r =>
          obtain ⟨ms', len', num'⟩ := r
          rw [hx] at he
          cases he
          obtain ⟨h1, h2, v, s'', rfl, rfl, hv⟩ := execPats_sound hx
          exact ⟨by simpa using h1, by simp [h2], u ++ v, s'', by simp, by simp, .cons hp hv⟩

theorem execPats_error : ∀ {ps : List Pat} {s : List Char} {e : Panic}, KnownPats ps →
    execPats ps s = .error e → Cut ps s
  | [], s, e, _, he => by cases he
  | p :: ps, s, e, hk, he => by
    simp only [execPats] at he
    cases hm : p.matched s with
    | error e' =>
      obtain ⟨rfl, hn⟩ := matched_needs (hk p (List.mem_cons_self ..)) hm
      exact ⟨[], p, ps, rfl, hn, .nil⟩
    | ok o =>
      rw [hm] at he
      cases o with
      | none => cases he
      | some m =>
        obtain ⟨u, s', rfl, hu, hp⟩ := matched_sound hm
        simp only [hu, List.drop_left] at he
        cases hx : execPats ps s' with
        | ok r => rw [hx] at he; cases he
        | error e' =>
          obtain ⟨qs, p', rs, rfl, hn, hq⟩ := execPats_error (fun q hq => hk q (List.mem_cons_of_mem _ hq)) hx
          exact ⟨p :: qs, p', rs, rfl, hn, .cons hp hq⟩

end Visdom
