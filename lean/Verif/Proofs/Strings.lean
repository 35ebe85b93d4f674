import Verif.Model.Utils
import Verif.Model.Attr
import Verif.Spec.Strings
/-! Lemmas about characters, class lists, substring search. -/
namespace Visdom
open Spec

theorem char_ext {a b : Char} (h : a.toNat = b.toNat) : a = b := by
  apply Char.ext
  apply UInt32.toNat.inj
  exact h

theorem ofNat_toNat {n : Nat} (h : n < 55296) : (Char.ofNat n).toNat = n := by
  have hv : n.isValidChar := Or.inl (by omega)
  simp only [Char.ofNat, dif_pos hv]
  rfl

theorem isAsciiWs_iff (c : Char) : isAsciiWs c = true ↔ IsSpace c := by
  simp only [isAsciiWs, Bool.or_eq_true, beq_iff_eq, IsSpace]
  constructor
  · rintro ((((h | h) | h) | h) | h) <;> subst h <;> decide
  · rintro (h | h | h | h | h)
    · exact Or.inl (Or.inl (Or.inl (Or.inl (char_ext h))))
    · exact Or.inl (Or.inl (Or.inl (Or.inr (char_ext h))))
    · exact Or.inl (Or.inl (Or.inr (char_ext h)))
    · exact Or.inl (Or.inr (char_ext h))
    · exact Or.inr (char_ext h)

theorem isAsciiWs_false_iff (c : Char) : isAsciiWs c = false ↔ ¬ IsSpace c := by
  rw [← isAsciiWs_iff]; simp

/-! ### class lists -/

/-- the list returned by `getClassList` when the loop is started in state `s` -/
def classFinish (s : ClassLoop) : List (List Char) := if s.prevWs then s.list else s.list ++ [s.name]

theorem getClassList_eq (a : List Char) : getClassList a = classFinish (a.foldl classStep {}) := rfl

theorem fold_spaces {g : List Char} (hg : ∀ c ∈ g, IsSpace c) (s : ClassLoop) (hs : s.prevWs = true) :
    g.foldl classStep s = s := by
  induction g with
  | nil => rfl
  | cons c g ih =>
    have hc := (isAsciiWs_iff c).2 (hg c (by simp))
    simp only [List.foldl_cons, classStep, hc, hs, if_true]
    exact ih (fun x hx => hg x (by simp [hx]))

theorem fold_token {t : List Char} (ht : ∀ c ∈ t, ¬ IsSpace c) (s : ClassLoop) (hne : t ≠ []) :
    t.foldl classStep s = { list := s.list, name := s.name ++ t, prevWs := false } := by
  induction t generalizing s with
  | nil => exact absurd rfl hne
  | cons c t ih =>
    have hc := (isAsciiWs_false_iff c).2 (ht c (by simp))
    simp only [List.foldl_cons, classStep, hc]
    by_cases h : t = []
    · subst h; simp
    · have := ih (fun x hx => ht x (by simp [hx])) { s with name := s.name ++ [c], prevWs := false } h
      simp only [this, Bool.false_eq_true, if_false]
      simp

theorem tokens_nil {l : List (List Char)} (h : Tokens [] l) : l = [] := by
  generalize hs : ([] : List Char) = s at h
  cases h with
  | blank => rfl
  | token g t r l hg ht hr h =>
    simp at hs
    exact absurd hs.2.1 ht.1

theorem getClassList_of_tokens_aux {s : List Char} {l : List (List Char)} (h : Tokens s l) :
    ∀ L : List (List Char), classFinish (s.foldl classStep { list := L, name := [], prevWs := true }) = L ++ l := by
  induction h with
  | blank g hg =>
    intro L
    rw [fold_spaces hg _ rfl]; simp [classFinish]
  | token g t rest l hg ht hr h ih =>
    intro L
    rw [List.foldl_append, List.foldl_append, fold_spaces hg _ rfl, fold_token ht.2 _ ht.1]
    cases rest with
    | nil =>
      rw [tokens_nil h]
      simp [classFinish]
    | cons c r =>
      have hc := (isAsciiWs_iff c).2 (hr c rfl)
      have := ih (L ++ [t])
      simp only [List.foldl_cons, classStep, hc, if_true, List.nil_append, Bool.false_eq_true, if_false] at this ⊢
      rw [this]; simp

theorem tokens_unique {s : List Char} {l : List (List Char)} (h : Tokens s l) : getClassList s = l := by
  rw [getClassList_eq]
  simpa using getClassList_of_tokens_aux h []

theorem tokens_exists (s : List Char) : ∃ l, Tokens s l := by
  generalize hn : s.length = n
  induction n using Nat.strongRecOn generalizing s with
  | _ n ih =>
    -- split off leading spaces, then the token
    let g := s.takeWhile isAsciiWs
    let s1 := s.dropWhile isAsciiWs
    let t := s1.takeWhile (fun c => !isAsciiWs c)
    let rest := s1.dropWhile (fun c => !isAsciiWs c)
    have e1 : g ++ s1 = s := List.takeWhile_append_dropWhile
    have e2 : t ++ rest = s1 := List.takeWhile_append_dropWhile
    have hg : ∀ c ∈ g, IsSpace c := fun c hc => (isAsciiWs_iff c).1 (by
      have := List.all_takeWhile (l := s) (p := isAsciiWs)
      rw [List.all_eq_true] at this
      exact this c hc)
    have ht : ∀ c ∈ t, ¬ IsSpace c := fun c hc => (isAsciiWs_false_iff c).1 (by
      have := List.all_takeWhile (l := s1) (p := fun c => !isAsciiWs c)
      rw [List.all_eq_true] at this
      simpa using this c hc)
    have hr : ∀ c, rest.head? = some c → IsSpace c := by
      intro c hc
      have := List.head?_dropWhile_not (p := fun c => !isAsciiWs c) (l := s1)
      rw [show List.dropWhile (fun c => !isAsciiWs c) s1 = rest from rfl, hc] at this
      exact (isAsciiWs_iff c).1 (by simpa using this)
    by_cases h0 : t = []
    · -- then s1 is empty
      have hs1 : s1 = [] := by
        have hrest : rest = s1 := by simpa [h0] using e2
        cases hs : s1 with
        | nil => rfl
        | cons c r =>
          exfalso
          have h1 : IsSpace c := hr c (by rw [hrest, hs]; rfl)
          have := List.head?_dropWhile_not (p := isAsciiWs) (l := s)
          rw [show List.dropWhile isAsciiWs s = s1 from rfl, hs] at this
          have : isAsciiWs c = false := by simpa using this
          exact ((isAsciiWs_false_iff c).1 this) h1
      refine ⟨[], ?_⟩
      rw [← e1, hs1, List.append_nil]
      exact Tokens.blank g hg
    · have hlen : rest.length < n := by
        have : g.length + (t.length + rest.length) = n := by
          rw [← hn, ← e1, ← e2]; simp
        have : 0 < t.length := List.length_pos_iff.2 h0
        omega
      obtain ⟨l, hl⟩ := ih _ hlen rest rfl
      refine ⟨t :: l, ?_⟩
      rw [← e1, ← e2, ← List.append_assoc]
      exact Tokens.token g t rest l hg ⟨h0, ht⟩ hr hl

theorem tokens_of_joined (l : List (List Char)) (h : ∀ t ∈ l, IsToken t) : Tokens (classListToString l) l := by
  have sp : IsSpace ' ' := Or.inl rfl
  have key : ∀ (l : List (List Char)) (last : List Char), (∀ t ∈ l, IsToken t) → IsToken last →
      Tokens ((l.flatMap fun name => name ++ [' ']) ++ last) (l ++ [last]) ∧
      Tokens ([' '] ++ ((l.flatMap fun name => name ++ [' ']) ++ last)) (l ++ [last]) := by
    intro l last
    induction l with
    | nil =>
      intro _ hl
      constructor
      · have := Tokens.token [] last [] [] (by simp) hl (by simp) (Tokens.blank [] (by simp))
        simpa using this
      · have := Tokens.token [' '] last [] [] (by simp [sp]) hl (by simp) (Tokens.blank [] (by simp))
        simpa using this
    | cons t l ih =>
      intro hl hlast
      have ih2 := (ih (fun x hx => hl x (by simp [hx])) hlast).2
      have ht := hl t (by simp)
      constructor
      · have := Tokens.token [] t _ _ (by simp) ht (by simp [sp]) ih2
        simpa using this
      · have := Tokens.token [' '] t _ _ (by simp [sp]) ht (by simp [sp]) ih2
        simpa using this
  unfold classListToString
  cases hl : l.getLast? with
  | none =>
    rw [List.getLast?_eq_none_iff] at hl
    subst hl
    exact Tokens.blank [] (by simp)
  | some last =>
    have e : l.dropLast ++ [last] = l := by
      obtain ⟨ys, rfl⟩ := List.getLast?_eq_some_iff.1 hl
      simp
    have := (key l.dropLast last (fun t ht => h t (by rw [← e]; simp [ht])) (h last (by rw [← e]; simp))).1
    rwa [e] at this

theorem tokens_valid {s : List Char} {l : List (List Char)} (h : Tokens s l) : ∀ t ∈ l, IsToken t := by
  induction h with
  | blank => simp
  | token g t rest l hg ht hr h ih =>
    intro x hx
    rcases List.mem_cons.1 hx with rfl | hx
    · exact ht
    · exact ih x hx

theorem getClassList_valid (s : List Char) : ∀ t ∈ getClassList s, IsToken t := by
  obtain ⟨l, hl⟩ := tokens_exists s
  rw [tokens_unique hl]
  exact tokens_valid hl

theorem getClassList_join {l : List (List Char)} (h : ∀ t ∈ l, IsToken t) :
    getClassList (classListToString l) = l := tokens_unique (tokens_of_joined l h)

/-! ### letter case -/

theorem toNat_asciiLower (c : Char) : (asciiLower c).toNat = lowerCode c := by
  unfold asciiLower isUpperAZ lowerCode
  by_cases h : 65 ≤ c.toNat ∧ c.toNat ≤ 90
  · have : (decide (65 ≤ c.toNat) && decide (c.toNat ≤ 90)) = true := by simp [h]
    rw [if_pos this, if_pos h, ofNat_toNat (by omega)]
  · have : ¬ (decide (65 ≤ c.toNat) && decide (c.toNat ≤ 90)) = true := by simpa using h
    rw [if_neg this, if_neg h]

theorem toNat_asciiUpper (c : Char) : (asciiUpper c).toNat = if 97 ≤ c.toNat ∧ c.toNat ≤ 122 then c.toNat - 32 else c.toNat := by
  unfold asciiUpper isLowerAZ
  by_cases h : 97 ≤ c.toNat ∧ c.toNat ≤ 122
  · have : (decide (97 ≤ c.toNat) && decide (c.toNat ≤ 122)) = true := by simp [h]
    rw [if_pos this, if_pos h, ofNat_toNat (by omega)]
  · have : ¬ (decide (97 ≤ c.toNat) && decide (c.toNat ≤ 122)) = true := by simpa using h
    rw [if_neg this, if_neg h]

theorem char_eq_iff (a b : Char) : a = b ↔ a.toNat = b.toNat := ⟨fun h => by rw [h], char_ext⟩

theorem isLowerAZ_iff (c : Char) : isLowerAZ c = true ↔ 97 ≤ c.toNat ∧ c.toNat ≤ 122 := by
  simp [isLowerAZ]
theorem isUpperAZ_iff (c : Char) : isUpperAZ c = true ↔ 65 ≤ c.toNat ∧ c.toNat ≤ 90 := by
  simp [isUpperAZ]

theorem charCaseEq_iff (ch cmpCh : Char) :
    (cmpCh == ch ||
    (if isLowerAZ cmpCh then asciiUpper cmpCh == ch
     else if isUpperAZ cmpCh then asciiLower cmpCh == ch
     else false)) = true ↔ lowerCode ch = lowerCode cmpCh := by
  have hu := toNat_asciiUpper cmpCh
  have hl := toNat_asciiLower cmpCh
  have i1 := isLowerAZ_iff cmpCh
  have i2 := isUpperAZ_iff cmpCh
  unfold lowerCode at *
  simp only [Bool.or_eq_true, beq_iff_eq, char_eq_iff cmpCh]
  by_cases h1 : 97 ≤ cmpCh.toNat ∧ cmpCh.toNat ≤ 122
  · rw [if_pos (i1.2 h1), if_neg (by omega : ¬ (65 ≤ cmpCh.toNat ∧ cmpCh.toNat ≤ 90))]
    rw [if_pos h1] at hu
    rw [beq_iff_eq, char_eq_iff, hu]
    split <;> omega
  · rw [if_neg (fun h => h1 (i1.1 h))]
    by_cases h2 : 65 ≤ cmpCh.toNat ∧ cmpCh.toNat ≤ 90
    · rw [if_pos (i2.2 h2)]
      rw [if_pos h2] at hl
      rw [if_pos h2, beq_iff_eq, char_eq_iff, hl]
      split <;> omega
    · rw [if_neg (fun h => h2 (i2.1 h)), if_neg h2]
      simp only [Bool.false_eq_true, or_false]
      split <;> omega

theorem lowerStr_eq_iff (a b : List Char) : lowerStr a = lowerStr b ↔ SameIgnoringCase a b := by
  unfold lowerStr SameIgnoringCase
  induction a generalizing b with
  | nil => cases b <;> simp
  | cons x a ih =>
    cases b with
    | nil => simp
    | cons y b => simp [ih, char_eq_iff, toNat_asciiLower]

theorem asciiLower_idem (c : Char) : asciiLower (asciiLower c) = asciiLower c := by
  rw [char_eq_iff, toNat_asciiLower]
  have := toNat_asciiLower c
  unfold lowerCode at *
  split <;> split at this <;> omega

theorem lowerStr_idem (s : List Char) : lowerStr (lowerStr s) = lowerStr s := by
  simp [lowerStr, asciiLower_idem]

end Visdom
