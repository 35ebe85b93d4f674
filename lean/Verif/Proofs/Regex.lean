import Verif.Model.Regex
import Verif.Spec.SelText
/-!
# Lemmas about the matcher of regular expressions
-/
namespace Visdom
open Spec
variable {α : Type}

theorem run_seq (a b : Re) (c : Caps) (s : List Char) (k : Caps → List Char → Option α) :
    (Re.seq a b).run c s k = a.run c s fun c' s' => b.run c' s' k := rfl
theorem run_grp (n : Nat) (a : Re) (c : Caps) (s : List Char) (k : Caps → List Char → Option α) :
    (Re.grp n a).run c s k = a.run c s fun c' s' => k ((n, s.take (s.length - s'.length)) :: c') s' := rfl
theorem run_alt_left {a b : Re} {c : Caps} {s : List Char} {k : Caps → List Char → Option α} {x : α}
    (hx : a.run c s k = some x) : (Re.alt a b).run c s k = some x := by simp only [Re.run, hx]
theorem run_alt_right {a b : Re} {c : Caps} {s : List Char} {k : Caps → List Char → Option α}
    (hx : a.run c s k = none) : (Re.alt a b).run c s k = b.run c s k := by simp only [Re.run, hx]
theorem run_opt_some {a : Re} {c : Caps} {s : List Char} {k : Caps → List Char → Option α} {x : α}
    (hx : a.run c s k = some x) : (Re.opt a).run c s k = some x := by simp only [Re.run, hx]
theorem run_opt_none {a : Re} {c : Caps} {s : List Char} {k : Caps → List Char → Option α}
    (hx : a.run c s k = none) : (Re.opt a).run c s k = k c s := by simp only [Re.run, hx]
theorem run_one {p : Char → Bool} {x : Char} (hx : p x = true) (c : Caps) (s : List Char) (k : Caps → List Char → Option α) :
    (Re.one p).run c (x :: s) k = k c s := by simp only [Re.run, hx, if_true]
theorem run_one_fail {p : Char → Bool} {s : List Char} (hx : ∀ x r, s = x :: r → p x = false) (c : Caps)
    (k : Caps → List Char → Option α) : (Re.one p).run c s k = none := by
  cases s with
  | nil => rfl
  | cons x s => simp [Re.run, hx x s rfl]
theorem run_chr (x : Char) (c : Caps) (s : List Char) (k : Caps → List Char → Option α) :
    (Re.chr x).run c (x :: s) k = k c s := run_one (by simp) c s k

/-- Every character the expression consumes satisfies `q`. -/
def Re.Only (q : Char → Prop) : Re → Prop
  | .one p => ∀ x, p x = true → q x
  | .seq a b | .alt a b => a.Only q ∧ b.Only q
  | .opt a | .many a | .lazy a | .grp _ a => a.Only q

theorem manyRun_none {q : Char → Prop} {f : Caps → List Char → (Caps → List Char → Option α) → Option α}
    (hf : ∀ c s k, (∀ c' u s', s = u ++ s' → (∀ x ∈ u, q x) → k c' s' = none) → f c s k = none) :
    ∀ n c s (k : Caps → List Char → Option α), (∀ c' u s', s = u ++ s' → (∀ x ∈ u, q x) → k c' s' = none) →
      manyRun f n c s k = none := by
  intro n
  induction n with
  | zero => intro c s k hk; exact hk c [] s rfl (by simp)
  | succ n ih =>
    intro c s k hk
    have h1 : (f c s fun c' s' => if s'.length < s.length then manyRun f n c' s' k else none) = none := by
      apply hf
      intro c' u s' hs hu
      split
      · apply ih
        intro c'' u' s'' hs' hu'
        apply hk c'' (u ++ u') s'' (by simp [hs, hs'])
        intro x hx
        rcases List.mem_append.1 hx with hx | hx
        · exact hu x hx
        · exact hu' x hx
      · rfl
    simp only [manyRun, h1]
    exact hk c [] s rfl (by simp)

theorem lazyRun_none {q : Char → Prop} {f : Caps → List Char → (Caps → List Char → Option α) → Option α}
    (hf : ∀ c s k, (∀ c' u s', s = u ++ s' → (∀ x ∈ u, q x) → k c' s' = none) → f c s k = none) :
    ∀ n c s (k : Caps → List Char → Option α), (∀ c' u s', s = u ++ s' → (∀ x ∈ u, q x) → k c' s' = none) →
      lazyRun f n c s k = none := by
  intro n
  induction n with
  | zero => intro c s k hk; exact hk c [] s rfl (by simp)
  | succ n ih =>
    intro c s k hk
    simp only [lazyRun, hk c [] s rfl (by simp)]
    apply hf
    intro c' u s' hs hu
    split
    · apply ih
      intro c'' u' s'' hs' hu'
      apply hk c'' (u ++ u') s'' (by simp [hs, hs'])
      intro x hx
      rcases List.mem_append.1 hx with hx | hx
      · exact hu x hx
      · exact hu' x hx
    · rfl

/-- If the continuation fails wherever the expression can stop, the match fails. -/
theorem run_none {q : Char → Prop} : ∀ (re : Re), re.Only q → ∀ c s (k : Caps → List Char → Option α),
    (∀ c' u s', s = u ++ s' → (∀ x ∈ u, q x) → k c' s' = none) → re.run c s k = none := by
  intro re
  induction re with
  | one p =>
    intro ho c s k hk
    cases s with
    | nil => rfl
    | cons x s =>
      simp only [Re.run]
      split
      · rename_i hp
        exact hk c [x] s rfl (by intro y hy; rw [List.mem_singleton.1 hy]; exact ho x hp)
      · rfl
  | seq a b iha ihb =>
    intro ho c s k hk
    apply iha ho.1
    intro c' u s' hs hu
    apply ihb ho.2
    intro c'' u' s'' hs' hu'
    apply hk c'' (u ++ u') s'' (by simp [hs, hs'])
    intro x hx
    rcases List.mem_append.1 hx with hx | hx
    · exact hu x hx
    · exact hu' x hx
  | alt a b iha ihb =>
    intro ho c s k hk
    simp only [Re.run, iha ho.1 c s k hk]
    exact ihb ho.2 c s k hk
  | opt a iha =>
    intro ho c s k hk
    simp only [Re.run, iha ho c s k hk]
    exact hk c [] s rfl (by simp)
  | many a iha => intro ho c s k hk; exact manyRun_none (fun c s k hk => iha ho c s k hk) _ _ _ _ hk
  | lazy a iha => intro ho c s k hk; exact lazyRun_none (fun c s k hk => iha ho c s k hk) _ _ _ _ hk
  | grp n a iha =>
    intro ho c s k hk
    apply iha ho
    intro c' u s' hs hu
    exact hk _ u s' hs hu

/-- Where an expression consuming only `q` can stop before a character that is not `q`. -/
theorem split_only {q : Char → Prop} {t : List Char} {x : Char} {r u s' : List Char} (hx : ¬ q x)
    (hs : t ++ x :: r = u ++ s') (hu : ∀ y ∈ u, q y) : ∃ t', s' = t' ++ x :: r ∧ ∃ t'', t = t'' ++ t' := by
  rcases List.append_eq_append_iff.1 hs with ⟨a, h1, h2⟩ | ⟨a, h1, h2⟩
  · cases a with
    | nil => exact ⟨[], by simpa using h2.symm, t, by simp⟩
    | cons y a =>
      simp only [List.cons_append, List.cons.injEq] at h2
      obtain ⟨rfl, -⟩ := h2
      exact absurd (hu x (by simp [h1])) hx
  · exact ⟨a, h2, u, h1⟩

/-- Repetition of one character class, longest first, when the continuation accepts the end of the run. -/
theorem manyRun_one {p : Char → Bool} (c : Caps) {rest : List Char} {k : Caps → List Char → Option α} {a : α}
    (hr : ∀ x r, rest = x :: r → p x = false) (hk : k c rest = some a) :
    ∀ (w : List Char) (n : Nat), (∀ x ∈ w, p x = true) → w.length ≤ n →
      manyRun (fun c s k => (Re.one p).run c s k) n c (w ++ rest) k = some a := by
  intro w
  induction w with
  | nil =>
    intro n _ _
    cases n with
    | zero => exact hk
    | succ n =>
      cases rest with
      | nil => simp only [List.nil_append, manyRun, Re.run]; exact hk
      | cons x r => simp only [List.nil_append, manyRun, Re.run, hr x r rfl]; exact hk
  | cons x w ih =>
    intro n hw hn
    cases n with
    | zero => simp at hn
    | succ n =>
      have h1 := ih n (fun y hy => hw y (List.mem_cons_of_mem _ hy)) (by simpa using hn)
      simp only [Re.run] at h1
      simp only [List.cons_append, manyRun, Re.run, hw x (List.mem_cons_self ..), if_true, List.length_cons,
        Nat.lt_succ_self, h1]

theorem run_many_one {p : Char → Bool} (c : Caps) {rest w : List Char} {k : Caps → List Char → Option α} {a : α}
    (hr : ∀ x r, rest = x :: r → p x = false) (hk : k c rest = some a) (hw : ∀ x ∈ w, p x = true) :
    (Re.many (.one p)).run c (w ++ rest) k = some a :=
  manyRun_one c hr hk w _ hw (by simp)

theorem run_plus_one {p : Char → Bool} (c : Caps) {rest w : List Char} {k : Caps → List Char → Option α} {a : α}
    (hr : ∀ x r, rest = x :: r → p x = false) (hk : k c rest = some a) (hw : ∀ x ∈ w, p x = true) (hne : w ≠ []) :
    (Re.plus (.one p)).run c (w ++ rest) k = some a := by
  obtain ⟨x, w, rfl⟩ := List.exists_cons_of_ne_nil hne
  have h1 : (Re.many (.one p)).run c (w ++ rest) k = some a :=
    run_many_one c hr hk fun y hy => hw y (List.mem_cons_of_mem _ hy)
  simp only [Re.plus, Re.run, List.cons_append, hw x (List.mem_cons_self ..), if_true] at h1 ⊢
  exact h1

/-- `(\\?)+` takes all backslashes if the continuation accepts that. -/
theorem manyRun_opt {b : Char} (c : Caps) {x : Char} {s : List Char} {k : Caps → List Char → Option α} {a : α}
    (hx : x ≠ b) (hk : k c (x :: s) = some a) :
    ∀ (j n : Nat), j ≤ n →
      manyRun (fun c s k => (Re.opt (.chr b)).run c s k) n c (List.replicate j b ++ x :: s) k = some a := by
  have hxb : (x == b) = false := by simpa using hx
  intro j
  induction j with
  | zero =>
    intro n _
    cases n with
    | zero => exact hk
    | succ n => simp [manyRun, Re.run, Re.chr, hxb, hk]
  | succ j ih =>
    intro n hn
    cases n with
    | zero => simp at hn
    | succ n =>
      have h1 := ih n (by omega)
      simp only [List.replicate_succ, List.cons_append, manyRun]
      rw [show ((Re.opt (.chr b)).run c (b :: (List.replicate j b ++ x :: s)) fun c' s' =>
        if s'.length < (b :: (List.replicate j b ++ x :: s)).length then
          manyRun (fun c s k => (Re.opt (.chr b)).run c s k) n c' s' k else none) = some a by
        simp only [Re.run, Re.chr, beq_self_eq_true, if_true, List.length_cons, Nat.lt_succ_self]
        simp only [Re.run, Re.chr] at h1
        rw [h1]]

/-- One unit of a quoted value: backslashes and the character after them. -/
theorem run_unit (c : Caps) (j : Nat) {x : Char} {s : List Char} {k : Caps → List Char → Option α} {a : α}
    (hx : x ≠ '\\') (hn : x ≠ '\n') (hk : k c s = some a) :
    (Re.seq (.plus (.opt (.chr '\\'))) (.one isReDot)).run c (List.replicate j '\\' ++ x :: s) k = some a := by
  have hxb : (x == '\\') = false := by simpa using hx
  have hdot : isReDot x = true := by simp [isReDot, hn]
  have hk' : (Re.one isReDot).run c (x :: s) k = some a := by simp [Re.run, hdot, hk]
  have hm : ∀ j : Nat, (Re.many (.opt (.chr '\\'))).run c (List.replicate j '\\' ++ x :: s)
      (fun c' s' => (Re.one isReDot).run c' s' k) = some a := fun j =>
    manyRun_opt c hx (k := fun c' s' => (Re.one isReDot).run c' s' k) hk' j _ (by simp)
  have h3 : ∀ s' (k' : Caps → List Char → Option α), (Re.opt (.chr '\\')).run c s' k' =
      match (Re.chr '\\').run c s' k' with
      | some y => some y
      | none => k' c s' := fun _ _ => rfl
  cases j with
  | zero =>
    have h2 := hm 0
    simp only [List.replicate_zero, List.nil_append] at h2 ⊢
    show (Re.opt (.chr '\\')).run c (x :: s) _ = some a
    rw [h3, show ∀ k' : Caps → List Char → Option α, (Re.chr '\\').run c (x :: s) k' = none by
      intro k'; simp [Re.chr, Re.run, hxb]]
    exact h2
  | succ j =>
    have h2 := hm j
    show (Re.opt (.chr '\\')).run c (List.replicate (j + 1) '\\' ++ x :: s) _ = some a
    rw [h3, List.replicate_succ, List.cons_append, show ∀ (k' : Caps → List Char → Option α) s',
      (Re.chr '\\').run c ('\\' :: s') k' = k' c s' by intro k' s'; simp [Re.chr, Re.run]]
    simp only [h2]

/-- A non-empty quotable text begins with a unit. -/
theorem quotable_unit {q : Char} : ∀ {v : List Char} {esc : Bool}, Quotable q esc v → v ≠ [] →
    ∃ j x v', v = List.replicate j '\\' ++ x :: v' ∧ x ≠ '\\' ∧ x ≠ '\n' ∧ (j = 0 → x = q → esc = true) ∧
      Quotable q false v' := by
  intro v
  induction v with
  | nil => intro esc _ h; exact absurd rfl h
  | cons c v ih =>
    intro esc hq _
    obtain ⟨hn, hqe, hq'⟩ := hq
    by_cases hc : c = '\\'
    · subst hc
      simp only [beq_self_eq_true] at hq'
      have hv : v ≠ [] := by rintro rfl; simp [Quotable] at hq'
      obtain ⟨j, x, v', rfl, h1, h2, -, h4⟩ := ih hq' hv
      exact ⟨j + 1, x, v', by simp [List.replicate_succ], h1, h2, by simp, h4⟩
    · have : (c == '\\') = false := by simpa using hc
      rw [this] at hq'
      exact ⟨0, c, v, by simp, hc, hn, fun _ => hqe, hq'⟩

/-- The lazy repetition inside quotes stops at the closing quote. -/
theorem lazyRun_quoted {q : Char} (hqb : q ≠ '\\') (c : Caps) {rest : List Char} {k : Caps → List Char → Option α} {a : α}
    (hk : k c (q :: rest) = some a) (hfail : ∀ x s, x ≠ q → k c (x :: s) = none) :
    ∀ (m : Nat) (v : List Char) (n : Nat), v.length ≤ m → v.length ≤ n → Quotable q false v →
      lazyRun (fun c s k => (Re.seq (.plus (.opt (.chr '\\'))) (.one isReDot)).run c s k) n c (v ++ q :: rest) k = some a := by
  intro m
  induction m with
  | zero =>
    intro v n hm hn hq
    have : v = [] := List.length_eq_zero_iff.1 (Nat.le_zero.1 hm)
    subst this
    cases n with
    | zero => exact hk
    | succ n => simp only [List.nil_append, lazyRun, hk]
  | succ m ih =>
    intro v n hm hn hq
    by_cases hv : v = []
    · subst hv
      cases n with
      | zero => exact hk
      | succ n => simp only [List.nil_append, lazyRun, hk]
    obtain ⟨j, x, v', rfl, h1, h2, h3, h4⟩ := quotable_unit hq hv
    cases n with
    | zero => simp at hn
    | succ n =>
      have h0 : k c ((List.replicate j '\\' ++ x :: v') ++ q :: rest) = none := by
        cases j with
        | zero => exact hfail _ _ fun e => by simpa using h3 rfl e
        | succ j => exact hfail _ _ (by simpa using hqb.symm)
      simp only [List.length_append, List.length_replicate, List.length_cons] at hm hn
      have hr := ih v' n (by omega) (by omega) h4
      simp only [lazyRun, h0]
      rw [List.append_assoc, List.cons_append]
      apply run_unit c j h1 h2
      rw [if_pos (by simp; omega)]
      exact hr

theorem run_quoted {n : Nat} {q : Char} (hqb : q ≠ '\\') {v : List Char} (hv : Quotable q false v) (c : Caps)
    {rest : List Char} {k : Caps → List Char → Option α} {a : α} (hk : k ((n, v) :: c) rest = some a) :
    (quotedRe n q).run c (q :: (v ++ q :: rest)) k = some a := by
  have h1 := lazyRun_quoted hqb c (rest := rest)
    (k := fun c' s' => (Re.chr q).run ((n, (v ++ q :: rest).take ((v ++ q :: rest).length - s'.length)) :: c') s' k)
    (a := a)
    (by
      have : (v ++ q :: rest).take ((v ++ q :: rest).length - (q :: rest).length) = v := by simp
      rw [this]; simpa [Re.chr, Re.run] using hk)
    (by intro x s hx; simp [Re.chr, Re.run, hx]) v.length v (v ++ q :: rest).length le_rfl (by simp) hv
  simp only [quotedRe, Re.run, Re.chr, beq_self_eq_true, if_true] at h1 ⊢
  exact h1

theorem blank_reSpace {w : List Char} (hw : Blank w) : ∀ x ∈ w, isReSpace x = true := by
  intro x hx
  rcases hw x hx with rfl | rfl | rfl | rfl | rfl <;> decide

theorem blank_ascii {w : List Char} (hw : Blank w) : ∀ x ∈ w, isAsciiWs x = true := by
  intro x hx
  rcases hw x hx with rfl | rfl | rfl | rfl | rfl <;> decide

end Visdom
