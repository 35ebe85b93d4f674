import Verif.Model.Template
import Verif.Spec.Template
/-!
# The loop of `get_queues` on the text of pieces
-/
namespace Visdom
open Spec

theorem TplState.run_append (s : TplState) (a b : List Char) :
    s.run (a ++ b) = match s.run a with | .error e => .error e | .ok s' => s'.run b := by
  induction a generalizing s with
  | nil => rfl
  | cons c a ih =>
    simp only [List.cons_append, TplState.run]
    cases s.step c with
    | error e => rfl
    | ok s' => exact ih s'

theorem TplState.run_ok {s s' : TplState} {a : List Char} (h1 : s.run a = .ok s') (b : List Char) :
    s.run (a ++ b) = s'.run b := by
  rw [TplState.run_append, h1]

/-- Between two pieces. -/
structure Between (s : TplState) (acc : List Char) (q : List Pat) : Prop where
  hashes : s.hashes = 0
  waitEnd : s.waitEnd = false
  inMatched : s.inMatched = false
  raw : s.raw = []
  suf : s.suf = []
  names : s.names = []
  chars : s.chars = acc
  queues : s.queues = q
  prev : s.prev ≠ '{' ∧ (s.prev ≠ '}' ∨ s.finish = true)

theorem Between.push {s : TplState} {acc : List Char} {q : List Pat} (hs : Between s acc q) (ch : Char) :
    s.step ch = .ok { s with finish := false, chars := acc ++ [ch], prev := ch } := by
  obtain ⟨h1, h2, h3, h4, h5, h6, rfl, rfl, h9, h10⟩ := hs
  unfold TplState.step
  simp only [h2, h3, Bool.not_false, Bool.false_eq_true, if_false, if_true, h9]
  by_cases hp : s.prev = '}'
  · simp only [hp, if_true]
    rw [if_pos (h10.resolve_left (not_not_intro hp))]
  · simp only [hp, if_false]

theorem Between.chr {s : TplState} {acc : List Char} {q : List Pat} (hs : Between s acc q) (c : Char) :
    ∃ s', s.run (Piece.text (.chr c)) = .ok s' ∧ Between s' (acc ++ [c]) q := by
  have hp := hs.push c
  obtain ⟨h1, h2, h3, h4, h5, h6, h7, h8, h9⟩ := hs
  show ∃ s', s.run (if c = '{' ∨ c = '}' then [c, c] else [c]) = .ok s' ∧ _
  split
  · rename_i hc
    refine ⟨{ s with finish := false, chars := acc ++ [c], prev := '\x00' }, ?_,
      ⟨h1, h2, h3, h4, h5, h6, rfl, h8, (by decide : ('\x00' : Char) ≠ '{'),
        .inl (by decide : ('\x00' : Char) ≠ '}')⟩⟩
    simp only [TplState.run, hp]
    unfold TplState.step
    simp only [h2, h3, Bool.not_false, Bool.false_eq_true, if_false, if_true]
    rcases hc with rfl | rfl <;> simp
  · rename_i hc
    refine ⟨{ s with finish := false, chars := acc ++ [c], prev := c }, by simp only [TplState.run, hp], ⟨h1, h2, h3, h4, h5, h6, rfl, h8,
      fun e => hc (.inl e), .inl fun e => hc (.inr e)⟩⟩

/-- Inside a placeholder, in its name. -/
structure Naming (s : TplState) (n : List Char) (k : Nat) (q : List Pat) : Prop where
  hashes : s.hashes = k
  waitEnd : s.waitEnd = false
  inMatched : s.inMatched = true
  raw : s.raw = []
  suf : s.suf = []
  names : s.names = n
  chars : s.chars = []
  queues : s.queues = q
  prev : 0 < k ↔ s.prev = '#'

def nameChar (c : Char) : Bool := isAsciiAlnum c || c == '_'

theorem nameChar_ne {c : Char} (hc : nameChar c = true) : c ≠ '{' ∧ c ≠ '}' ∧ c ≠ '#' := by
  refine ⟨?_, ?_, ?_⟩ <;> (rintro rfl; revert hc; decide)

theorem Naming.more {s : TplState} {n : List Char} {q : List Pat} (hs : Naming s n 0 q) :
    ∀ (l : List Char), (∀ c ∈ l, nameChar c = true) → ∃ s', s.run l = .ok s' ∧ Naming s' (n ++ l) 0 q := by
  intro l
  induction l generalizing s n with
  | nil => intro _; exact ⟨s, rfl, by simpa using hs⟩
  | cons c l ih =>
    intro hl
    have hc := hl c (List.mem_cons_self ..)
    obtain ⟨h1, h2, h3⟩ := nameChar_ne hc
    obtain ⟨a1, a2, a3, a4, a5, a6, a7, a8, a9⟩ := hs
    have hp : s.prev ≠ '#' := fun e => absurd (a9.2 e) (by decide)
    have hstep : s.step c = .ok { s with finish := false, names := n ++ [c], prev := c } := by
      unfold TplState.step
      have hc' : (isAsciiAlnum c || c == '_') = true := hc
      simp [a2, a3, a4, a5, a6, h2, h3, hp]
      intro h7
      simpa [h7] using hc'
    obtain ⟨s', h4, h5⟩ := ih (s := { s with finish := false, names := n ++ [c], prev := c }) (n := n ++ [c])
      ⟨a1, a2, a3, a4, a5, rfl, a7, a8, by simp [h3]⟩ (fun d hd => hl d (List.mem_cons_of_mem _ hd))
    exact ⟨s', by simp only [TplState.run, hstep, h4], by simpa using h5⟩

theorem Between.enter {s : TplState} {acc : List Char} {q : List Pat} (hs : Between s acc q) {n : List Char} (hn : n ≠ [])
    (hl : ∀ c ∈ n, nameChar c = true) :
    ∃ s', s.run ('{' :: n) = .ok s' ∧ Naming s' n 0 (q ++ literal acc) := by
  cases n with
  | nil => exact absurd rfl hn
  | cons c n =>
    have hp := hs.push '{'
    obtain ⟨h1, h2, h3⟩ := nameChar_ne (hl c (List.mem_cons_self ..))
    obtain ⟨a1, a2, a3, a4, a5, a6, a7, a8, a9⟩ := hs
    have hstep : ({ s with finish := false, chars := acc ++ ['{'], prev := '{' } : TplState).step c =
        .ok { s with finish := false, names := [c], inMatched := true, chars := [], prev := c,
                     queues := q ++ literal acc } := by
      unfold TplState.step
      simp [a2, a3, a6, h1, a8, literal]
    obtain ⟨s', h4, h5⟩ := Naming.more (s := { s with finish := false, names := [c], inMatched := true, chars := [], prev := c, queues := q ++ literal acc }) (n := [c])
      (q := q ++ literal acc)
      ⟨a1, a2, rfl, a4, a5, rfl, rfl, rfl, by simp [h3]⟩ n (fun d hd => hl d (List.mem_cons_of_mem _ hd))
    exact ⟨s', by simp only [TplState.run, hp, hstep, h4], h5⟩

theorem names_chars {n : List Char} {p : Pat} (hn : Names n p) : n ≠ [] ∧ ∀ c ∈ n, nameChar c = true := by
  cases hn <;> decide

theorem names_toPattern {n : List Char} {p : Pat} (hn : Names n p) : toPattern n [] [] = .ok p := by
  cases hn <;> decide

theorem Between.hole {s : TplState} {acc : List Char} {q : List Pat} (hs : Between s acc q) {n : List Char} {p : Pat}
    (hn : Names n p) :
    ∃ s', s.run (Piece.text (.hole n)) = .ok s' ∧ Between s' [] (q ++ literal acc ++ [p]) := by
  obtain ⟨h1, h2⟩ := names_chars hn
  obtain ⟨s1, h3, h4⟩ := hs.enter h1 h2
  obtain ⟨a1, a2, a3, a4, a5, a6, a7, a8, a9⟩ := h4
  have hstep : s1.step '}' = .ok { prev := '}', chars := [], queues := s1.queues ++ [p], finish := true } := by
    unfold TplState.step
    simp [a1, a2, a3, a4, TplState.next, a6, a5, names_toPattern hn, a7]
  refine ⟨{ prev := '}', chars := [], queues := s1.queues ++ [p], finish := true }, ?_,
    ⟨rfl, rfl, rfl, rfl, rfl, rfl, rfl, by rw [a8], (by decide : ('}' : Char) ≠ '{'), .inr rfl⟩⟩
  show s.run (('{' :: n) ++ ['}']) = _
  rw [TplState.run_ok h3]
  simp only [TplState.run, hstep]

theorem Naming.addHashes {s : TplState} {n : List Char} {k : Nat} {q : List Pat} (hs : Naming s n k q) (j : Nat) :
    ∃ s', s.run (List.replicate j '#') = .ok s' ∧ Naming s' n (k + j) q := by
  induction j generalizing s k with
  | zero => exact ⟨s, rfl, hs⟩
  | succ j ih =>
    obtain ⟨a1, a2, a3, a4, a5, a6, a7, a8, a9⟩ := hs
    have hstep : s.step '#' = .ok { s with finish := false, hashes := k + 1, prev := '#' } := by
      unfold TplState.step
      simp [a1, a2, a3, a4]
    obtain ⟨s', h1, h2⟩ := ih (s := { s with finish := false, hashes := k + 1, prev := '#' }) (k := k + 1)
      ⟨rfl, a2, a3, a4, a5, a6, a7, a8, by simp⟩
    refine ⟨s', by simp only [List.replicate_succ, TplState.run, hstep, h1], ?_⟩
    rw [show k + (j + 1) = k + 1 + j by omega]
    exact h2

/-- Inside a parameter. -/
structure Inner (s : TplState) (n : List Char) (k : Nat) (r : List Char) (q : List Pat) : Prop where
  hashes : s.hashes = k
  waitEnd : s.waitEnd = false
  inMatched : s.inMatched = true
  raw : s.raw = r
  suf : s.suf = []
  names : s.names = n
  chars : s.chars = []
  queues : s.queues = q
  ne : r ≠ []

theorem hashes_all {l : List Char} : (l.filter (· == '#')).length = l.length ↔ l = List.replicate l.length '#' := by
  rw [List.length_filter_eq_length_iff, List.eq_replicate_iff]
  simp

theorem Inner.step_char {s : TplState} {n : List Char} {k : Nat} {r : List Char} {q : List Pat} (hs : Inner s n k r q)
    (hk : 0 < k) (c : Char) (hr : c = '#' → k - 1 ≤ r.length)
    (hi : ¬ List.replicate k '#' <:+ r ++ [c]) : ∃ s', s.step c = .ok s' ∧ Inner s' n k (r ++ [c]) q := by
  obtain ⟨a1, a2, a3, a4, a5, a6, a7, a8, a9⟩ := hs
  have hne : r.isEmpty = false := by cases r <;> simp_all
  refine ⟨{ s with finish := false, raw := r ++ [c], prev := c }, ?_, ⟨a1, a2, a3, rfl, a5, a6, a7, a8, by simp⟩⟩
  unfold TplState.step
  simp only [a2, a3, a4, hne, Bool.false_eq_true, if_false, Bool.not_true, Bool.not_false, if_true]
  by_cases hc : c = '#'
  · subst hc
    have hr := hr rfl
    rw [if_pos rfl]
    unfold TplState.rawHash
    have hk0 : s.hashes ≠ 0 := by omega
    have hk1 : s.hashes - 1 ≠ 0 := by
      intro e
      apply hi
      have : k = 1 := by omega
      subst this
      exact ⟨r, rfl⟩
    have hlt : ¬ r.length < s.hashes - 1 := by omega
    simp only [hk0, if_false, hk1, hlt]
    rw [if_neg]
    rintro ⟨h1, h2⟩
    apply hi
    refine ⟨r.take (r.length - (k - 1)), ?_⟩
    rw [a1] at h2
    have h3 : (r.drop (r.length - (k - 1))).length = k - 1 := by simp; omega
    have h4 := hashes_all.1 (h2.trans h3.symm)
    rw [h3] at h4
    have h5 : List.replicate k '#' = r.drop (r.length - (k - 1)) ++ ['#'] := by
      rw [h4, ← List.replicate_succ']; congr 1; omega
    rw [h5, ← List.append_assoc, List.take_append_drop]
  · rw [if_neg hc]

theorem Inner.steps {s : TplState} {n : List Char} {k : Nat} {r : List Char} {q : List Pat} (hs : Inner s n k r q)
    (hk : 0 < k) (l : List Char) (hr : k - 1 ≤ ((r ++ l).takeWhile (· ≠ '#')).length)
    (hi : ¬ List.replicate k '#' <:+: r ++ l) : ∃ s', s.run l = .ok s' ∧ Inner s' n k (r ++ l) q := by
  induction l generalizing s r with
  | nil => exact ⟨s, rfl, by simpa using hs⟩
  | cons c l ih =>
    have hrc : c = '#' → k - 1 ≤ r.length := by
      rintro rfl
      refine hr.trans ?_
      rw [List.takeWhile_append]
      split
      · simp
      · exact (List.takeWhile_prefix _).length_le
    obtain ⟨s1, h1, h2⟩ := hs.step_char hk c hrc (fun hx => hi (hx.isInfix.trans ⟨[], l, by simp⟩))
    obtain ⟨s2, h3, h4⟩ := ih h2 (by simpa using hr) (by simpa using hi)
    exact ⟨s2, by simp only [TplState.run, h1, h3], by simpa using h4⟩

/-- A parameter `p` followed by `j` hashes, one less than needed, and then the last one. -/
theorem Inner.closing {s : TplState} {n : List Char} {k : Nat} {p : List Char} {q : List Pat} (hs : Inner s n k p q)
    (hq : Quoted k p) (hr : k - 1 ≤ (p.takeWhile (· ≠ '#')).length) :
    ∃ s' : TplState, s.run (List.replicate k '#') = .ok s' ∧ s'.waitEnd = true ∧ s'.raw = p ∧ s'.suf = [] ∧ s'.names = n ∧
      s'.chars = [] ∧ s'.queues = q := by
  obtain ⟨k, rfl⟩ : ∃ j, k = j + 1 := ⟨k - 1, by have := hq.pos; omega⟩
  have hlast : ∀ j < k + 1, ¬ List.replicate (k + 1) '#' <:+: p ++ List.replicate j '#' := by
    intro j hj hx
    obtain ⟨a, b, hab⟩ := hx
    -- drop the hashes at the end
    rcases List.append_eq_append_iff.1 (show a ++ List.replicate (k + 1) '#' ++ b = p ++ List.replicate j '#' from hab) with
      ⟨t, h1, h2⟩ | ⟨t, h1, h2⟩
    · exact hq.inner ⟨a, t, by rw [h1]⟩
    · -- p is a prefix of a ++ hashes
      rcases List.append_eq_append_iff.1 h1 with ⟨u, h3, h4⟩ | ⟨u, h3, h4⟩
      · have h5 := congrArg List.length h2
        have h6 := congrArg List.length h4
        simp at h5 h6
        have hu : u ≠ [] := by
          rintro rfl
          simp at h6
          omega
        apply hq.last
        have h7 : u.getLast? = some '#' := by
          have h8 : ∀ c ∈ u, c = '#' := fun c hc => List.eq_of_mem_replicate (h4 ▸ List.mem_append_left _ hc)
          rw [List.getLast?_eq_some_getLast hu, h8 _ (List.getLast_mem hu)]
        rw [h3, List.getLast?_append, h7]; rfl
      · have h5 := congrArg List.length h2
        have h6 := congrArg List.length h4
        simp at h5 h6
        omega
  have hr' : ∀ l, k ≤ ((p ++ l).takeWhile (· ≠ '#')).length := by
    intro l
    have h1 : k ≤ (p.takeWhile (· ≠ '#')).length := by simpa using hr
    refine h1.trans ?_
    rw [List.takeWhile_append]
    split
    · exact (List.takeWhile_prefix _).length_le.trans (by simp)
    · exact le_rfl
  obtain ⟨s1, h1, h2⟩ := hs.steps (by omega) (List.replicate k '#') (by simpa using hr' _) (hlast k (by omega))
  obtain ⟨a1, a2, a3, a4, a5, a6, a7, a8, a9⟩ := h2
  have hpos : 0 < p.length := List.length_pos_iff.2 hq.ne
  refine ⟨{ s1 with finish := false, waitEnd := true, raw := p, prev := '#' }, ?_, rfl, rfl, a5, a6, a7, a8⟩
  rw [List.replicate_succ', TplState.run_ok h1]
  have hstep : s1.step '#' = .ok { s1 with finish := false, waitEnd := true, raw := p, prev := '#' } := by
    unfold TplState.step
    simp only [a2, a3, a4, Bool.false_eq_true, if_false, Bool.not_true, if_true]
    rw [if_pos (by simp [hq.ne])]
    unfold TplState.rawHash
    have hk0 : s1.hashes ≠ 0 := by omega
    simp only [hk0, if_false, a1, Nat.add_sub_cancel]
    by_cases hk : k = 0
    · subst hk
      simp
    · rw [if_neg hk]
      have hlen : (p ++ List.replicate k '#').length - k = p.length := by simp
      simp only [hlen, List.take_left, List.drop_left]
      rw [if_pos (show 0 < p.length ∧ _ from ⟨hpos, by simp⟩)]
      have hlt : ¬ (p ++ List.replicate k '#').length < k := by
        rw [List.length_append, List.length_replicate]
        omega
      repeat' split
      all_goals first | rfl | (exfalso; omega)
  simp only [TplState.run, hstep]

theorem wait_spaces {s : TplState} (hw : s.waitEnd = true) {ws : List Char}
    (hb : ∀ c ∈ ws, c ∈ [' ', '\t', '\n', '\r', '\x0c']) :
    ∃ f, s.run ws = .ok { s with finish := f } := by
  induction ws generalizing s with
  | nil => exact ⟨s.finish, rfl⟩
  | cons c ws ih =>
    have hc : isAsciiWs c = true := by
      have := hb c (List.mem_cons_self ..)
      simp only [List.mem_cons, List.not_mem_nil, or_false] at this
      rcases this with rfl | rfl | rfl | rfl | rfl <;> decide
    obtain ⟨f, hf⟩ := ih (s := { s with finish := false }) hw (fun d hd => hb d (List.mem_cons_of_mem _ hd))
    refine ⟨f, ?_⟩
    have hstep : s.step c = .ok { s with finish := false } := by
      unfold TplState.step
      simp [hw, hc]
    simp only [TplState.run, hstep, hf]

/-- A placeholder with a parameter, up to its last hash. -/
theorem Between.param {s : TplState} {acc : List Char} {q : List Pat} (hs : Between s acc q) {n : List Char} (hn : n ≠ [])
    (hl : ∀ c ∈ n, nameChar c = true) {k : Nat} {p : List Char}
    (hq : Quoted k p) (hr : k - 1 ≤ (p.takeWhile (· ≠ '#')).length) :
    ∃ s' : TplState, s.run ('{' :: n ++ List.replicate k '#' ++ p ++ List.replicate k '#') = .ok s' ∧ s'.waitEnd = true ∧
      s'.raw = p ∧ s'.suf = [] ∧ s'.names = n ∧ s'.chars = [] ∧ s'.queues = q ++ literal acc := by
  obtain ⟨s1, h1, h2⟩ := hs.enter hn hl
  obtain ⟨s2, h3, h4⟩ := h2.addHashes k
  rw [Nat.zero_add] at h4
  obtain ⟨c, p', rfl⟩ : ∃ c p', p = c :: p' := by
    cases p with
    | nil => exact absurd rfl hq.ne
    | cons c p' => exact ⟨c, p', rfl⟩
  have hc1 : c ≠ '#' := fun e => hq.first.1 (by simp [e])
  have hc2 : c ≠ '}' := fun e => hq.first.2 (by simp [e])
  obtain ⟨b1, b2, b3, b4, b5, b6, b7, b8, b9⟩ := h4
  have hprev := b9.1 hq.pos
  have hfirst : s2.step c = .ok { s2 with finish := false, raw := [c], prev := c } := by
    unfold TplState.step
    simp [b2, b3, b4, hc1, hc2, hprev]
  have hin : Inner { s2 with finish := false, raw := [c], prev := c } n k [c]
      (q ++ literal acc) := ⟨b1, b2, b3, rfl, b5, b6, b7, b8, by simp⟩
  obtain ⟨s3, h5, h6⟩ := hin.steps hq.pos p' (by simpa using hr) (by simpa using hq.inner)
  obtain ⟨s4, h7, c1, c2, c3, c4, c5, c6⟩ := Inner.closing (p := c :: p') (by simpa using h6) hq hr
  refine ⟨s4, ?_, c1, c2, c3, c4, c5, c6⟩
  rw [List.append_assoc, List.append_assoc, TplState.run_ok h1, TplState.run_ok h3, List.cons_append]
  simp only [TplState.run, hfirst]
  rw [TplState.run_ok h5, h7]

theorem Between.quoted {s : TplState} {acc : List Char} {q : List Pat} (hs : Between s acc q) {k : Nat} {p ws : List Char}
    (hq : Quoted k p) (hr : k - 1 ≤ (p.takeWhile (· ≠ '#')).length)
    (hb : ∀ c ∈ ws, c ∈ [' ', '\t', '\n', '\r', '\x0c']) :
    ∃ s', s.run (Piece.text (.quoted "regexp".toList k p ws)) = .ok s' ∧
      Between s' [] (q ++ literal acc ++ [.regexp p]) := by
  obtain ⟨s4, h7, c1, c2, c3, c4, c5, c6⟩ := hs.param (n := "regexp".toList) (by decide) (by decide) hq hr
  obtain ⟨f, h8⟩ := wait_spaces c1 hb
  have hend : ({ s4 with finish := f } : TplState).step '}' =
      .ok { prev := '}', chars := [], queues := s4.queues ++ [.regexp p], finish := true } := by
    unfold TplState.step
    have ht : toPattern "regexp".toList [] p = .ok (.regexp p) := by
      unfold toPattern
      rw [if_neg (by decide), if_neg (by decide), if_neg (by decide), if_neg (by decide), if_pos (by decide)]
      rfl
    simp only [c1, if_true]
    rw [if_neg (by decide)]
    simp only [TplState.next, c2, c3, c4, c5, ht]
  refine ⟨{ prev := '}', chars := [], queues := s4.queues ++ [.regexp p], finish := true }, ?_,
    ⟨rfl, rfl, rfl, rfl, rfl, rfl, rfl, by rw [c6], (by decide : ('}' : Char) ≠ '{'), .inr rfl⟩⟩
  show s.run (('{' :: "regexp".toList) ++ List.replicate k '#' ++ p ++ List.replicate k '#' ++ ws ++ ['}']) = _
  rw [List.append_assoc, TplState.run_ok h7, TplState.run_ok h8]
  simp only [TplState.run, hend]

theorem Inner.plain {n : List Char} {k : Nat} {q : List Pat} (hk : 0 < k) : ∀ (t : List Char), (∀ c ∈ t, c ≠ '#') → ∀ {s : TplState} {r : List Char},
    Inner s n k r q → ∃ s', s.run t = .ok s' ∧ Inner s' n k (r ++ t) q := by
  intro t
  induction t with
  | nil => intro _ s r hs; exact ⟨s, rfl, by simpa using hs⟩
  | cons c t ih =>
    intro ht s r hs
    have hc := ht c List.mem_cons_self
    obtain ⟨s1, h1, h2⟩ := hs.step_char hk c (fun e => absurd e hc) (by
      rintro ⟨u, hu⟩
      obtain ⟨j, rfl⟩ : ∃ j, k = j + 1 := ⟨k - 1, by omega⟩
      rw [List.replicate_succ', ← List.append_assoc] at hu
      exact hc (by simpa using (List.append_inj_right' hu rfl).symm))
    obtain ⟨s2, h3, h4⟩ := ih (fun d hd => ht d (List.mem_cons_of_mem _ hd)) h2
    exact ⟨s2, by simp only [TplState.run, h1, h3], by simpa using h4⟩

/-- A parameter without the room for the search overflows. -/
theorem Between.cramped {s : TplState} {acc : List Char} {q : List Pat} (hs : Between s acc q) {n : List Char} (hn : n ≠ [])
    (hl : ∀ c ∈ n, nameChar c = true) {k : Nat} {p : List Char}
    (hq : Quoted k p) (hr : (p.takeWhile (· ≠ '#')).length < k - 1) (rest : List Char) :
    s.run ('{' :: n ++ List.replicate k '#' ++ p ++ List.replicate k '#' ++ rest) = .error .overflow := by
  obtain ⟨s1, h1, h2⟩ := hs.enter hn hl
  obtain ⟨s2, h3, h4⟩ := h2.addHashes k
  rw [Nat.zero_add] at h4
  obtain ⟨t, z, ht, htl, hz⟩ : ∃ t z, p ++ (List.replicate k '#' ++ rest) = t ++ '#' :: z ∧ t.length < k - 1 ∧ (∀ c ∈ t, c ≠ '#') ∧ t ≠ [] := by
    have htake : ∀ c ∈ p.takeWhile (· ≠ '#'), c ≠ '#' := fun c hc => by simpa using List.all_eq_true.1 List.all_takeWhile c hc
    have hne : p.takeWhile (· ≠ '#') ≠ [] := by
      cases p with
      | nil => exact absurd rfl hq.ne
      | cons c p' =>
        have hc1 : c ≠ '#' := fun e => hq.first.1 (by simp [e])
        simp [hc1]
    obtain ⟨j, rfl⟩ : ∃ j, k = j + 1 := ⟨k - 1, by omega⟩
    cases hd : p.dropWhile (· ≠ '#') with
    | nil =>
      have hp : p.takeWhile (· ≠ '#') = p := by
        have := List.takeWhile_append_dropWhile (p := (· ≠ '#')) (l := p)
        rw [hd, List.append_nil] at this
        exact this
      exact ⟨p, List.replicate j '#' ++ rest, by simp [List.replicate_succ], by rw [hp] at hr; exact hr, by rw [← hp]; exact htake, hq.ne⟩
    | cons d ds =>
      have hd' : d = '#' := by
        have h0 := List.head_dropWhile_not (fun c : Char => decide (c ≠ '#')) (l := p) (by rw [hd]; simp)
        have h1 : (p.dropWhile (· ≠ '#')).head (by rw [hd]; simp) = d := by simp only [hd, List.head_cons]
        rw [h1] at h0
        simpa using h0
      subst hd'
      refine ⟨p.takeWhile (· ≠ '#'), ds ++ (List.replicate (j + 1) '#' ++ rest), ?_, hr, htake, hne⟩
      have := List.takeWhile_append_dropWhile (p := (· ≠ '#')) (l := p)
      rw [hd] at this
      calc p ++ (List.replicate (j + 1) '#' ++ rest) = (p.takeWhile (· ≠ '#') ++ '#' :: ds) ++ (List.replicate (j + 1) '#' ++ rest) := by rw [this]
        _ = _ := by simp
  obtain ⟨c, t', rfl⟩ : ∃ c t', t = c :: t' := by
    cases t with
    | nil => exact absurd rfl hz.2
    | cons c t' => exact ⟨c, t', rfl⟩
  have hc1 : c ≠ '#' := hz.1 c List.mem_cons_self
  have hc2 : c ≠ '}' := by
    intro e
    apply hq.first.2
    cases p with
    | nil => exact absurd rfl hq.ne
    | cons d p' =>
      rw [List.cons_append, List.cons_append] at ht
      rw [List.head?_cons, (List.cons.inj ht).1, e]
  obtain ⟨b1, b2, b3, b4, b5, b6, b7, b8, b9⟩ := h4
  have hprev := b9.1 hq.pos
  have hfirst : s2.step c = .ok { s2 with finish := false, raw := [c], prev := c } := by
    unfold TplState.step
    simp [b2, b3, b4, hc1, hc2, hprev]
  have hin : Inner { s2 with finish := false, raw := [c], prev := c } n k [c]
      (q ++ literal acc) := ⟨b1, b2, b3, rfl, b5, b6, b7, b8, by simp⟩
  obtain ⟨s3, h5, h6⟩ := Inner.plain hq.pos t' (fun d hd => hz.1 d (List.mem_cons_of_mem _ hd)) hin
  obtain ⟨e1, e2, e3, e4, e5, e6, e7, e8, e9⟩ := h6
  have hover : s3.step '#' = .error .overflow := by
    unfold TplState.step
    simp only [e2, e3, e4, Bool.false_eq_true, if_false, Bool.not_true, if_true]
    rw [if_pos (by simp)]
    unfold TplState.rawHash
    have : ([c] ++ t').length < k - 1 := by simpa using htl
    have hk0 : s3.hashes ≠ 0 := by omega
    have hk1 : s3.hashes - 1 ≠ 0 := by omega
    have hlt : ([c] ++ t').length < s3.hashes - 1 := by omega
    simp only [hk0, if_false, hk1, hlt, if_true]
  rw [List.append_assoc, List.append_assoc, List.append_assoc, TplState.run_ok h1, TplState.run_ok h3, ht, List.cons_append]
  simp only [TplState.run, hfirst]
  rw [TplState.run_ok h5]
  simp only [TplState.run, hover]

/-- The room the search for the closing hashes needs. -/
def Roomy (l : List Piece) : Prop :=
  ∀ n k p ws, Piece.quoted n k p ws ∈ l → k - 1 ≤ (p.takeWhile (· ≠ '#')).length

/-- What the characters left at the end become. -/
def lastPat : List Char → List Pat
  | [] => []
  | [c] => [.chr c]
  | l => [.lit l]

theorem run_between {acc : List Char} {l : List Piece} {ps : List Pat} (hd : Denotes acc l ps) (hr : Roomy l) :
    ∀ {s : TplState} {q : List Pat}, Between s acc q →
      ∃ s' acc' q', s.run (written l) = .ok s' ∧ Between s' acc' q' ∧ q' ++ lastPat acc' = q ++ ps := by
  have htail : ∀ {x : Piece} {l : List Piece}, Roomy (x :: l) → Roomy l :=
    fun h1 n k p ws hm => h1 n k p ws (List.mem_cons_of_mem _ hm)
  induction hd with
  | done => intro s q hs; exact ⟨s, _, _, rfl, hs, rfl⟩
  | one c => intro s q hs; exact ⟨s, _, _, rfl, hs, rfl⟩
  | many a b l => intro s q hs; exact ⟨s, _, _, rfl, hs, rfl⟩
  | chr hd ih =>
    intro s q hs
    obtain ⟨s', h1, h2⟩ := hs.chr _
    rw [written, List.flatMap_cons, TplState.run_ok h1]
    exact ih (htail hr) h2
  | hole hn hd ih =>
    intro s q hs
    obtain ⟨s', h1, h2⟩ := hs.hole hn
    rw [written, List.flatMap_cons, TplState.run_ok h1]
    have := ih (htail hr) h2
    simpa [written] using this
  | quoted hq hb hd ih =>
    intro s q hs
    obtain ⟨s', h1, h2⟩ := hs.quoted hq (hr _ _ _ _ (List.mem_cons_self ..)) hb
    rw [written, List.flatMap_cons, TplState.run_ok h1]
    have := ih (htail hr) h2
    simpa [written] using this

/-- Without room the loop overflows. -/
theorem run_cramped {acc : List Char} {l : List Piece} {ps : List Pat} (hd : Denotes acc l ps) (hr : ¬ Roomy l) :
    ∀ {s : TplState} {q : List Pat}, Between s acc q → s.run (written l) = .error .overflow := by
  have htail : ∀ {x : Piece} {l : List Piece}, (∀ n k p ws, x = .quoted n k p ws → k - 1 ≤ (p.takeWhile (· ≠ '#')).length) →
      ¬ Roomy (x :: l) → ¬ Roomy l := by
    intro x l hx hn hl
    refine hn fun n k p ws hm => ?_
    rcases List.mem_cons.1 hm with h1 | h1
    · exact hx n k p ws h1.symm
    · exact hl n k p ws h1
  induction hd with
  | done => intros; exact absurd (fun n k p ws hm => by cases hm) hr
  | one c => intros; exact absurd (fun n k p ws hm => by cases hm) hr
  | many a b l => intros; exact absurd (fun n k p ws hm => by cases hm) hr
  | chr hd ih =>
    intro s q hs
    obtain ⟨s', h1, h2⟩ := hs.chr _
    rw [written, List.flatMap_cons, TplState.run_ok h1]
    exact ih (htail (by intro _ _ _ _ e; cases e) hr) h2
  | hole hn hd ih =>
    intro s q hs
    obtain ⟨s', h1, h2⟩ := hs.hole hn
    rw [written, List.flatMap_cons, TplState.run_ok h1]
    exact ih (htail (by intro _ _ _ _ e; cases e) hr) h2
  | @quoted acc k p ws l ps hq hb hd ih =>
    intro s q hs
    by_cases hk : k - 1 ≤ (p.takeWhile (· ≠ '#')).length
    · obtain ⟨s', h1, h2⟩ := hs.quoted hq hk hb
      rw [written, List.flatMap_cons, TplState.run_ok h1]
      exact ih (htail (by intro _ _ _ _ e; cases e; exact hk) hr) h2
    · have := hs.cramped (n := "regexp".toList) (by decide) (by decide) hq (by omega) (ws ++ ['}'] ++ written l)
      rw [written, List.flatMap_cons, ← written, ← this]
      simp [Piece.text]

theorem Between.close {s : TplState} {acc : List Char} {q : List Pat} (hs : Between s acc q) : s.close = .ok (q ++ lastPat acc) := by
  obtain ⟨h1, h2, h3, h4, h5, h6, rfl, rfl, h9, h10⟩ := hs
  unfold TplState.close
  rw [if_neg (by simp [h2, h3]), if_neg (by
    rintro (e | ⟨e1, e2⟩)
    · exact h9 e
    · rcases h10 with h10 | h10
      · exact h10 e1
      · rw [h10] at e2; cases e2)]
  rcases s.chars with _ | ⟨a, _ | ⟨b, l⟩⟩ <;> simp [lastPat]

theorem between_start : Between {} [] [] :=
  ⟨rfl, rfl, rfl, rfl, rfl, rfl, rfl, rfl, (by decide : ('\x00' : Char) ≠ '{'), .inl (by decide : ('\x00' : Char) ≠ '}')⟩

/-! ### Refused texts -/

theorem TplState.run_error {s s' : TplState} {a : List Char} {e : Panic} (h1 : s.run a = .ok s') {b : Char} (h2 : s'.step b = .error e)
    (c : List Char) : s.run (a ++ b :: c) = .error e := by
  rw [TplState.run_ok h1]
  simp only [TplState.run, h2]

theorem toPattern_unknown {n suf p : List Char} (hn : ∀ x, ¬ Names n x) : toPattern n suf p = .error .explicit := by
  unfold toPattern
  rw [if_neg (fun e => by subst e; exact hn _ .identity), if_neg (fun e => by subst e; exact hn _ .spaces), if_neg (fun e => by subst e; exact hn _ .attrKey),
    if_neg (fun e => by subst e; exact hn _ .nth), if_neg (fun e => by subst e; exact hn _ .regexp), if_neg (fun e => by subst e; exact hn _ .selector)]

theorem checkParams_bad {l : List (List Char)} {p : Pat} (hb : ∃ x ∈ l, x ≠ []) : checkParams l p = .error .explicit := by
  unfold checkParams
  rw [if_neg]
  intro ha
  obtain ⟨x, h1, h2⟩ := hb
  exact h2 (List.isEmpty_iff.1 (List.all_eq_true.1 ha x h1))

theorem toPattern_param {n suf p : List Char} (hn : n ≠ "regexp".toList) (hp : p ≠ []) : toPattern n suf p = .error .explicit := by
  unfold toPattern
  rw [if_neg hn]
  repeat' split
  all_goals first
    | rfl
    | exact checkParams_bad ⟨p, by simp, hp⟩

theorem toPattern_suffix {n suf p : List Char} (hp : suf ≠ []) : toPattern n suf p = .error .explicit := by
  unfold toPattern
  repeat' split
  all_goals first
    | rfl
    | exact checkParams_bad ⟨suf, by simp, hp⟩

/-- In the suffix of a placeholder. -/
structure Suffix (s : TplState) (n : List Char) (r : List Char) : Prop where
  hashes : s.hashes = 0
  waitEnd : s.waitEnd = false
  inMatched : s.inMatched = true
  raw : s.raw = []
  suf : s.suf = r
  names : s.names = n
  prev : s.prev ≠ '#'

theorem Suffix.more {s : TplState} {n r : List Char} (hs : Suffix s n r) (hr : r ≠ []) :
    ∀ (l : List Char), (∀ c ∈ l, c ≠ '#' ∧ c ≠ '}') → ∃ s', s.run l = .ok s' ∧ Suffix s' n (r ++ l) := by
  intro l
  induction l generalizing s r with
  | nil => intro _; exact ⟨s, rfl, by simpa using hs⟩
  | cons c l ih =>
    intro hl
    obtain ⟨h1, h2⟩ := hl c (List.mem_cons_self ..)
    obtain ⟨a1, a2, a3, a4, a5, a6, a7⟩ := hs
    have hstep : s.step c = .ok { s with finish := false, suf := r ++ [c], prev := c } := by
      unfold TplState.step
      simp [a2, a3, a4, a5, a7, h1, h2, hr]
    obtain ⟨s', h4, h5⟩ := ih (s := { s with finish := false, suf := r ++ [c], prev := c }) (r := r ++ [c])
      ⟨a1, a2, a3, a4, rfl, a6, h1⟩ (by simp) (fun d hd => hl d (List.mem_cons_of_mem _ hd))
    exact ⟨s', by simp only [TplState.run, hstep, h4], by simpa using h5⟩

theorem Naming.suffix {s : TplState} {n : List Char} {q : List Pat} (hs : Naming s n 0 q) {r : List Char} {c : Char}
    (hc : nameChar c = false) (hl : ∀ d ∈ c :: r, d ≠ '#' ∧ d ≠ '}') :
    ∃ s', s.run (c :: r) = .ok s' ∧ Suffix s' n (c :: r) := by
  obtain ⟨h1, h2⟩ := hl c (List.mem_cons_self ..)
  obtain ⟨a1, a2, a3, a4, a5, a6, a7, a8, a9⟩ := hs
  have hp : s.prev ≠ '#' := fun e => absurd (a9.2 e) (by decide)
  have hstep : s.step c = .ok { s with finish := false, suf := [c], prev := c } := by
    unfold TplState.step
    have hc' : (isAsciiAlnum c || c == '_') = false := hc
    simp only [a2, a3, a4, a5, hp, h1, h2, hc', Bool.not_true, Bool.false_eq_true, if_false, if_true, List.isEmpty_nil,
      Bool.not_false, Bool.or_true]
    rfl
  obtain ⟨s', h4, h5⟩ := Suffix.more (s := { s with finish := false, suf := [c], prev := c }) (n := n) (r := [c])
    ⟨a1, a2, a3, a4, rfl, a6, h1⟩ (by simp) r (fun d hd => hl d (List.mem_cons_of_mem _ hd))
  exact ⟨s', by simp only [TplState.run, hstep, h4], by simpa using h5⟩

end Visdom
