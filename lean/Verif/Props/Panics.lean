import Verif.Proofs.Unfinished
import Verif.Proofs.Locks
import Verif.Props.Parser
/-!
# C30, C31, C46: panics of the parser, their consequences, and its locks
-/
namespace Visdom
open Spec

/-! ## C30 -/

/-- C30 does not hold: a class or id without a name, an open bracket or parenthesis, and a plain number that does not fit
make the parser panic. -/
theorem C30_fails :
    parseGroups ".".toList = .error .outOfBounds ∧ parseGroups "p #".toList = .error .outOfBounds ∧
    parseGroups "[a".toList = .error .outOfBounds ∧ parseGroups "a[b='c' ".toList = .error .outOfBounds ∧
    parseGroups ":nth-child(2".toList = .error .outOfBounds ∧ parseGroups ":contains(x".toList = .error .outOfBounds ∧
    parseGroups ":not(p".toList = .error .outOfBounds ∧ parseGroups ":not(:has(p)".toList = .error .outOfBounds ∧
    parseGroups ":nth-child(9223372036854775808)".toList = .error .unwrapNone ∧
    parseGroups (":nth-child(1".toList ++ [Char.ofNat 0xFF11, ')']) = .error .unwrapNone := by
  refine ⟨?_, ?_, ?_, ?_, ?_, ?_, ?_, ?_, ?_, ?_⟩ <;> decide

/-- C30: the parser does not panic on a text whose numbers are small, unless some tail of the text is an unfinished simple
selector: the rule is followed to the very end of the text and asks there for one more character. -/
theorem C30_no_panic_partial {text : List Char} (hn : '(' ∈ text → SmallNumbers text)
    (hu : ∀ t, t <:+ text → ¬ Unfinished t) : ∃ r, parseGroups text = .ok r := by
  cases hp : parseGroups text with
  | ok r => exact ⟨r, rfl⟩
  | error e =>
    obtain ⟨t, h1, h2⟩ := parseGroups_err hn hp
    exact absurd h2 (hu t h1)

/-- Unfinished texts exist, also nested ones. -/
example : Unfinished ":nth-child( 2 ".toList ∧ Unfinished ":not(b ".toList := by
  have hb : Blank [' '] := by simp [Blank]
  constructor
  · refine .rule (r := ⟨.nthChild, callQueues ":nth-child(".toList .nth⟩) (by decide) (by decide)
      ⟨[.lit ":nth-child(".toList, .spaces, .nth, .spaces], .chr ')', [], rfl, .inr ⟨_, rfl⟩, ?_⟩
    have h2 : Lang nthRe ['2'] := .altR (.seq (u := []) .optN (.grp (.altR (.one (by decide)))))
    exact .cons (t := ":nth-child(".toList) rfl (.cons (t := [' ']) hb (.cons (t := ['2']) (.inl h2) (.cons (t := [' ']) hb .nil)))
  · refine .nest (r := ⟨.not, callQueues ":not(".toList .nested⟩) (ps := [.lit ":not(".toList, .spaces]) (t := ":not(".toList)
      (u := "b ".toList) (by decide) rfl (.cons (t := ":not(".toList) rfl (.cons (t := []) (by simp [PatLang, Blank]) .nil)) ?_
    refine .done (.rule (r := ⟨.name, [.identity]⟩) (t := ['b']) (u := [' ']) (by decide) ?_ ?_)
    · exact .cons (t := ['b']) ⟨_, _, idText_letter (by simp [NameStart]), .inl rfl⟩ .nil
    · exact .sep (t := [' ']) (u := []) (.grp (.altR (.seq (u := [' ']) (.one (by decide)) .manyN))) .nil

/-- C30: no panic on a text without any of `.`, `#`, `[`, `:`. -/
theorem C30_no_heads_partial {text : List Char} (hn : '(' ∈ text → SmallNumbers text)
    (hc : ∀ c ∈ ['.', '#', '[', ':'], c ∉ text) : ∃ r, parseGroups text = .ok r := by
  refine C30_no_panic_partial hn fun t ht hu => ?_
  obtain ⟨r, -, c, l, ps, v, -, hmem, rfl, -⟩ := unfinished_rule hu
  exact hc c hmem (ht.subset (by simp))

example : ∃ r, parseGroups "div >> ~ p)(%\\".toList = .ok r :=
  C30_no_heads_partial (by
    intro _ w hw hd
    have hnd : ∀ c ∈ "div >> ~ p)(%\\".toList, isReDigit c = false := by decide
    cases w with
    | nil => simp
    | cons c w =>
      have h1 := hd c (List.mem_cons_self ..)
      rw [← reDigit_iff, hnd c (hw.subset (List.mem_cons_self ..))] at h1
      cases h1) (by decide)

/-- C30: no panic on a text without `(` that does not end with `.` or `#`, and, if it has a `[`, ends with `]`. -/
theorem C30_plain_partial {text : List Char} (hp : '(' ∉ text) (hd : text.getLast? ≠ some '.') (hh : text.getLast? ≠ some '#')
    (hb : '[' ∈ text → text.getLast? = some ']') : ∃ r, parseGroups text = .ok r := by
  refine C30_no_panic_partial (fun h1 => absurd h1 hp) fun t ht hu => ?_
  obtain ⟨s, rfl⟩ := ht
  rcases unfinished_plain hu (fun h1 => hp (List.mem_append_right _ h1)) with rfl | rfl | ⟨h1, h2⟩
  · exact hd (by simp)
  · exact hh (by simp)
  · have h3 := hb (List.mem_append_right _ h1)
    rw [List.getLast?_append] at h3
    cases hx : t.getLast? with
    | none => rw [List.getLast?_eq_none_iff] at hx; subst hx; cases h1
    | some x =>
      rw [hx] at h3
      simp only [Option.some_or, Option.some.injEq] at h3
      subst h3
      exact h2 hx

example : ∃ r, parseGroups "a >> .b#! [x='] :y , .9]".toList = .ok r := C30_plain_partial (by decide) (by decide) (by decide) (by decide)

theorem selText_groups {sel : List Complex} {text : List Char} (ht : SelText sel text) : ∃ gs, parseGroups text = .ok (.ok gs) := by
  have h1 := C29_parse_partial demo env0 ht false
  unfold parseSel fromStr at h1
  split at h1
  · cases h1
  · cases h1
  · exact ⟨_, ‹_›⟩

/-- C30: no panic on the text of a selector. -/
theorem C30_selectors_partial {sel : List Complex} {text : List Char} (ht : SelText sel text) : ∃ r, parseGroups text = .ok r := by
  obtain ⟨gs, hg⟩ := selText_groups ht
  exact ⟨_, hg⟩

/-! ## C31 -/

/-- C31 does not hold: after the text `.` (which panics) no text can be parsed any more, though `p` is a selector. -/
theorem C31_fails : SelText [[(.childrenAll, [.name ['p']])]] ['p'] ∧ (∃ r, parseGroups ['p'] = .ok (.ok r)) ∧
    (parseCall (afterCalls {} [.parse ['.']]) ['p']).1 = .error .poisoned := by
  have hp : SelText [[(.childrenAll, [.name ['p']])]] ['p'] :=
    ⟨0, [], ['p'], [], .mk .desc (.one (.name (idText_letter (by simp [NameStart])))) .nil .nil, blank_nil, blank_nil, rfl⟩
  exact ⟨hp, selText_groups hp, by decide⟩

theorem splitter_stays {p : Poison} (hp : p.splitter = true) : ∀ cs, (afterCalls p cs).splitter = true
  | [] => hp
  | c :: cs => by
    have h1 : (afterCall p c).splitter = true := by
      cases c with
      | parse text =>
        simp only [afterCall, parseCall]
        split
        · exact hp
        · simp only [hp, if_true]
      | combAll =>
        simp only [afterCall, combAllCall]
        split
        · exact hp
        · split
          · exact hp
          · split <;> exact hp
    exact splitter_stays h1 cs

theorem panic_poisons (p : Poison) {text : List Char} {e : Panic} (he : parseGroups text = .error e) :
    (afterCall p (.parse text)).splitter = true := by
  have hne : text.isEmpty = false := by
    cases text with
    | nil => cases he
    | cons => rfl
  simp only [afterCall, parseCall, hne, he, Bool.false_eq_true, if_false]
  split
  · assumption
  · split <;> rfl

/-- C31: once a parse has panicked, every later parse of a non-empty text panics, whatever happens in between. -/
theorem C31_forever {bad text : List Char} {e : Panic} (he : parseGroups bad = .error e) (ht : text ≠ []) (cs cs' : List LockCall) :
    (parseCall (afterCalls {} (cs ++ .parse bad :: cs')) text).1 = .error .poisoned := by
  have h1 : (afterCalls {} (cs ++ .parse bad :: cs')).splitter = true := by
    rw [afterCalls, List.foldl_append, List.foldl_cons]
    exact splitter_stays (panic_poisons _ he) cs'
  have hne : text.isEmpty = false := by cases text <;> simp_all
  simp only [parseCall, hne, h1, Bool.false_eq_true, if_false, if_true]

example : (parseCall (afterCalls {} [.parse "a".toList, .combAll, .parse "[x".toList, .parse "b".toList]) "a".toList).1 = .error .poisoned :=
  C31_forever (e := .outOfBounds) (bad := "[x".toList) (by decide) (by decide) [.parse "a".toList, .combAll] [.parse "b".toList]

/-- No text of the history makes the parser panic. -/
def Calm (cs : List LockCall) : Prop := ∀ text, .parse text ∈ cs → ∀ e, parseGroups text ≠ .error e

theorem calm_clean : ∀ {cs : List LockCall} (_ : Calm cs) {p : Poison}, p.splitter = false → p.rules = false →
    (afterCalls p cs).splitter = false ∧ (afterCalls p cs).rules = false
  | [], _, p, h1, h2 => ⟨h1, h2⟩
  | c :: cs, hc, p, h1, h2 => by
    have h3 : (afterCall p c).splitter = false ∧ (afterCall p c).rules = false := by
      cases c with
      | parse text =>
        simp only [afterCall, parseCall, h1, h2, Bool.false_eq_true, if_false]
        split
        · exact ⟨h1, h2⟩
        · split
          · rename_i e he; exact absurd he (hc text (List.mem_cons_self ..) e)
          · exact ⟨h1, h2⟩
      | combAll =>
        simp only [afterCall, combAllCall]
        split
        · exact ⟨h1, h2⟩
        · split
          · exact ⟨h1, h2⟩
          · split <;> exact ⟨h1, h2⟩
    exact calm_clean (fun t ht => hc t (List.mem_cons_of_mem _ ht)) h3.1 h3.2

/-- C31: parsing stays usable exactly when no earlier text made the parser panic; errors that are returned do no harm. -/
theorem C31_usable_partial (cs : List LockCall) :
    (∀ text, (parseCall (afterCalls {} cs) text).1 = parseGroups text) ↔ Calm cs := by
  constructor
  · intro hall text ht e he
    obtain ⟨a, b, rfl⟩ := List.append_of_mem ht
    have h1 := C31_forever he (text := ['p']) (by simp) a b
    rw [hall] at h1
    revert h1; decide
  · intro hc text
    obtain ⟨h1, h2⟩ := calm_clean hc (p := {}) rfl rfl
    simp only [parseCall, h1, h2, Bool.false_eq_true, if_false]
    split
    · rfl
    · split <;> simp_all

/-- A history with a refused text, after which parsing works. -/
example : Calm [.parse "a,,b".toList, .combAll, .parse "a]".toList] ∧ parseGroups "a,,b".toList = .ok (.error .wrongCombinator) := by
  refine ⟨?_, by decide⟩
  intro text ht e he
  simp only [List.mem_cons, List.not_mem_nil, or_false, LockCall.parse.injEq, reduceCtorEq, false_or] at ht
  rcases ht with rfl | rfl <;> (revert he; cases e <;> decide)

/-- C31 together with C30: a history of texts that have no unfinished tail and only small numbers does no harm. -/
theorem C31_after_finished_partial (cs : List LockCall)
    (hc : ∀ text, .parse text ∈ cs → ('(' ∈ text → SmallNumbers text) ∧ ∀ t, t <:+ text → ¬ Unfinished t) (text : List Char) :
    (parseCall (afterCalls {} cs) text).1 = parseGroups text := by
  refine (C31_usable_partial cs).2 (fun t ht e he => ?_) text
  obtain ⟨r, hr⟩ := C30_no_panic_partial (hc t ht).1 (hc t ht).2
  rw [hr] at he; cases he

theorem set_stays : ∀ (cs : List LockCall) {p : Poison}, p.allSet = true → p.allRule = false →
    (afterCalls p cs).allSet = true ∧ (afterCalls p cs).allRule = false
  | [], p, h1, h2 => ⟨h1, h2⟩
  | c :: cs, p, h1, h2 => by
    have h3 : (afterCall p c).allSet = true ∧ (afterCall p c).allRule = false := by
      cases c with
      | parse text =>
        simp only [afterCall, parseCall]
        split
        · exact ⟨h1, h2⟩
        · split
          · exact ⟨h1, h2⟩
          · split
            · exact ⟨h1, h2⟩
            · split <;> exact ⟨h1, h2⟩
      | combAll => simp [afterCall, combAllCall, h1, h2]
    exact set_stays cs h3.1 h3.2

theorem unset_stays : ∀ (cs : List LockCall) {p : Poison}, p.splitter = true → p.rules = true → p.allSet = false →
    (afterCalls p cs).rules = true ∧ (afterCalls p cs).allSet = false
  | [], p, _, h2, h3 => ⟨h2, h3⟩
  | c :: cs, p, h1, h2, h3 => by
    have h4 : (afterCall p c).splitter = true ∧ (afterCall p c).rules = true ∧ (afterCall p c).allSet = false := by
      cases c with
      | parse text =>
        simp only [afterCall, parseCall, h1]
        split <;> exact ⟨h1, h2, h3⟩
      | combAll =>
        simp only [afterCall, combAllCall, h2, h3]
        split <;> simp [h1, h2, h3]
    exact unset_stays cs h4.1 h4.2.1 h4.2.2

/-- C31, the methods that walk to all ancestors or siblings without a selector (`make_comb_all`): they stay usable exactly when no earlier text made the
parser panic, or one of them was called before the first such text. Otherwise they panic from then on, though they parse nothing. -/
theorem C31_all_rule_partial (cs : List LockCall) :
    ((combAllCall (afterCalls {} cs)).1 = .ok () ↔ Calm cs ∨ ∃ a b, cs = a ++ .combAll :: b ∧ Calm a) ∧
      ((combAllCall (afterCalls {} cs)).1 = .ok () ∨ (combAllCall (afterCalls {} cs)).1 = .error .poisoned) := by
  refine ⟨?_, by unfold combAllCall; split <;> [simp; (split <;> [simp; (split <;> simp)])]⟩
  induction cs with
  | nil => exact ⟨fun _ => .inl fun _ ht => by simp at ht, fun _ => rfl⟩
  | cons c cs ih =>
    cases c with
    | combAll =>
      have h1 := set_stays cs (p := { allSet := true }) rfl rfl
      have h2 : afterCalls {} (.combAll :: cs) = afterCalls { allSet := true } cs := rfl
      rw [h2]
      simp only [combAllCall, h1.1, h1.2, Bool.false_eq_true, if_false, if_true, true_iff]
      exact .inr ⟨[], cs, rfl, fun _ ht => by simp at ht⟩
    | parse text =>
      cases hp : parseGroups text with
      | ok r =>
        have h2 : afterCalls {} (.parse text :: cs) = afterCalls {} cs := by
          have : afterCall {} (.parse text) = {} := by
            simp only [afterCall, parseCall, hp]
            split <;> rfl
          simp only [afterCalls, List.foldl_cons, this]
        have hcalm : ∀ l, Calm (.parse text :: l) ↔ Calm l := by
          refine fun l => ⟨fun h1 t ht => h1 t (List.mem_cons_of_mem _ ht), fun h1 t ht e he => ?_⟩
          rcases List.mem_cons.1 ht with h3 | h3
          · cases h3; rw [hp] at he; cases he
          · exact h1 t h3 e he
        rw [h2, ih, hcalm]
        refine or_congr Iff.rfl ⟨?_, ?_⟩
        · rintro ⟨a, b, rfl, h3⟩
          exact ⟨.parse text :: a, b, rfl, (hcalm a).2 h3⟩
        · rintro ⟨a, b, h3, h4⟩
          cases a with
          | nil => cases h3
          | cons x a =>
            simp only [List.cons_append, List.cons.injEq] at h3
            obtain ⟨rfl, rfl⟩ := h3
            exact ⟨a, b, rfl, (hcalm a).1 h4⟩
      | error er =>
        have hne : text.isEmpty = false := by
          cases text with
          | nil => cases hp
          | cons => rfl
        have h2 : afterCalls {} (.parse text :: cs) = afterCalls { splitter := true, rules := true } cs := by
          have : afterCall {} (.parse text) = { splitter := true, rules := true } := by
            simp only [afterCall, parseCall, hp, hne, Bool.false_eq_true, if_false]
          simp only [afterCalls, List.foldl_cons, this]
        obtain ⟨h3, h4⟩ := unset_stays cs (p := { splitter := true, rules := true }) rfl rfl rfl
        rw [h2]
        have hbad : ∀ l, ¬ Calm (.parse text :: l) := fun l hc => hc text (List.mem_cons_self ..) er hp
        have hno : (combAllCall (afterCalls { splitter := true, rules := true } cs)).1 ≠ .ok () := by
          unfold combAllCall
          rw [h3, h4]
          split <;> simp
        refine ⟨fun h5 => absurd h5 hno, ?_⟩
        rintro (h5 | ⟨a, b, h5, h6⟩)
        · exact absurd h5 (hbad cs)
        · cases a with
          | nil => cases h5
          | cons x a =>
            simp only [List.cons_append, List.cons.injEq] at h5
            obtain ⟨rfl, rfl⟩ := h5
            exact absurd h6 (hbad a)

example : (combAllCall (afterCalls {} [.parse "a".toList, .combAll, .parse "[x".toList])).1 = .ok () :=
  (C31_all_rule_partial _).1.2 (.inr ⟨[.parse "a".toList], [.parse "[x".toList], rfl, by
    intro text ht e he
    simp only [List.mem_cons, List.not_mem_nil, or_false, LockCall.parse.injEq] at ht
    subst ht
    revert he; cases e <;> decide⟩)

/-- C31 does not hold for them either. -/
theorem C31_fails_all_rule : (combAllCall (afterCalls {} [.parse "[x".toList, .combAll])).1 = .error .poisoned := by decide

/-! ## C46 -/

/-- C46: any number of threads that initialise the library, parse texts and build `*` segments never deadlock, whatever the
schedule and whatever threads panic. -/
theorem C46_no_deadlock (threads : List (List ConcCall)) {s : List (Thread Lock)} (hs : Reached (threads.map callsActs) s) :
    ¬ Deadlock s := by
  rintro ⟨hf, hno⟩
  have ho : AllOrdered lockRank s := reached_ordered (by
    intro t ht
    obtain ⟨cs, -, rfl⟩ := List.mem_map.1 ht
    exact ordered_calls cs) hs
  obtain ⟨s', hs'⟩ := progress ho hf
  exact hno s' hs'

/-- C46: and all calls end: no schedule goes on for ever, and from every state the threads can be run to their end. -/
theorem C46_completes (threads : List (List ConcCall)) {s : List (Thread Lock)} (hs : Reached (threads.map callsActs) s) :
    (∀ s', Step s s' → workLeft s' < workLeft s) ∧ ∃ s', Relation.ReflTransGen Step s s' ∧ Finished s' := by
  refine ⟨fun s' => step_work, ?_⟩
  generalize hn : workLeft s = n
  induction n using Nat.strong_induction_on generalizing s with
  | _ n ih =>
    by_cases hf : Finished s
    · exact ⟨s, .refl, hf⟩
    · have : ∃ s', Step s s' := by
        by_contra hno
        exact C46_no_deadlock threads hs ⟨hf, fun s' h1 => hno ⟨s', h1⟩⟩
      obtain ⟨s', hs'⟩ := this
      obtain ⟨s'', h1, h2⟩ := ih (workLeft s') (hn ▸ step_work hs') (hs.tail (.inl hs')) rfl
      exact ⟨s'', .head hs' h1, h2⟩

/-- A state in which one thread waits for another: the first holds `SPLITTER`, the second wants it. -/
example : ∃ s t, Reached ([[.parse false 2], [.parse true 1, .combAll true]].map callsActs) s ∧ t ∈ s ∧
    t.acts.head? = some (.acq .splitter) ∧ Held s .splitter := by
  refine ⟨[⟨.acq .rules :: (touch .regexs 2 ++ [.rel .rules, .rel .splitter]), [.splitter]⟩,
      ⟨.acq .splitter :: .acq .rules :: (touch .regexs 1 ++ [.rel .rules, .rel .splitter] ++ callsActs [.combAll true]), []⟩],
    ⟨.acq .splitter :: .acq .rules :: (touch .regexs 1 ++ [.rel .rules, .rel .splitter] ++ callsActs [.combAll true]), []⟩,
    ?_, by simp, rfl, ⟨_, List.mem_cons_self .., by simp⟩⟩
  · refine .tail (.tail (.tail (.tail (.tail (.tail (.tail .refl (.inl (.acq (a := []) ?_))) (.inl (.rel (a := []))))
      (.inl (.acq (a := [_]) (b := []) ?_))) (.inl (.acq (a := [_]) (b := []) ?_))) (.inl (.rel (a := [_]) (b := []))))
      (.inl (.rel (a := [_]) (b := [])))) (.inl (.acq (a := []) ?_))
    all_goals simp [Held]

/-- Deadlocks are possible in this semantics: two threads taking two locks in opposite orders. -/
example : ∃ s, Reached [[Act.acq Lock.rules, .acq .allRule], [.acq .allRule, .acq .rules]] s ∧ Deadlock s := by
  refine ⟨[⟨[.acq .allRule], [.rules]⟩, ⟨[.acq .rules], [.allRule]⟩], ?_, ?_, ?_⟩
  · refine .tail (.tail .refl (.inl (.acq (a := []) ?_))) (.inl (.acq (a := [_]) (b := []) ?_)) <;> simp [Held]
  · intro hf
    have := hf ⟨[.acq .allRule], [.rules]⟩ (by simp)
    cases this
  · intro s' hs
    generalize hx : [(⟨[.acq .allRule], [.rules]⟩ : Thread Lock), ⟨[.acq .rules], [.allRule]⟩] = x at hs
    cases hs with
    | @acq a b l r hd hh =>
      apply hh
      rw [← hx]
      rcases a with _ | ⟨t, _ | ⟨t', a⟩⟩
      · simp at hx; simp [Held, ← hx.1.1.1]
      · simp at hx; simp [Held, ← hx.2.1.1.1]
      · simp at hx
    | @rel a b l r hd =>
      rcases a with _ | ⟨t, _ | ⟨t', a⟩⟩ <;> simp at hx

end Visdom
