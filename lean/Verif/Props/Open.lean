import Verif.Proofs.Open
import Verif.Props.Panics
/-!
# C30, C31: every text that breaks off inside a simple selector makes the parser panic
-/
namespace Visdom
open Spec

/-- C30: a text that breaks off inside a simple selector (a class or an id without its name, a bracket or a parenthesis that is not
closed, at any depth of nesting, after any selector, combinator or comma) makes the parser panic. -/
theorem C30_open {text : List Char} (ht : OpenText text) : parseGroups text = .error .outOfBounds := by
  obtain ⟨d, w, o, p, v, hw, hp, hv, rfl⟩ := ht
  exact parse_open (coreD_nestOK d) (openInner_end d) hw hp hv

/-- Such texts: `a > b.`, and one that breaks off in two nested selectors. -/
example : OpenText "a > b.".toList ∧ OpenText " a,:not( b:has(#".toList := by
  have ha : ∀ {P : List Complex → List Char → Prop}, SimText P (.name ['a']) ['a'] := .name (idText_letter (by simp [NameStart]))
  have hb : ∀ {P : List Complex → List Char → Prop}, SimText P (.name ['b']) ['b'] := .name (idText_letter (by simp [NameStart]))
  constructor
  · refine ⟨0, [], _, _, ['.'], blank_nil, .sim (.comb (.sim (.head .desc) ha (by simp)) (.sign (c := .children) (x := '>') rfl blank_space blank_space)) hb
      (by simp), .cls, rfl⟩
  · refine ⟨2, [' '], none, ['a', ','], _, blank_space, ?_,
      .nest (not := true) (w := [' ']) (u := "b:has(#".toList) blank_space (.inr (.inr ⟨_, ['b'], _, .sim (.head .desc) hb (by simp),
        .nest (not := false) (w := []) (u := ['#']) blank_nil (.inr (.inr ⟨_, [], ['#'], .head .desc, .id, rfl⟩)), rfl⟩)), rfl⟩
    exact .comma (w := []) (w' := []) (.sim (.head .desc) ha (by simp)) blank_nil blank_nil

/-- C30, C31: after such a text no text can be parsed any more. -/
theorem C31_open {bad text : List Char} (hb : OpenText bad) (ht : text ≠ []) (cs cs' : List LockCall) :
    (parseCall (afterCalls {} (cs ++ .parse bad :: cs')) text).1 = .error .poisoned :=
  C31_forever (C30_open hb) ht cs cs'

/-! ## Texts typed character by character -/

/-- The simple selectors with a delimiter: `.`, `#`, brackets or parentheses. -/
def Spec.Sim.delimited : Sim → Bool
  | .cls _ | .id _ | .attr _ | .attrTest .. | .nth .. | .nthIdx .. | .contains _ | .not _ | .has _ => true
  | _ => false

section Begun
variable {P : List Complex → List Char → Prop}

/-- What is found in a text: the simple selector with what stands in front of it. -/
def Found (P : List Complex → List Char → Prop) (s : Sim) (t : List Char) : Prop :=
  ∃ o p u R, Begun P o p ∧ SimText P s u ∧ t = p ++ (u ++ R)

theorem Found.append {s : Sim} {t : List Char} (hf : Found P s t) (R : List Char) : Found P s (t ++ R) := by
  obtain ⟨o, p, u, R', h1, h2, rfl⟩ := hf
  exact ⟨o, p, u, R' ++ R, h1, h2, by simp⟩

theorem lead_cmpd {ss : List Sim} {u : List Char} (hu : CmpdText P ss u) : ∀ {o : Option Sim} {p : List Char}, Begun P o p →
    (∀ s', o = some s' → ∀ s l, ss = s :: l → s.isName = true → s'.endsIdent = false) →
    (∃ s, Begun P (some s) (p ++ u)) ∧ ∀ s ∈ ss, Found P s (p ++ u) := by
  induction hu with
  | @one s t ht =>
    intro o p hp hb
    refine ⟨⟨s, .sim hp ht (fun s' ho => hb s' ho s [] rfl)⟩, fun s' hs => ?_⟩
    rw [List.mem_singleton.1 hs]
    exact ⟨o, p, t, [], hp, ht, by simp⟩
  | @cons s s' l t u ht hn hu ih =>
    intro o p hp hb
    have hl : Begun P (some s) (p ++ t) := .sim hp ht (fun s' ho => hb s' ho s _ rfl)
    obtain ⟨h1, h2⟩ := ih hl (by rintro _ ⟨⟩ s1 l1 ⟨⟩; exact hn)
    rw [← List.append_assoc]
    refine ⟨h1, fun s1 hs => ?_⟩
    rcases List.mem_cons.1 hs with rfl | hs
    · exact ⟨o, p, t, u, hp, ht, by simp⟩
    · exact h2 s1 hs

theorem lead_steps {l : Complex} {v : List Char} (hv : StepsText P l v) : ∀ {s0 : Sim} {p : List Char}, Begun P (some s0) p →
    (∃ s, Begun P (some s) (p ++ v)) ∧ ∀ s ∈ stepSims l, Found P s (p ++ v) := by
  induction hv with
  | nil =>
    intro s0 p hp
    rw [List.append_nil]
    exact ⟨⟨s0, hp⟩, by simp [stepSims]⟩
  | @cons c ss l t u v ht hu hl ih =>
    intro s0 p hp
    obtain ⟨⟨s1, h1⟩, h2⟩ := lead_cmpd hu (.comb hp ht) (by simp)
    obtain ⟨h3, h4⟩ := ih h1
    have e : p ++ (t ++ (u ++ v)) = p ++ t ++ u ++ v := by simp
    rw [e]
    refine ⟨h3, fun s hs => ?_⟩
    simp only [stepSims, List.flatMap_cons, List.mem_append] at hs
    rcases hs with hs | hs
    · exact (h2 s hs).append v
    · exact h4 s hs

theorem lead_alts {sel : List Complex} {z : List Char} (hz : AltsText P sel z) : ∀ {s0 : Sim} {p : List Char}, Begun P (some s0) p →
    ∀ s ∈ simsOf sel, Found P s (p ++ z) := by
  induction hz with
  | nil => simp [simsOf]
  | @cons ss l sel w w' u v z hw hw' hu hv hz ih =>
    intro s0 p hp s hs
    obtain ⟨⟨s1, h1⟩, h2⟩ := lead_cmpd hu (.comma hp hw hw') (by simp)
    obtain ⟨⟨s2, h3⟩, h4⟩ := lead_steps hv h1
    have e : p ++ (w ++ ',' :: (w' ++ (u ++ (v ++ z)))) = p ++ (w ++ ',' :: w') ++ u ++ v ++ z := by simp
    rw [e]
    simp only [simsOf, List.flatMap_cons, List.mem_append] at hs
    rcases hs with (hs | hs) | hs
    · exact ((h2 s hs).append v).append z
    · exact (h4 s hs).append z
    · exact ih h3 s hs

theorem lead_core {sel : List Complex} {t : List Char} (ht : CoreText P sel t) : ∀ s ∈ simsOf sel, Found P s t := by
  cases ht with
  | @mk c ss l sel t u v z ht hu hv hz =>
    intro s hs
    obtain ⟨⟨s1, h1⟩, h2⟩ := lead_cmpd hu (.head ht) (by simp)
    obtain ⟨⟨s2, h3⟩, h4⟩ := lead_steps hv h1
    have e : t ++ (u ++ (v ++ z)) = t ++ u ++ v ++ z := by simp
    rw [e]
    simp only [simsOf, List.flatMap_cons, List.mem_append] at hs
    rcases hs with (hs | hs) | hs
    · exact ((h2 s hs).append v).append z
    · exact (h4 s hs).append z
    · exact lead_alts hz h3 s hs

theorem open_prefix {Q : List Char → Prop} (hQ : Q []) {s : Sim} {t : List Char} (ht : SimText P s t) (hs : s.delimited = true) :
    ∃ v R, OpenSim Q v ∧ t = v ++ R := by
  cases ht with
  | cls => exact ⟨['.'], _, .cls, rfl⟩
  | id => exact ⟨['#'], _, .id, rfl⟩
  | attr hw hk hw' => exact ⟨_, [']'], .attr hw hk hw', by simp⟩
  | @attrTest w k w' w'' v t w3 o hw hk hw' hw'' hv hw3 => exact ⟨_, [']'], .attrTest (o := o) hw hk hw' hw'' hv hw3, by simp⟩
  | @nth last ofType a b w t w' hw hn hw' => exact ⟨_, [')'], .nth (last := last) (ofType := ofType) hw hn hw', by simp⟩
  | @nthIdx last ofType b w t w' hw hn hw' => exact ⟨_, [')'], .nthIdx (last := last) (ofType := ofType) hw hn hw', by simp⟩
  | contains hw hv hw' => exact ⟨_, [')'], .contains hw hv hw', by simp⟩
  | @not sel w t w' hw => exact ⟨_, t ++ w' ++ [')'], .nest (not := true) hw hQ, by simp [openHead]⟩
  | @has sel w t w' hw => exact ⟨_, t ++ w' ++ [')'], .nest (not := false) hw hQ, by simp [openHead]⟩
  | _ => cases hs

theorem Spec.Begun.mono {P' : List Complex → List Char → Prop} (hPQ : ∀ sel t, P sel t → P' sel t) {o : Option Sim} {p : List Char}
    (hp : Begun P o p) : Begun P' o p := by
  induction hp with
  | head ht => exact .head ht
  | @sim o s p t _ ht hb ih => exact .sim ih (simText_mono (n := t.length + 1) (fun sel t _ => hPQ sel t) ht (by omega)) hb
  | comb _ ht ih => exact .comb ih ht
  | comma _ hw hw' ih => exact .comma ih hw hw'
end Begun

/-- C30: in every text of a selector that has a class, an id, an attribute test or a pseudo-class with an argument, some beginning of
the text makes the parser panic. A program that looks for the selector while it is typed in panics. -/
theorem C30_typing {sel : List Complex} {text : List Char} (ht : SelText sel text) {s : Sim} (hs : s ∈ simsOf sel)
    (hd : s.delimited = true) : ∃ t, t <+: text ∧ OpenText t ∧ parseGroups t = .error .outOfBounds := by
  obtain ⟨d, w, t, w', hc, hw, hw', rfl⟩ := ht
  have key : ∀ (d' : Nat) {P : List Complex → List Char → Prop}, NestOK P →
      (∀ {o p}, Begun P o p → Begun (fun sel t => CoreD d' sel t ∧ NestLast sel) o p) → CoreText P sel t →
      ∃ t', t' <+: w ++ t ++ w' ∧ OpenText t' ∧ parseGroups t' = .error .outOfBounds := by
    intro d' P hP hm hc
    obtain ⟨o, p, u, R, h1, h2, rfl⟩ := lead_core hc s hs
    obtain ⟨v, R', h3, rfl⟩ := open_prefix (Q := OpenInner d') (by cases d' <;> simp [OpenInner]) h2 hd
    have ho : OpenText (w ++ (p ++ v)) := ⟨d', w, o, p, v, hw, hm h1, h3, rfl⟩
    exact ⟨_, ⟨R' ++ R ++ w', by simp⟩, ho, C30_open ho⟩
  cases d with
  | zero =>
    exact key 0 (P := fun _ _ => False) (fun _ _ h => h.elim) (fun {o p} hl => hl.mono fun _ _ h => h.elim) hc
  | succ d => exact key d (coreD_nestOK d) id hc

/-! ## Exactly these selectors -/

/-- The characters that can begin something that breaks off. -/
def NoOpener (t : List Char) : Prop := ∀ c ∈ t, c ∉ ['(', '.', '#', '[']

theorem noOpener_append {t u : List Char} (ht : NoOpener t) (hu : NoOpener u) : NoOpener (t ++ u) := by
  intro c hc
  rcases List.mem_append.1 hc with hc | hc
  · exact ht c hc
  · exact hu c hc

theorem noOpener_cons {x : Char} {t : List Char} (hx : x ∉ ['(', '.', '#', '[']) (ht : NoOpener t) : NoOpener (x :: t) :=
  noOpener_append (t := [x]) (by intro c hc; rw [List.mem_singleton.1 hc]; exact hx) ht

theorem noOpener_blank {w : List Char} (hw : Blank w) : NoOpener w := by
  intro c hc
  rcases hw c hc with rfl | rfl | rfl | rfl | rfl <;> decide

theorem noOpener_start {c : Char} (hc : NameStart c) : c ∉ ['(', '.', '#', '['] := by
  have h1 := nameStart_iff.1 hc
  intro hm
  simp only [List.mem_cons, List.not_mem_nil, or_false] at hm
  rcases hm with rfl | rfl | rfl | rfl <;> exact absurd h1 (by decide)

theorem noOpener_char {c : Char} (hc : NameChar c) : c ∉ ['(', '.', '#', '['] := by
  have h1 := nameChar_iff.1 hc
  intro hm
  simp only [List.mem_cons, List.not_mem_nil, or_false] at hm
  rcases hm with rfl | rfl | rfl | rfl <;> exact absurd h1 (by decide)

theorem noOpener_ident {n t : List Char} (hn : IdText n t) (hb : '\\' ∉ t) : NoOpener t := by
  have key : ∀ {n t : List Char}, IdTail n t → '\\' ∉ t → NoOpener t := by
    intro n t hn
    induction hn with
    | nil => intro _ c hc; cases hc
    | plain hc _ ih => intro hb; exact noOpener_cons (noOpener_char hc) (ih fun h => hb (List.mem_cons_of_mem _ h))
    | esc _ _ => intro hb; exact absurd (List.mem_cons_self ..) hb
  cases hn with
  | mk hc ht => exact noOpener_cons (noOpener_start hc) (key ht fun h => hb (List.mem_cons_of_mem _ h))

section NoOpener
variable {P : List Complex → List Char → Prop}

theorem noOpener_sim {s : Sim} {t : List Char} (ht : SimText P s t) (hs : s.delimited = false) (hb : '\\' ∉ t) : NoOpener t := by
  cases ht with
  | name hn => exact noOpener_ident hn hb
  | @edge last ofType => cases last <;> cases ofType <;> (unfold NoOpener; decide)
  | @only ofType => cases ofType <;> (unfold NoOpener; decide)
  | all => unfold NoOpener; decide
  | root => unfold NoOpener; decide
  | empty => unfold NoOpener; decide
  | checked => unfold NoOpener; decide
  | header => unfold NoOpener; decide
  | input => unfold NoOpener; decide
  | submit => unfold NoOpener; decide
  | _ => cases hs

theorem noOpener_sign {c : Comb} {x : Char} (hc : combChar c = some x) : x ∉ ['(', '.', '#', '['] := by
  cases c <;> cases hc <;> decide

theorem noOpener_comb {c : Comb} {t : List Char} (ht : CombText c t) : NoOpener t := by
  cases ht with
  | desc _ hw => exact noOpener_blank hw
  | sign hc hw hw' => exact noOpener_append (noOpener_blank hw) (noOpener_cons (noOpener_sign hc) (noOpener_blank hw'))

theorem noOpener_cmpd {ss : List Sim} {u : List Char} (hu : CmpdText P ss u) :
    (∀ s ∈ ss, s.delimited = false) → '\\' ∉ u → NoOpener u := by
  induction hu with
  | one ht => intro hs hb; exact noOpener_sim ht (hs _ (List.mem_cons_self ..)) hb
  | cons ht _ _ ih =>
    intro hs hb
    simp only [List.mem_append, not_or] at hb
    exact noOpener_append (noOpener_sim ht (hs _ (List.mem_cons_self ..)) hb.1) (ih (fun s h => hs s (List.mem_cons_of_mem _ h)) hb.2)

theorem noOpener_steps {l : Complex} {v : List Char} (hv : StepsText P l v) :
    (∀ s ∈ stepSims l, s.delimited = false) → '\\' ∉ v → NoOpener v := by
  induction hv with
  | nil => intro _ _ c hc; cases hc
  | cons ht hu _ ih =>
    intro hs hb
    simp only [List.mem_append, not_or] at hb
    simp only [stepSims, List.flatMap_cons, List.mem_append] at hs
    exact noOpener_append (noOpener_comb ht) (noOpener_append (noOpener_cmpd hu (fun s h => hs s (.inl h)) hb.2.1) (ih (fun s h => hs s (.inr h)) hb.2.2))

theorem noOpener_alts {sel : List Complex} {z : List Char} (hz : AltsText P sel z) :
    (∀ s ∈ simsOf sel, s.delimited = false) → '\\' ∉ z → NoOpener z := by
  induction hz with
  | nil => intro _ _ c hc; cases hc
  | cons hw hw' hu hv _ ih =>
    intro hs hb
    simp only [List.mem_append, List.mem_cons, not_or] at hb
    simp only [simsOf, List.flatMap_cons, List.mem_append] at hs
    exact noOpener_append (noOpener_blank hw) (noOpener_cons (by decide) (noOpener_append (noOpener_blank hw')
      (noOpener_append (noOpener_cmpd hu (fun s h => hs s (.inl (.inl h))) hb.2.2.2.1)
        (noOpener_append (noOpener_steps hv (fun s h => hs s (.inl (.inr h))) hb.2.2.2.2.1) (ih (fun s h => hs s (.inr h)) hb.2.2.2.2.2)))))

theorem noOpener_core {sel : List Complex} {t : List Char} (ht : CoreText P sel t) (hs : ∀ s ∈ simsOf sel, s.delimited = false)
    (hb : '\\' ∉ t) : NoOpener t := by
  cases ht with
  | mk ht hu hv hz =>
    simp only [List.mem_append, not_or] at hb
    simp only [simsOf, List.flatMap_cons, List.mem_append] at hs
    refine noOpener_append ?_ (noOpener_append (noOpener_cmpd hu (fun s h => hs s (.inl (.inl h))) hb.2.1)
      (noOpener_append (noOpener_steps hv (fun s h => hs s (.inl (.inr h))) hb.2.2.1) (noOpener_alts hz (fun s h => hs s (.inr h)) hb.2.2.2)))
    cases ht with
    | desc => intro c hc; cases hc
    | sign hc hw => exact noOpener_cons (noOpener_sign hc) (noOpener_blank hw)
end NoOpener

/-- C30: for a text of a selector without escapes, some beginning of the text makes the parser panic if and only if the selector has a
class, an id, an attribute test or a pseudo-class with an argument. -/
theorem C30_typing_exact {sel : List Complex} {text : List Char} (ht : SelText sel text) (hb : '\\' ∉ text) :
    (∃ t, t <+: text ∧ ∃ e, parseGroups t = .error e) ↔ ∃ s ∈ simsOf sel, s.delimited = true := by
  constructor
  · rintro ⟨t, hp, e, he⟩
    by_contra hno
    have hs : ∀ s ∈ simsOf sel, s.delimited = false := by
      intro s hs
      cases hd : s.delimited with
      | false => rfl
      | true => exact absurd ⟨s, hs, hd⟩ hno
    obtain ⟨d, w, t', w', hc, hw, hw', rfl⟩ := ht
    simp only [List.mem_append, not_or] at hb
    have hpl : NoOpener (w ++ t' ++ w') := by
      refine noOpener_append (noOpener_append (noOpener_blank hw) ?_) (noOpener_blank hw')
      cases d with
      | zero => exact noOpener_core (P := fun _ _ => False) hc hs hb.1.2
      | succ d => exact noOpener_core hc hs hb.1.2
    have hpt : ∀ c ∈ t, c ∉ ['(', '.', '#', '['] := fun c hc => hpl c (hp.subset hc)
    obtain ⟨r, hr⟩ := C30_plain_partial (text := t) (fun hm => hpt _ hm (by decide))
      (fun hl => hpt _ (List.mem_of_getLast? hl) (by decide)) (fun hl => hpt _ (List.mem_of_getLast? hl) (by decide))
      (fun hm => absurd (by decide) (hpt _ hm))
    rw [hr] at he; cases he
  · rintro ⟨s, hs, hd⟩
    obtain ⟨t, h1, -, h3⟩ := C30_typing ht hs hd
    exact ⟨t, h1, _, h3⟩

/-- Both sides occur: `a > b` and `a.b`. -/
example : (∃ sel, SelText sel "a > b".toList ∧ ∀ s ∈ simsOf sel, s.delimited = false) ∧
    ∃ sel, SelText sel "a.b".toList ∧ ∃ s ∈ simsOf sel, s.delimited = true := by
  have ha : ∀ {P : List Complex → List Char → Prop}, SimText P (.name ['a']) ['a'] := .name (idText_letter (by simp [NameStart]))
  have hb : ∀ {P : List Complex → List Char → Prop}, SimText P (.name ['b']) ['b'] := .name (idText_letter (by simp [NameStart]))
  refine ⟨⟨[[(.childrenAll, [.name ['a']]), (.children, [.name ['b']])]], ⟨0, [], _, [], .mk .desc (.one ha)
      (.cons (.sign (c := .children) (x := '>') rfl blank_space blank_space) (.one hb) .nil) .nil, blank_nil, blank_nil, rfl⟩, ?_⟩,
    ⟨[[(.childrenAll, [.name ['a'], .cls ['b']])]], ⟨0, [], _, [], .mk .desc (.cons ha (by simp [Sim.isName])
      (.one (.cls (idText_letter (by simp [NameStart]))))) .nil .nil, blank_nil, blank_nil, rfl⟩, .cls ['b'], ?_, rfl⟩⟩
  · simp [simsOf, Sim.delimited]
  · simp [simsOf]

end Visdom
