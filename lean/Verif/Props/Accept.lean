import Verif.Proofs.AcceptLoop
import Verif.Props.Panics
import Verif.Props.Invalid
import Mathlib.Data.List.Chain
/-!
# C66: only selectors are accepted
-/
namespace Visdom
open Spec

/-- C66: whatever the parser accepts is a selector list, and the groups it returns are exactly what the text says: every
part of them is the part that its piece of the text spells, the compounds and alternatives are those of the text and the
combinators those written between them. -/
theorem C66_accepted {text : List Char} {gs : PGroups} (he : parseGroups text = .ok (.ok gs)) :
    (text = [] ∧ gs = []) ∨ Says gs text := parseGroups_says he

/-- The text `a>b` says a group of two compounds. -/
example : Says [[[(.name ['a'], .childrenAll)], [(.name ['b'], .children)]]] ['a', '>', 'b'] :=
  (C66_accepted (text := ['a', '>', 'b']) (by decide)).resolve_left (by simp)

/-- C66: a text that is no selector list is refused (with the error of C32), unless it is unfinished or has an overlong
number (C30). -/
theorem C66_refused_partial {text : List Char} (hn : '(' ∈ text → SmallNumbers text) (hu : ∀ t, t <:+ text → ¬ Unfinished t)
    (hne : text ≠ []) (hs : ∀ gs, ¬ Says gs text) : Refused text := by
  obtain ⟨r, hr⟩ := C30_no_panic_partial hn hu
  cases r with
  | error e => exact ⟨e, hr⟩
  | ok gs =>
    rcases C66_accepted hr with ⟨h0, -⟩ | h1
    · exact absurd h0 hne
    · exact absurd h1 (hs gs)

/-- A separating character. -/
def Oper (c : Char) : Prop := c ∈ ['>', ',', '~', '+']
instance (c : Char) : Decidable (Oper c) := inferInstanceAs (Decidable (c ∈ _))
/-- A character of a simple selector without arguments. -/
def Solid (c : Char) : Prop := NameChar c ∨ c ∈ ['.', '#', ':', '*']

theorem solid_char {c : Char} (hs : Solid c) : ¬ Oper c ∧ isUnicodeWs c = false := by
  have key : ∀ n < 128, let c := Char.ofNat n; (decide (97 ≤ n ∧ n ≤ 122) || decide (65 ≤ n ∧ n ≤ 90) || decide (n = 95) ||
      decide (48 ≤ n ∧ n ≤ 57) || decide (n ∈ [45, 46, 35, 58, 42])) = true →
      ¬ c ∈ ['>', ',', '~', '+'] ∧ isUnicodeWs c = false := by decide
  have hlt : c.toNat < 128 ∧ (decide (97 ≤ c.toNat ∧ c.toNat ≤ 122) || decide (65 ≤ c.toNat ∧ c.toNat ≤ 90) || decide (c.toNat = 95) ||
      decide (48 ≤ c.toNat ∧ c.toNat ≤ 57) || decide (c.toNat ∈ [45, 46, 35, 58, 42])) = true := by
    rcases hs with ((h1 | h1 | rfl) | h1 | rfl) | h1
    · exact ⟨by omega, by simp [h1]⟩
    · exact ⟨by omega, by simp [h1]⟩
    · decide
    · exact ⟨by have := h1.2; omega, by have h2 : 48 ≤ c.toNat ∧ c.toNat ≤ 57 := h1; simp [h2]⟩
    · decide
    · simp only [List.mem_cons, List.not_mem_nil, or_false] at h1
      rcases h1 with rfl | rfl | rfl | rfl <;> decide
  have := key c.toNat hlt.1 hlt.2
  rwa [Char.ofNat_toNat] at this

/-- The characters that are not white space. -/
def dense (t : List Char) : List Char := t.filter (fun c => !isUnicodeWs c)

theorem dense_append (a b : List Char) : dense (a ++ b) = dense a ++ dense b := List.filter_append ..
theorem dense_white {w : List Char} (hw : White w) : dense w = [] := by
  simp only [dense, List.filter_eq_nil_iff]
  intro c hc; simp [wsTable_iff.2 (hw c hc)]
theorem dense_solid {t : List Char} (ht : ∀ c ∈ t, Solid c) : dense t = t := by
  simp only [dense, List.filter_eq_self]
  intro c hc; simp [(solid_char (ht c hc)).2]

/-- Two separating characters side by side are not allowed. -/
def Apart (a b : Char) : Prop := ¬ (Oper a ∧ Oper b)

/-- Begins and ends with a character of a simple selector, and has no two separating characters side by side. -/
structure Tidy (v : List Char) : Prop where
  chars : ∀ c ∈ v, Solid c ∨ Oper c
  apart : v.IsChain Apart
  first : ∃ c l, v = c :: l ∧ Solid c
  last : ∃ l c, v = l ++ [c] ∧ Solid c

theorem Tidy.append {u v : List Char} (hu : Tidy u) (hv : Tidy v) : Tidy (u ++ v) := by
  obtain ⟨c, l, e, hc⟩ := hu.first
  obtain ⟨l', c', e', hc'⟩ := hv.last
  refine ⟨fun x hx => (List.mem_append.1 hx).elim (hu.chars x) (hv.chars x), ?_, ⟨c, l ++ v, by simp [e], hc⟩,
    ⟨u ++ l', c', by simp [e'], hc'⟩⟩
  obtain ⟨l2, c2, e2, hc2⟩ := hu.last
  rw [List.isChain_append]
  refine ⟨hu.apart, hv.apart, fun x hx y hy hxy => ?_⟩
  rw [e2] at hx
  simp only [List.getLast?_append, List.getLast?_singleton, Option.some_or, Option.mem_some_iff] at hx
  subst hx
  exact (solid_char hc2).1 hxy.1

theorem Tidy.sep {u v : List Char} (hu : Tidy u) (hv : Tidy v) {x : Char} (hx : Oper x) : Tidy (u ++ ([x] ++ v)) := by
  obtain ⟨c, l, e, hc⟩ := hu.first
  obtain ⟨l', c', e', hc'⟩ := hv.last
  refine ⟨?_, ?_, ⟨c, l ++ ([x] ++ v), by simp [e], hc⟩, ⟨u ++ ([x] ++ l'), c', by simp [e'], hc'⟩⟩
  · intro y hy
    simp only [List.mem_append, List.mem_singleton] at hy
    rcases hy with hy | rfl | hy
    · exact hu.chars y hy
    · exact .inr hx
    · exact hv.chars y hy
  · obtain ⟨l2, c2, e2, hc2⟩ := hu.last
    obtain ⟨c3, l3, e3, hc3⟩ := hv.first
    rw [List.isChain_append, List.isChain_append]
    refine ⟨hu.apart, ⟨.singleton _, hv.apart, fun a ha b hb hab => ?_⟩, fun a ha b hb hab => ?_⟩
    · rw [e3] at hb
      simp only [List.head?_cons, Option.mem_some_iff] at hb
      subst hb
      exact (solid_char hc3).1 hab.2
    · rw [e2] at ha
      simp only [List.getLast?_append, List.getLast?_singleton, Option.some_or, Option.mem_some_iff] at ha
      subst ha
      exact (solid_char hc2).1 hab.1

theorem tidy_solid {t : List Char} (hne : t ≠ []) (ht : ∀ c ∈ t, Solid c) : Tidy t := by
  refine ⟨fun c hc => .inl (ht c hc), ?_, ?_, ?_⟩
  · refine List.Pairwise.isChain ?_
    rw [List.pairwise_iff_forall_sublist]
    intro a b hab hx
    exact (solid_char (ht a (hab.subset (by simp)))).1 hx.1
  · cases t with
    | nil => exact absurd rfl hne
    | cons c l => exact ⟨c, l, rfl, ht c (by simp)⟩
  · exact ⟨t.dropLast, t.getLast hne, (List.dropLast_append_getLast hne).symm, ht _ (List.getLast_mem hne)⟩

/-- No brackets, parentheses and escapes. -/
def Bare (t : List Char) : Prop := '[' ∉ t ∧ '(' ∉ t ∧ '\\' ∉ t
theorem Bare.left {a b : List Char} (hb : Bare (a ++ b)) : Bare a :=
  ⟨fun h1 => hb.1 (by simp [h1]), fun h1 => hb.2.1 (by simp [h1]), fun h1 => hb.2.2 (by simp [h1])⟩
theorem Bare.right {a b : List Char} (hb : Bare (a ++ b)) : Bare b :=
  ⟨fun h1 => hb.1 (by simp [h1]), fun h1 => hb.2.1 (by simp [h1]), fun h1 => hb.2.2 (by simp [h1])⟩

theorem idTail_chars {n t : List Char} (ht : IdTail n t) : '\\' ∉ t → ∀ c ∈ t, NameChar c := by
  induction ht with
  | nil => intro _ c hc; cases hc
  | plain h1 h2 ih =>
    intro hb c hc
    rcases List.mem_cons.1 hc with rfl | hc
    · exact h1
    · exact ih (fun h3 => hb (by simp [h3])) c hc
  | esc => intro hb; exact absurd (List.mem_cons_self ..) hb

theorem wideId_chars {n t : List Char} (ht : WideId n t) (hb : '\\' ∉ t) : t ≠ [] ∧ ∀ c ∈ t, Solid c := by
  rcases ht with ⟨h1, h2⟩ | ⟨u, -, rfl⟩
  · refine ⟨by simp, fun c hc => ?_⟩
    rcases List.mem_cons.1 hc with rfl | hc
    · exact .inl (.inl h1)
    · exact .inl (idTail_chars h2 (fun h3 => hb (by simp [h3])) c hc)
  · simp at hb

theorem solid_of {t : List Char} (h1 : t.all (fun c => decide (97 ≤ c.toNat ∧ c.toNat ≤ 122) || c == '-' || c == ':' || c == '*') = true) :
    ∀ c ∈ t, Solid c := by
  intro c hc
  have := List.all_eq_true.1 h1 c hc
  simp only [Bool.or_eq_true, decide_eq_true_eq, beq_iff_eq] at this
  rcases this with ((h2 | rfl) | rfl) | rfl
  · exact .inl (.inl (.inl h2))
  · exact .inl (.inr (.inr rfl))
  · exact .inr (by decide)
  · exact .inr (by decide)

theorem callText_paren {head body t : List Char} (ht : CallText head body t) (hh : '(' ∈ head) : '(' ∈ t := by
  obtain ⟨w, w', -, -, rfl⟩ := ht
  simp [hh]

theorem fits_tidy {p : Part} {t : List Char} (hp : Fits p t) (hb : Bare t) : Tidy (dense t) := by
  have key : t ≠ [] → (∀ c ∈ t, Solid c) → Tidy (dense t) := fun h1 h2 => by
    rw [dense_solid h2]; exact tidy_solid h1 h2
  cases p with
  | all => obtain rfl : t = _ := hp; exact key (by simp) (solid_of (by decide))
  | name n => obtain ⟨h1, h2⟩ := wideId_chars hp hb.2.2; exact key h1 h2
  | cls n =>
    obtain ⟨u, hu, rfl⟩ := hp
    obtain ⟨-, h2⟩ := wideId_chars hu (fun h3 => hb.2.2 (by simp [h3]))
    refine key (by simp) fun c hc => (List.mem_cons.1 hc).elim (fun e => ?_) (h2 c)
    subst e; exact .inr (by decide)
  | id n =>
    obtain ⟨u, hu, rfl⟩ := hp
    obtain ⟨-, h2⟩ := wideId_chars hu (fun h3 => hb.2.2 (by simp [h3]))
    refine key (by simp) fun c hc => (List.mem_cons.1 hc).elim (fun e => ?_) (h2 c)
    subst e; exact .inr (by decide)
  | attr k m v =>
    obtain ⟨-, w, w', b, w'', -, -, -, -, rfl⟩ := hp
    exact absurd (List.mem_cons_self ..) hb.1
  | nth last ofType n index =>
    obtain ⟨b, -, hc⟩ := hp
    exact absurd (callText_paren hc (by cases last <;> cases ofType <;> decide)) hb.2.1
  | edge last ofType =>
    obtain rfl : t = _ := hp
    cases last <;> cases ofType <;> exact key (by decide) (solid_of (by decide))
  | only ofType =>
    obtain rfl : t = _ := hp
    cases ofType <;> exact key (by decide) (solid_of (by decide))
  | contains b => exact absurd (callText_paren hp.2 (by decide)) hb.2.1
  | not u => exact absurd (callText_paren hp (by decide)) hb.2.1
  | has u => exact absurd (callText_paren hp (by decide)) hb.2.1
  | root | empty | checked | header | input | submit =>
    obtain rfl : t = _ := hp; exact key (by simp) (solid_of (by decide))

theorem combChar_oper {c : Comb} {x : Char} (hc : combChar c = some x) : Oper x ∧ x ≠ ',' := by
  cases c <;> simp [combChar] at hc <;> subst hc <;> decide

theorem oper_dense {x : Char} (hx : Oper x) : isUnicodeWs x = false := by
  simp only [Oper, List.mem_cons, List.not_mem_nil, or_false] at hx
  rcases hx with rfl | rfl | rfl | rfl <;> decide

theorem dense_sep {w w' : List Char} {x : Char} (hw : White w) (hw' : White w') (hx : Oper x) : dense (w ++ x :: w') = [x] := by
  have : w ++ x :: w' = w ++ ([x] ++ w') := by simp
  rw [this, dense_append, dense_append, dense_white hw, dense_white hw']
  simp [dense, oper_dense hx]

theorem wideComb_dense {c : Comb} {w : List Char} (hw : WideComb c w) : dense w = [] ∨ ∃ x, Oper x ∧ x ≠ ',' ∧ dense w = [x] := by
  cases hw with
  | desc _ h2 => exact .inl (dense_white h2)
  | sign h1 h2 h3 => exact .inr ⟨_, (combChar_oper h1).1, (combChar_oper h1).2, dense_sep h2 h3 (combChar_oper h1).1⟩

theorem cmpdOf_tidy {c : Comb} {l : List (Part × Comb)} {t : List Char} (hl : CmpdOf c l t) : Bare t → Tidy (dense t) := by
  induction hl with
  | one h1 => exact fits_tidy h1
  | more h1 h2 ih => intro hb; rw [dense_append]; exact (ih hb.left).append (fits_tidy h2 hb.right)

theorem cplxOf_tidy {c : Comb} {g : List (List (Part × Comb))} {t : List Char} (hl : CplxOf c g t) : Bare t → Tidy (dense t) := by
  induction hl with
  | one h1 => exact cmpdOf_tidy h1
  | more h1 h2 h3 ih =>
    intro hb
    rw [dense_append, dense_append]
    have h5 := ih hb.left
    have h6 := cmpdOf_tidy h3 hb.right.right
    rcases wideComb_dense h2 with h4 | ⟨x, hx, -, h4⟩
    · rw [h4, List.nil_append]; exact h5.append h6
    · rw [h4]; exact h5.sep h6 hx

theorem listOf_tidy {c : Comb} {g : PGroups} {t : List Char} (hl : ListOf c g t) : Bare t → Tidy (dense t) := by
  induction hl with
  | one h1 => exact cplxOf_tidy h1
  | more h1 h2 h3 ih =>
    intro hb
    obtain ⟨w, w', hw, hw', rfl⟩ := h2
    rw [dense_append, dense_append, dense_sep hw hw' (by decide : Oper ',')]
    exact (ih hb.left).sep (cplxOf_tidy h3 hb.right.right) (by decide)

/-- C66: what is accepted without brackets, parentheses and escapes consists of white space, of characters of names, of
`. # : *` and of the separators `> , ~ +`; no two separators follow each other, also with white space between them; the
text does not begin with a comma and does not end with a separator. -/
theorem C66_plain {text : List Char} {gs : PGroups} (he : parseGroups text = .ok (.ok gs)) (hb : Bare text) :
    (∀ c ∈ text, WhiteSpace c ∨ Solid c ∨ Oper c) ∧
    (∀ s w r x y, text = s ++ x :: (w ++ y :: r) → White w → ¬ (Oper x ∧ Oper y)) ∧
    (∀ w r, text = w ++ ',' :: r → ¬ White w) ∧
    (∀ s x w, text = s ++ x :: w → White w → ¬ Oper x) := by
  have hmain : text = [] ∨ ((∀ c ∈ dense text, Solid c ∨ Oper c) ∧ (dense text).IsChain Apart ∧
      (dense text).head? ≠ some ',' ∧ ∃ l c, dense text = l ++ [c] ∧ Solid c) := by
    rcases C66_accepted he with ⟨h0, -⟩ | ⟨c, a, t, w, hlead, hl, hw, rfl⟩
    · exact .inl h0
    · refine .inr ?_
      have ht := listOf_tidy hl hb.right.left
      rw [dense_append, dense_append, dense_white hw, List.append_nil]
      obtain ⟨c0, l0, e0, hc0⟩ := ht.first
      have hcomma : c0 ≠ ',' := by
        rintro rfl
        exact (solid_char hc0).1 (by decide)
      have ha : dense a = [] ∨ ∃ x, Oper x ∧ x ≠ ',' ∧ dense a = [x] := by
        rcases hlead with ⟨-, rfl⟩ | h1
        · exact .inl rfl
        · exact wideComb_dense h1
      rcases ha with h1 | ⟨x, hx, hxc, h1⟩
      · rw [h1, List.nil_append]
        exact ⟨ht.chars, ht.apart, by rw [e0]; simpa using hcomma, ht.last⟩
      · rw [h1]
        refine ⟨?_, ?_, by simpa using hxc, ?_⟩
        · intro y hy
          simp only [List.mem_append, List.mem_singleton] at hy
          rcases hy with rfl | hy
          · exact .inr hx
          · exact ht.chars y hy
        · rw [List.isChain_append]
          refine ⟨.singleton _, ht.apart, fun p hp q hq hpq => ?_⟩
          rw [e0] at hq
          simp only [List.head?_cons, Option.mem_some_iff] at hq
          subst hq
          exact (solid_char hc0).1 hpq.2
        · obtain ⟨l, c', e, hc⟩ := ht.last
          exact ⟨[x] ++ l, c', by rw [e, List.append_assoc], hc⟩
  have hcons : ∀ {x : Char}, Oper x → ∀ l, dense (x :: l) = x :: dense l := by
    intro x hx l; simp [dense, oper_dense hx]
  rcases hmain with rfl | ⟨h1, h2, h3, h4⟩
  · refine ⟨by simp, ?_, ?_, ?_⟩
    · intro s w r x y hh; simp at hh
    · intro w r hh; simp at hh
    · intro s x w hh; simp at hh
  · refine ⟨fun c hc => ?_, ?_, ?_, ?_⟩
    · by_cases hwc : isUnicodeWs c = true
      · exact .inl (wsTable_iff.1 hwc)
      · exact .inr (h1 c (by simp [dense, hc, hwc]))
    · rintro s w r x y rfl hw ⟨hx, hy⟩
      rw [dense_append, hcons hx, dense_append, dense_white hw, List.nil_append, hcons hy] at h2
      rw [List.isChain_append, List.isChain_cons_cons] at h2
      exact h2.2.1.1 ⟨hx, hy⟩
    · rintro w r rfl hw
      rw [dense_append, dense_white hw, hcons (by decide : Oper ',')] at h3
      simp at h3
    · rintro s x w rfl hw hx
      obtain ⟨l, c, e, hc⟩ := h4
      rw [dense_append, hcons hx, dense_white hw] at e
      have := congrArg List.getLast? e
      simp at this
      subst this
      exact (solid_char hc).1 hx

/-- The hypotheses are met by a selector with all separators. -/
example : (∃ gs, parseGroups ">a .b> c ~d,#e+f:empty ".toList = .ok (.ok gs)) ∧ Bare ">a .b> c ~d,#e+f:empty ".toList := by
  refine ⟨⟨_, rfl⟩, ?_⟩
  simp [Bare]

/-- C66: hence texts with a dangling or doubled separator or a foreign character are refused. -/
theorem C66_malformed {text : List Char} (hb : Bare text) (hd : text.getLast? ≠ some '.') (hh : text.getLast? ≠ some '#')
    (hm : (∃ c ∈ text, ¬ WhiteSpace c ∧ ¬ Solid c ∧ ¬ Oper c) ∨
      (∃ s w r x y, text = s ++ x :: (w ++ y :: r) ∧ White w ∧ Oper x ∧ Oper y) ∨
      (∃ w r, text = w ++ ',' :: r ∧ White w) ∨ (∃ s x w, text = s ++ x :: w ∧ White w ∧ Oper x)) : Refused text := by
  obtain ⟨r, hr⟩ := C30_plain_partial hb.2.1 hd hh (fun h1 => absurd h1 hb.1)
  cases r with
  | error e => exact ⟨e, hr⟩
  | ok gs =>
    exfalso
    obtain ⟨h1, h2, h3, h4⟩ := C66_plain hr hb
    rcases hm with ⟨c, hc, h5, h6, h7⟩ | ⟨s, w, r, x, y, h5, h6, h7, h8⟩ | ⟨w, r, h5, h6⟩ | ⟨s, x, w, h5, h6, h7⟩
    · rcases h1 c hc with h8 | h8 | h8
      · exact h5 h8
      · exact h6 h8
      · exact h7 h8
    · exact h2 _ _ _ _ _ h5 h6 ⟨h7, h8⟩
    · exact h3 _ _ h5 h6
    · exact h4 _ _ _ h5 h6 h7

/-- `p >`, `p > > a`, `, p` and `p & a` are refused. -/
example : Refused "p >".toList ∧ Refused "p > > a".toList ∧ Refused ", p".toList ∧ Refused "p & a".toList := by
  have hb : ∀ t : List Char, t.all (fun c => !(c == '[' || c == '(' || c == '\\')) = true → Bare t := by
    intro t ht
    have := List.all_eq_true.1 ht
    exact ⟨fun h1 => by simpa using this _ h1, fun h1 => by simpa using this _ h1, fun h1 => by simpa using this _ h1⟩
  refine ⟨C66_malformed (hb _ (by decide)) (by decide) (by decide) (.inr (.inr (.inr ⟨['p', ' '], '>', [], rfl, by simp [White], by decide⟩))),
    C66_malformed (hb _ (by decide)) (by decide) (by decide)
      (.inr (.inl ⟨['p', ' '], [' '], [' ', 'a'], '>', '>', rfl, by simp [White]; decide, by decide, by decide⟩)),
    C66_malformed (hb _ (by decide)) (by decide) (by decide) (.inr (.inr (.inl ⟨[], [' ', 'p'], rfl, by simp [White]⟩))),
    C66_malformed (hb _ (by decide)) (by decide) (by decide) (.inl ⟨'&', by decide, by decide, ?_, by decide⟩)⟩
  simp [Solid, NameChar, NameStart, Digit]

end Visdom
