import Verif.Model.Values
import Verif.Props.Classes
import Verif.Props.Value
/-!
# C61: reading attribute values and form values
-/
namespace Visdom
open Spec

/-- The first and the last character that are not ASCII white space are no other white space either. -/
def OrdinaryEnds (v : List Char) : Prop :=
  (∀ A c B, v = A ++ c :: B → (∀ a ∈ A, IsSpace a) → ¬ ExoticSpace c) ∧ ∀ A c B, v = A ++ c :: B → (∀ b ∈ B, IsSpace b) → ¬ ExoticSpace c

theorem unicodeWs_iff (c : Char) : isUnicodeWs c = true ↔ IsSpace c ∨ ExoticSpace c := by
  simp only [isUnicodeWs, Bool.or_eq_true, Bool.and_eq_true, decide_eq_true_eq, beq_iff_eq, IsSpace, ExoticSpace]
  omega

theorem dropWhile_ordinary {v : List Char} (hv : ∀ A c B, v = A ++ c :: B → (∀ a ∈ A, IsSpace a) → ¬ ExoticSpace c) :
    v.dropWhile isUnicodeWs = v.dropWhile isAsciiWs := by
  induction v with
  | nil => rfl
  | cons c v ih =>
    by_cases hc : IsSpace c
    · rw [List.dropWhile_cons_of_pos ((unicodeWs_iff c).2 (.inl hc)), List.dropWhile_cons_of_pos ((isAsciiWs_iff c).2 hc)]
      refine ih fun A d B he hA => hv (c :: A) d B (by rw [he]; rfl) ?_
      simp only [List.mem_cons, forall_eq_or_imp]
      exact ⟨hc, hA⟩
    · have h1 := hv [] c v rfl (by simp)
      rw [List.dropWhile_cons_of_neg (by rw [unicodeWs_iff]; simp [hc, h1]), List.dropWhile_cons_of_neg (by rw [isAsciiWs_iff]; exact hc)]

theorem cutWs_ne (s : List Char) : cutWs s ≠ [] := by
  cases s with
  | nil => simp [cutWs]
  | cons c s => rw [cutWs]; split; · simp
                split <;> simp

theorem splitWs_space {c : Char} (hc : IsSpace c) (s : List Char) : splitAsciiWs (c :: s) = splitAsciiWs s := by
  rw [splitAsciiWs, cutWs, if_pos ((isAsciiWs_iff c).2 hc)]
  simp [splitAsciiWs]

theorem cutWs_snoc {c : Char} (hc : IsSpace c) (s : List Char) : cutWs (s ++ [c]) = cutWs s ++ [[]] := by
  induction s with
  | nil => simp [cutWs, (isAsciiWs_iff c).2 hc]
  | cons d s ih =>
    rw [List.cons_append, cutWs, cutWs, ih]
    split
    · rfl
    · cases h : cutWs s with
      | nil => exact absurd h (cutWs_ne s)
      | cons p ps => rfl

theorem splitWs_snoc {c : Char} (hc : IsSpace c) (s : List Char) : splitAsciiWs (s ++ [c]) = splitAsciiWs s := by
  rw [splitAsciiWs, cutWs_snoc hc]
  simp [splitAsciiWs]

theorem splitWs_dropWhile (s : List Char) : splitAsciiWs (s.dropWhile isAsciiWs) = splitAsciiWs s := by
  induction s with
  | nil => rfl
  | cons c s ih =>
    by_cases hc : IsSpace c
    · rw [List.dropWhile_cons_of_pos ((isAsciiWs_iff c).2 hc), ih, splitWs_space hc]
    · rw [List.dropWhile_cons_of_neg (by rw [isAsciiWs_iff]; exact hc)]

theorem splitWs_dropEnd (s : List Char) : splitAsciiWs (s.dropWhile isAsciiWs).reverse = splitAsciiWs s.reverse := by
  induction s with
  | nil => rfl
  | cons c s ih =>
    by_cases hc : IsSpace c
    · rw [List.dropWhile_cons_of_pos ((isAsciiWs_iff c).2 hc), ih, List.reverse_cons, splitWs_snoc hc]
    · rw [List.dropWhile_cons_of_neg (by rw [isAsciiWs_iff]; exact hc)]

theorem splitWs_trim {v : List Char} (hv : OrdinaryEnds v) : splitAsciiWs (trim v) = splitAsciiWs v := by
  rw [trim, dropWhile_ordinary hv.1, dropWhile_ordinary, splitWs_dropEnd, List.reverse_reverse, splitWs_dropWhile]
  intro A c B he hA
  have h1 : v.dropWhile isAsciiWs = B.reverse ++ c :: A.reverse := by
    rw [← List.reverse_reverse (v.dropWhile isAsciiWs), he]; simp
  obtain ⟨w, hw⟩ := List.dropWhile_suffix isAsciiWs (l := v)
  refine hv.2 (w ++ B.reverse) c A.reverse (by rw [← hw, h1, List.append_assoc]) (by simpa using hA)

theorem cutWs_token {t rest : List Char} (ht : ∀ c ∈ t, ¬ IsSpace c) {ps : List (List Char)} (hr : cutWs rest = [] :: ps) :
    cutWs (t ++ rest) = t :: ps := by
  induction t with
  | nil => exact hr
  | cons c t ih =>
    rw [List.cons_append, cutWs, if_neg (by rw [isAsciiWs_iff]; exact ht c (by simp)), ih fun d hd => ht d (by simp [hd])]

theorem splitWs_tokens {s : List Char} {l : List (List Char)} (ht : Tokens s l) : splitAsciiWs s = l := by
  have blank : ∀ (g s : List Char), (∀ c ∈ g, IsSpace c) → splitAsciiWs (g ++ s) = splitAsciiWs s := by
    intro g s hg
    induction g with
    | nil => rfl
    | cons c g ih =>
      rw [List.cons_append, splitWs_space (hg c (by simp)), ih fun d hd => hg d (by simp [hd])]
  induction ht with
  | blank g hg => have := blank g [] hg; rw [List.append_nil] at this; rw [this]; rfl
  | token g t rest l hg ht hr _ ih =>
    rw [List.append_assoc, blank _ _ hg]
    obtain ⟨ps, hps⟩ : ∃ ps, cutWs rest = [] :: ps := by
      cases rest with
      | nil => exact ⟨_, rfl⟩
      | cons c rest => rw [cutWs, if_pos ((isAsciiWs_iff c).2 (hr c rfl))]; exact ⟨_, rfl⟩
    rw [splitAsciiWs, hps] at ih
    rw [splitAsciiWs, cutWs_token ht.2 hps]
    simp only [List.isEmpty_nil, Bool.not_true, Bool.false_eq_true, not_false_eq_true, List.filter_cons_of_neg] at ih
    rw [List.filter_cons_of_pos (by simp [ht.1]), ih]

/-- C61: `is_str(s)` holds exactly when `to_string()` is `s`; `is_true()` exactly for an attribute without value, whose text is
empty and whose list is empty. -/
theorem C61_is_str (v : AttrValue) (s : List Char) :
    (v.isStr s = true ↔ v.text = s) ∧ (v.isTrue = true ↔ seen (some v) = some none) ∧ (v.isTrue = true → v.text = [] ∧ v.toList = []) := by
  cases v with
  | value w q => simp [AttrValue.isStr, AttrValue.text, AttrValue.isTrue, seen]
  | tru => exact ⟨by rw [AttrValue.isStr, AttrValue.text, List.isEmpty_iff]; exact eq_comm, by simp [AttrValue.isTrue, seen], fun _ => ⟨rfl, rfl⟩⟩

/-- C61, the part that holds: `to_list` gives the words of the value. Missing: values that begin or end with other white space than
ASCII (`C61_fails_exotic`). -/
theorem C61_to_list_partial {v : AttrValue} (hv : OrdinaryEnds v.text) {l : List (List Char)} (hl : Tokens v.text l) : v.toList = l := by
  cases v with
  | value w q => exact (splitWs_trim hv).trans (splitWs_tokens hl)
  | tru => exact (tokens_nil hl).symm

/-- C61, the part that holds: for the class attribute `to_list` lists exactly the classes that the class methods and selectors see. -/
theorem C61_class_list_partial {m : Meta} {v : AttrValue} (hg : getAttribute m classKey = .ok (some v)) (hv : OrdinaryEnds v.text)
    {l : List (List Char)} : v.toList = l ↔ ClassList (viewOf m) l := by
  have hs : viewOf m ['c', 'l', 'a', 's', 's'] = seen (some v) := by rw [viewOf, show (['c', 'l', 'a', 's', 's'] : List Char) = classKey from rfl, hg]
  rw [ClassList, hs]
  cases v with
  | tru => simp [seen, AttrValue.toList, eq_comm]
  | value w q =>
    simp only [seen]
    constructor
    · rintro rfl
      obtain ⟨l, hl⟩ := tokens_exists w
      rw [C61_to_list_partial hv (v := .value w q) hl]
      exact hl
    · exact C61_to_list_partial (v := .value w q) hv

theorem ordinary_plain {v : List Char} (hv : ∀ c ∈ v, ¬ ExoticSpace c) : OrdinaryEnds v :=
  ⟨fun A c B he _ => hv c (by simp [he]), fun A c B he _ => hv c (by simp [he])⟩

example : (AttrValue.value " a  b\t".toList none).toList = [['a'], ['b']] :=
  C61_to_list_partial (ordinary_plain (by unfold ExoticSpace; decide)) (tokens_iff.2 (by decide))

/-- `class="a b"` and `class="c"` as an attribute without quotes. -/
example : ∃ v, getAttribute (classMeta "a b") classKey = .ok (some v) ∧ OrdinaryEnds v.text ∧ v.toList = ["a".toList, "b".toList] :=
  ⟨_, rfl, ordinary_plain (by unfold ExoticSpace; decide), by decide⟩

/-- C61 does not hold in full: a no-break space at the start belongs to the first class for the class methods, but `to_list` drops
it; inside it stays. -/
theorem C61_fails_exotic : ∃ v, getAttribute (classMeta "\u00a0a\u00a0b") classKey = .ok (some v) ∧ v.toList = ["a\u00a0b".toList] ∧
    ClassList (viewOf (classMeta "\u00a0a\u00a0b")) ["\u00a0a\u00a0b".toList] :=
  ⟨_, rfl, by decide, by
    show Tokens _ _
    exact tokens_iff.2 (by decide)⟩

theorem joinWith_eq (sep : List Char) (vs : List (List Char)) : joinWith sep vs = sep.intercalate vs := by
  induction vs with
  | nil => simp [joinWith, List.intercalate]
  | cons v vs ih =>
    cases vs with
    | nil => simp [joinWith, List.intercalate]
    | cons w vs => rw [show joinWith sep (v :: w :: vs) = v ++ sep ++ joinWith sep (w :: vs) from rfl, ih]; simp [List.intercalate]

theorem join_inj {c : Char} : ∀ {vs ws : List (List Char)}, (∀ v ∈ vs, c ∉ v) → (∀ w ∈ ws, c ∉ w) → vs ≠ [] → ws ≠ [] →
    joinWith [c] vs = joinWith [c] ws → vs = ws := by
  have key : ∀ {a b x y : List Char}, c ∉ a → c ∉ b → a ++ c :: x = b ++ c :: y → a = b ∧ x = y := by
    intro a
    induction a with
    | nil =>
      intro b x y _ hb he
      cases b with
      | nil => simpa using he
      | cons d b => simp at he; exact absurd he.1 (by rintro rfl; simp at hb)
    | cons d a ih =>
      intro b x y ha hb he
      cases b with
      | nil => simp at he; exact absurd he.1 (by rintro rfl; simp at ha)
      | cons d' b =>
        simp only [List.cons_append, List.cons.injEq] at he
        obtain ⟨rfl, he⟩ := he
        have := ih (by simp at ha; exact ha.2) (by simp at hb; exact hb.2) he
        exact ⟨by rw [this.1], this.2⟩
  intro vs
  induction vs with
  | nil => intro ws _ _ h; exact absurd rfl h
  | cons v vs ih =>
    intro ws hv hw _ hn he
    cases ws with
    | nil => exact absurd rfl hn
    | cons w ws =>
      have hv1 := hv v (by simp)
      have hw1 := hw w (by simp)
      cases vs with
      | nil =>
        cases ws with
        | nil => simpa [joinWith] using he
        | cons w' ws =>
          simp only [joinWith] at he
          exact absurd (he ▸ hv1) (by simp)
      | cons v' vs =>
        cases ws with
        | nil =>
          simp only [joinWith] at he
          exact absurd (he ▸ hw1) (by simp)
        | cons w' ws =>
          simp only [joinWith, List.append_assoc, List.singleton_append] at he
          obtain ⟨rfl, h2⟩ := key hv1 hw1 he
          rw [ih (fun x hx => hv x (by simp [hx])) (fun x hx => hw x (by simp [hx])) (by simp) (by simp) h2]

/-- C61: the text of a form value with several values is the values with commas between them; iterating gives the values; and the
values can be read back from the text if there are any and none has a comma. -/
theorem C61_multiple (vs : List (List Char)) : (FormValue.multiple vs).text = [','].intercalate vs ∧ (FormValue.multiple vs).items = vs ∧
    ((∀ v ∈ vs, ',' ∉ v) → vs ≠ [] → ∀ ws, (∀ w ∈ ws, ',' ∉ w) → ws ≠ [] → (FormValue.multiple ws).text = (FormValue.multiple vs).text → ws = vs) :=
  ⟨joinWith_eq _ _, rfl, fun h1 h2 _ h3 h4 he => join_inj h3 h1 h4 h2 he⟩

example : (FormValue.multiple ["a".toList, "b".toList]).text = "a,b".toList := by decide

/-- C61 does not hold in full: iterating over a single value gives nothing, so `val()` of an `input` or of a simple `select` has a
text but no items. -/
theorem C61_fails_single : valOf selects (fun _ => []) [15] = .ok (.single "i".toList) ∧
    (FormValue.single "i".toList).text = "i".toList ∧ (FormValue.single "i".toList).items = [] := by decide

end Visdom
