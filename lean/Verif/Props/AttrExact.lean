import Verif.Props.Attributes
import Verif.Props.Values
/-!
# C57 and C61, exactly

The names listed after any history, also with removals under names with capital letters; and exactly when `to_list` gives the words of a value.
-/
namespace Visdom
open Spec Classical

/-- The listed names as the library keeps them: a removal under a name with a capital letter leaves the name in the list. -/
noncomputable def Spec.AttrOp.kept (l : List (List Char)) : AttrOp → List (List Char)
  | .set n v => AttrOp.names l (.set n v)
  | .remove n => if NoCapital n then AttrOp.names l (.remove n) else l

theorem names_remove_capital {m m' : Meta} (wf : MetaWF m) (n : List Char) (wf' : MetaWF m') (hn : lowerStr n ≠ n)
    (hs : removeAttribute m n = .ok m') : names m' = names m := by
  unfold removeAttribute at hs
  cases hg : mapGet m.lcMap (lowerStr n) with
  | none =>
    rw [hg] at hs
    rw [Except.ok.inj hs]
  | some i =>
    rw [hg] at hs
    simp only [if_pos (wf.range _ _ hg), Except.ok.injEq] at hs
    have hget : ∀ k, mapGet m'.lcMap k = mapGet m.lcMap k := by
      subst hs
      intro k
      simp only [mapGet_remove]
      split
      · next hk =>
        subst hk
        cases hnone : mapGet m.lcMap n with
        | none => rfl
        | some j => exact absurd (wf.lower _ _ hnone) hn
      · rfl
    have hlen : m'.attrs.length = m.attrs.length := by subst hs; simp
    unfold names
    rw [hlen]
    refine filterMap_same fun j _ => Option.ext fun k => ?_
    rw [nameAt_iff wf', hget, nameAt_iff wf]

/-- C57 for every history: what `get_attributes` lists, and in which order. -/
theorem C57_any (x : AttrExt) (m : Meta) (wf : MetaWF m) (ops : List AttrOp) :
    ∃ m' l l', runAttrOps x m ops = .ok m' ∧ MetaWF m' ∧ getAttributes m = .ok l ∧ getAttributes m' = .ok l' ∧
      l'.map (·.1) = ops.foldl AttrOp.kept (l.map (·.1)) := by
  obtain ⟨l, h1, h2, -⟩ := getAttributes_eq wf
  suffices hs : ∃ m', runAttrOps x m ops = .ok m' ∧ MetaWF m' ∧ names m' = ops.foldl AttrOp.kept (names m) by
    obtain ⟨m', a, b, c⟩ := hs
    obtain ⟨l', g1, g2, -⟩ := getAttributes_eq b
    exact ⟨m', l, l', a, b, h1, g1, by rw [g2, h2, c]⟩
  clear h1 h2 l
  induction ops generalizing m with
  | nil => exact ⟨m, rfl, wf, rfl⟩
  | cons op ops ih =>
    obtain ⟨m', a, b, c⟩ : ∃ m', runAttrOp x m op = .ok m' ∧ MetaWF m' ∧ names m' = AttrOp.kept (names m) op := by
      by_cases hcap : ∀ n, op = .remove n → NoCapital n
      · obtain ⟨m', l, l', k1, k2, k3, k4, k5⟩ := C57_order_partial x m wf [op] (by
          intro n hn
          exact hcap n (List.mem_singleton.1 hn).symm)
        have e1 := getAttributes_eq wf
        have e2 := getAttributes_eq k2
        obtain ⟨l1, e3, e4, _⟩ := e1
        obtain ⟨l2, e5, e6, _⟩ := e2
        rw [k3] at e3; rw [k4] at e5
        cases e3; cases e5
        refine ⟨m', ?_, k2, ?_⟩
        · cases hr : runAttrOp x m op with
          | error e => simp [runAttrOps, hr] at k1
          | ok m1 => simpa [runAttrOps, hr] using k1
        · rw [← e6, k5, e4]
          cases op with
          | set n v => rfl
          | remove n => simp [AttrOp.kept, hcap n rfl]
      · push Not at hcap
        obtain ⟨n, rfl, hn⟩ := hcap
        obtain ⟨m', a, b, -⟩ := removeAttribute_spec wf n
        refine ⟨m', a, b, ?_⟩
        rw [names_remove_capital wf n b (fun he => hn ((lowerStr_eq_self_iff _).1 he)) a, AttrOp.kept, if_neg hn]
    obtain ⟨m'', a', b', c'⟩ := ih m' b
    refine ⟨m'', by simp [runAttrOps, a, a'], b', ?_⟩
    rw [c', c, List.foldl_cons]

example : ∃ m', runAttrOps quoteEnc (classMeta "a b") [.set "ID".toList (some "x".toList), .remove "Class".toList, .remove "id".toList,
      .set "class".toList (some "y".toList)] = .ok m' ∧
    getAttributes m' = .ok [("class".toList, .value "y".toList none)] := ⟨_, rfl, by decide⟩

theorem cutWs_flatten (s : List Char) : (cutWs s).flatten = s.filter fun c => !isAsciiWs c := by
  induction s with
  | nil => simp [cutWs]
  | cons c s ih =>
    rw [cutWs]
    by_cases hc : isAsciiWs c = true
    · simp [hc, ih]
    · rw [if_neg hc]
      cases h : cutWs s with
      | nil => exact absurd h (cutWs_ne s)
      | cons p ps =>
        rw [h] at ih
        simp only [List.flatten_cons] at ih
        simp [hc, ← ih]

theorem flatten_filter_ne {l : List (List Char)} : (l.filter fun p => !p.isEmpty).flatten = l.flatten := by
  induction l with
  | nil => rfl
  | cons a l ih =>
    cases a with
    | nil => simp [ih]
    | cons c a => simp [ih]

theorem splitWs_flatten (s : List Char) : (splitAsciiWs s).flatten = s.filter fun c => !isAsciiWs c := by
  rw [splitAsciiWs, flatten_filter_ne, cutWs_flatten]

/-- What `trim` takes away. -/
theorem trim_parts (v : List Char) : ∃ P Q, v = P ++ trim v ++ Q ∧ P = v.takeWhile isUnicodeWs ∧
    Q.reverse = (v.dropWhile isUnicodeWs).reverse.takeWhile isUnicodeWs := by
  refine ⟨v.takeWhile isUnicodeWs, ((v.dropWhile isUnicodeWs).reverse.takeWhile isUnicodeWs).reverse, ?_, rfl, by simp⟩
  rw [trim, List.append_assoc, ← List.reverse_append, List.takeWhile_append_dropWhile, List.reverse_reverse, List.takeWhile_append_dropWhile]

theorem mem_takeWhile_of {p : Char → Bool} {A B : List Char} {c : Char} (hA : ∀ a ∈ A, p a = true) (hc : p c = true) :
    c ∈ (A ++ c :: B).takeWhile p := by
  rw [List.takeWhile_append_of_pos hA, List.takeWhile_cons_of_pos hc]
  simp

theorem exotic_not_ascii {c : Char} (hc : ExoticSpace c) : isAsciiWs c = false := by
  rw [Bool.eq_false_iff, Ne, isAsciiWs_iff]
  intro hs
  simp only [IsSpace, ExoticSpace] at hs hc
  omega

/-- C61, exactly: `to_list` gives the words of the value if and only if the value does not begin or end, apart from ASCII white space, with
other white space. -/
theorem C61_to_list_exact {v : AttrValue} {l : List (List Char)} (hl : Tokens v.text l) : v.toList = l ↔ OrdinaryEnds v.text := by
  refine ⟨fun he => ?_, fun hv => C61_to_list_partial hv hl⟩
  cases v with
  | tru => constructor <;> intro A c B hh <;> simp [AttrValue.text] at hh
  | value w q =>
    have he : splitAsciiWs (trim w) = l := he
    have hl : Tokens w l := hl
    have hfl := congrArg List.flatten (he.trans (splitWs_tokens hl).symm)
    rw [splitWs_flatten, splitWs_flatten] at hfl
    obtain ⟨P, Q, h1, h2, h3⟩ := trim_parts w
    have hlen := congrArg List.length hfl
    rw [h1] at hlen
    have htt : trim (P ++ trim w ++ Q) = trim w := by rw [← h1]
    rw [htt] at hlen
    simp only [List.filter_append, List.length_append] at hlen
    have hP : P.filter (fun c => !isAsciiWs c) = [] := List.length_eq_zero_iff.1 (by omega)
    have hQ : Q.filter (fun c => !isAsciiWs c) = [] := List.length_eq_zero_iff.1 (by omega)
    rw [List.filter_eq_nil_iff] at hP hQ
    constructor
    · intro A c B hw hA hc
      have hw : w = A ++ c :: B := hw
      have : c ∈ P := by
        rw [h2, hw]
        exact mem_takeWhile_of (fun a ha => (unicodeWs_iff a).2 (.inl (hA a ha))) ((unicodeWs_iff c).2 (.inr hc))
      exact hP c this (by simp [exotic_not_ascii hc])
    · intro A c B hw' hB hc
      have hw : w = A ++ c :: B := hw'
      clear hw'
      -- either everything before is white space too, or the end of the rest is the end of the whole
      by_cases hall : ∀ a ∈ A, isUnicodeWs a = true
      · have : c ∈ P := by
          rw [h2, hw]
          exact mem_takeWhile_of hall ((unicodeWs_iff c).2 (.inr hc))
        exact hP c this (by simp [exotic_not_ascii hc])
      · have hdrop : ∃ A', w.dropWhile isUnicodeWs = A' ++ c :: B := by
          rw [hw]
          clear hw h1 h2 h3 hP hQ htt hlen hfl he hl
          induction A with
          | nil => exact absurd (by simp) hall
          | cons a A ih =>
            by_cases ha : isUnicodeWs a = true
            · rw [List.cons_append, List.dropWhile_cons_of_pos ha]
              exact ih fun hA => hall (by simpa [ha] using hA)
            · rw [List.cons_append, List.dropWhile_cons_of_neg ha]
              exact ⟨a :: A, rfl⟩
        obtain ⟨A', hd⟩ := hdrop
        have : c ∈ Q.reverse := by
          rw [h3, hd, List.reverse_append, List.reverse_cons, List.append_assoc]
          exact mem_takeWhile_of (fun a ha => (unicodeWs_iff a).2 (.inl (hB a (List.mem_reverse.1 ha)))) ((unicodeWs_iff c).2 (.inr hc))
        exact hQ c (List.mem_reverse.1 this) (by simp [exotic_not_ascii hc])

example : Tokens "\u00a0a b".toList ["\u00a0a".toList, "b".toList] ∧
    AttrValue.toList (.value "\u00a0a b".toList none) = ["a".toList, "b".toList] ∧
    AttrValue.toList (.value "a\u00a0b c".toList none) = ["a\u00a0b".toList, "c".toList] :=
  ⟨tokens_iff.2 (by decide), by decide, by decide⟩

end Visdom
