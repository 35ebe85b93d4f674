import Verif.Props.Attr
/-!
# C09: when the value of an attribute is written with quotes

`need_quote` is the flag by which the writer puts a value without quotes between quotes.
-/
namespace Visdom
open Spec

theorem scan_need (x : AttrExt) (v : List Char) (s : QuoteLoop) :
    (v.foldl (quoteStep x) s).needQuote = (s.needQuote || v.any x.needQuoted) := by
  induction v generalizing s with
  | nil => simp
  | cons c v ih =>
    rw [List.foldl_cons, ih]
    have : (quoteStep x s c).needQuote = (s.needQuote || x.needQuoted c) := by
      unfold quoteStep
      cases hn : s.needQuote <;> simp only [Bool.false_eq_true, if_false, if_true] <;> repeat' split
      all_goals simp_all
    rw [this, List.any_cons, Bool.or_assoc]

/-- **C09**: an attribute made by `set_attr` is written with quotes exactly if some character of its value asks for it,
wherever in the value it is. -/
theorem C09_need_quote (x : AttrExt) (m : Meta) (wf : MetaWF m) (n v : List Char) (hnew : viewOf m n = none) :
    ∃ m' a, setAttribute x m n (some v) = .ok m' ∧ m'.attrs = m.attrs ++ [a] ∧ a.key = some n ∧
      (a.needQuote = true ↔ ∃ c ∈ v, x.needQuoted c = true) := by
  have hg : mapGet m.lcMap (lowerStr n) = none := by
    rw [viewOf_eq wf] at hnew
    cases hg : mapGet m.lcMap (lowerStr n) with
    | none => rfl
    | some i =>
      have := wf.range _ _ hg
      simp [hg, List.getElem?_eq_getElem this] at hnew
  refine ⟨_, _, by simp only [setAttribute, hg]; rfl, rfl, rfl, ?_⟩
  simp [quoteScan, scan_need]

/-- The attribute that exists keeps its flag, and its quote: a value that asks for quotes is written without them. -/
theorem C09_need_quote_kept (x : AttrExt) (m m' : Meta) (n : List Char) (v : Option (List Char)) (i : Nat) (a : Attr)
    (hi : mapGet m.lcMap (lowerStr n) = some i) (ha : m.attrs[i]? = some a) (hs : setAttribute x m n v = .ok m') :
    ∃ a', m'.attrs[i]? = some a' ∧ a'.needQuote = a.needQuote ∧ a'.quote = a.quote ∧ a'.key = a.key := by
  simp only [setAttribute, hi, ha, Except.ok.injEq] at hs
  subst hs
  obtain ⟨hlt, _⟩ := List.getElem?_eq_some_iff.1 ha
  refine ⟨{ a with value := (v.map (quoteScan x)).map (·.content) }, by simp only [List.getElem?_set, hlt, if_true], rfl, rfl, rfl⟩

/-- Space in the middle of the value. -/
def spaceExt : AttrExt where
  needQuoted c := c == ' '
  enc _ := none

example : MetaWF {} ∧ viewOf {} "a".toList = none ∧
    (∃ m', setAttribute spaceExt {} "a".toList (some "b c".toList) = .ok m' ∧ m'.attrs.map (·.needQuote) = [true]) ∧
    ∃ m', setAttribute spaceExt {} "a".toList (some "bc".toList) = .ok m' ∧ m'.attrs.map (·.needQuote) = [false] :=
  ⟨metaWF_empty, by decide, ⟨_, rfl, by decide⟩, ⟨_, rfl, by decide⟩⟩

end Visdom
