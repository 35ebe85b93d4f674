import Verif.Proofs.PosRules
import Verif.Props.AttrRule
import Verif.Props.Strings
/-!
# The rules that look at one element
-/
namespace Visdom
open Spec
variable {h : Heap} {r : Nat} {Q : List Nat → Prop} {c : Comb} {P : Nat → Bool}

theorem decides_one {m : Matcher} {g : Nat → R Bool} (hg : m.one = some g) (ha : m.all = none) (hc : m.inCache = false)
    (hP : ∀ x b, Within h r x → h.isElem x = true → g x = .ok b → b = P x) : Decides h r Q m c P where
  one := by intro g' hg'; rw [hg] at hg'; obtain rfl := Option.some.inj hg'; exact hP
  all := by intro _ _ f hf; rw [ha] at hf; cases hf
  child := by intro _ ho; rw [hg] at ho; cases ho
  spec := by intro ho; rw [hg] at ho; cases ho
  cache := by intro _ h'; rw [hc] at h'; cases h'

theorem answers_one {m : Matcher} {g : Nat → R Bool} (hg : m.one = some g) (ha : m.all = none) (hc : m.inCache = false)
    (hP : ∀ x, Within h r x → h.isElem x = true → ∃ b, g x = .ok b) : Answers h r Q m c where
  handle := Or.inl (by rw [hg]; rfl)
  one := by intro g' hg'; rw [hg] at hg'; obtain rfl := Option.some.inj hg'; exact hP
  all := by intro _ _ f hf; rw [ha] at hf; cases hf
  child := by intro _ ho; rw [hg] at ho; cases ho
  spec := by intro _ ho; rw [hg] at ho; cases ho
  cache := by intro _ h'; rw [hc] at h'; cases h'

/-- A test of one element that always answers. -/
structure OneOk (h : Heap) (r : Nat) (m : Matcher) (S : Nat → Prop) : Prop where
  one : ∃ g, m.one = some g ∧ ∀ x, Within h r x → h.isElem x = true → ∃ b, g x = .ok b ∧ (b = true ↔ S x)
  all : m.all = none
  cache : m.inCache = false

open Classical in
theorem OneOk.decides {m : Matcher} {S : Nat → Prop} (ho : OneOk h r m S) : Decides h r Q m c fun x => decide (S x) := by
  obtain ⟨g, hg, hx⟩ := ho.one
  refine decides_one hg ho.all ho.cache fun x b hw he hb => ?_
  obtain ⟨b', hb', hiff⟩ := hx x hw he
  rw [hb] at hb'
  obtain rfl := Except.ok.inj hb'
  rw [Bool.eq_iff_iff, hiff, decide_eq_true_eq]

theorem OneOk.answers {m : Matcher} {S : Nat → Prop} (ho : OneOk h r m S) : Answers h r Q m c := by
  obtain ⟨g, hg, hx⟩ := ho.one
  exact answers_one hg ho.all ho.cache fun x hw he => ⟨_, (hx x hw he).choose_spec.1⟩

theorem sameIgnoringCase_lower (a b : List Char) : SameIgnoringCase (a.map asciiLower) b ↔ SameIgnoringCase a b := by
  unfold SameIgnoringCase
  have : ∀ c, lowerCode (asciiLower c) = lowerCode c := by
    intro c
    have h1 := toNat_asciiLower c
    unfold lowerCode at h1 ⊢
    rw [h1]
    split
    · rw [if_neg (by omega)]
    · rfl
  rw [List.map_map]
  have hc : (lowerCode ∘ asciiLower) = lowerCode := funext this
  rw [hc]

theorem SameIgnoringCase.symm {a b : List Char} (hab : SameIgnoringCase a b) : SameIgnoringCase b a := Eq.symm hab

/-- Comparing lower cased names with a lower case word. -/
theorem tagNames_eq {x : Nat} (hx : h.isElem x = true) {w : List Char} (hw : w.map asciiLower = w) (hne : w ≠ []) :
    isEqualChars (tagNames h x) w = true ↔ Named h w x := by
  rw [C03_equal_chars]
  unfold tagNames Named
  rw [if_pos hx]
  have hl : ∀ a b : List Char, a.map asciiLower = b.map asciiLower ↔ SameIgnoringCase a b := lowerStr_eq_iff
  rw [← hl, hw]
  exact ⟨fun h' => ⟨hx, h'⟩, fun h' => h'.2⟩

theorem name_ok (n : List Char) : OneOk h r (nameMatcher h n) (Named h n) where
  one := by
    refine ⟨_, rfl, fun x _ he => ⟨_, rfl, ?_⟩⟩
    rw [C10_name_rule]
    unfold tagNames Named
    rw [if_pos he, sameIgnoringCase_lower]
    exact ⟨fun h' => ⟨he, h'⟩, fun h' => h'.2⟩
  all := rfl
  cache := rfl

section
variable {env : Env} (ev : Metas h r)
include ev

theorem cls_ok (n : List Char) : OneOk h r (classMatcher h n) (fun x => ∃ l, ClassList (viewOf (h.node x).attrs) l ∧ n ∈ l) where
  one := by
    refine ⟨_, rfl, fun x hw he => ?_⟩
    simp only [if_pos he]
    exact C10_class_rule _ (ev x hw he) n
  all := rfl
  cache := rfl

theorem attr_ok (key : List Char) : OneOk h r (attrMatcher h key .eq none) (HasAttr h key) where
  one := by
    refine ⟨_, rfl, fun x hw he => ?_⟩
    obtain ⟨b, hb, hiff⟩ := C10_attr_presence _ (ev x hw he) key .eq
    simp only [if_pos he]
    refine ⟨b, hb, ?_⟩
    rw [hiff]
    unfold HasAttr
    rw [Option.ne_none_iff_exists']
  all := rfl
  cache := rfl

theorem attrTest_ok (key : List Char) (t : AttrTest) {v : List Char} (hv : v ≠ []) :
    OneOk h r (attrMatcher h key (testMode t) (some v)) (fun x => t.Holds v (viewOf (h.node x).attrs key)) where
  one := by
    refine ⟨_, rfl, fun x hw he => ?_⟩
    obtain ⟨b, hb, hiff⟩ := C10_attr_tests_partial _ (ev x hw he) key (testMode t) v (Or.inl hv)
    simp only [if_pos he]
    refine ⟨b, hb, ?_⟩
    rw [hiff]
    cases t <;> rfl
  all := rfl
  cache := rfl

theorem contains_ok (t : List Char) :
    OneOk h r (containsMatcher env.text ('"' :: t ++ ['"'])) (fun x => ∃ u v, env.text x = u ++ t ++ v) where
  one := by
    refine ⟨_, rfl, fun x hw he => ⟨_, rfl, ?_⟩⟩
    have : containsText ('"' :: t ++ ['"']) = t := by
      simp only [containsText, List.cons_append, true_or, if_true]
      rw [← List.cons_append, List.dropLast_concat]
      rfl
    rw [this]
    simp only [List.cons_append, List.isEmpty_cons, Bool.false_or]
    exact C11_contains_chars _ _
  all := rfl
  cache := rfl

theorem hasAttr_ok {x : Nat} (hw : Within h r x) (he : h.isElem x = true) (key : List Char) :
    ∃ b, hasAttr h x key = .ok b ∧ (b = true ↔ HasAttr h key x) := by
  obtain ⟨v, hv⟩ := getAttribute_ok (ev x hw he) key
  refine ⟨v.isSome, by unfold hasAttr; rw [hv]; rfl, ?_⟩
  unfold HasAttr viewOf
  rw [hv]
  cases v with
  | none => simp [seen]
  | some v => cases v <;> simp [seen]
end

theorem empty_ok : OneOk h r (emptyMatcher h) (fun x => ∀ c ∈ h.kids x, (h.node c).kind = .comment) where
  one := by
    refine ⟨_, rfl, fun x hw he => ⟨_, rfl, ?_⟩⟩
    simp only [List.all_eq_true, beq_iff_eq]
  all := rfl
  cache := rfl

theorem root_ok (wf : TreeWF h r) (isDoc : Nat → Bool) :
    OneOk h r (rootMatcher h isDoc) (fun x => Named h "html".toList x ∧ x ∈ h.kids r ∧ isDoc r = true) where
  one := by
    refine ⟨_, rfl, fun x hw he => ⟨_, rfl, ?_⟩⟩
    have hn : (tagName h x == "HTML".toList) = true ↔ Named h "html".toList x := by
      rw [beq_iff_eq]
      have h1 : "HTML".toList = (("html".toList).map asciiLower).map asciiUpper := by decide
      unfold tagName tagNames Named
      rw [if_pos he, h1, map_upper_lower]
      exact ⟨fun h' => ⟨he, h'⟩, fun h' => h'.2⟩
    rw [Bool.and_eq_true, hn]
    refine and_congr_right fun _ => ?_
    obtain ⟨p, hxp, hp, hxi⟩ := parent_inv wf hw (elem_ne_root wf he)
    rw [hxp]
    simp only [Bool.and_eq_true]
    rw [isRoot_iff wf hp]
    constructor
    · rintro ⟨rfl, hd⟩; exact ⟨List.mem_of_getElem? hxi, hd⟩
    · rintro ⟨hk, hd⟩
      have := parent_of_child wf .self hk
      rw [hxp] at this
      obtain rfl := Option.some.inj this
      exact ⟨rfl, hd⟩
  all := rfl
  cache := rfl

end Visdom
