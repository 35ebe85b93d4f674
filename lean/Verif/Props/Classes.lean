import Verif.Proofs.Classes
import Verif.Props.Attr
/-!
# C04 (add_class), C05 (remove_class), C06 (toggle_class), has_class
-/
namespace Visdom
open Spec

/-- Attribute values are written back through `set_attr`, so C07's condition applies to the classes and the
given names taken together. -/
def Clean (s : Store) (names : List Char) : Prop :=
  match s classKey with
  | some (some v) => OneQuoteKind (v ++ names)
  | _ => OneQuoteKind names

/-- Every attribute other than `class` reads as before. -/
def OthersSame (m m' : Meta) : Prop := ∀ k, ¬ SameIgnoringCase k classKey → viewOf m' k = viewOf m k

theorem oneQuoteKind_mono {v w : List Char} (h : OneQuoteKind w)
    (hs : ∀ c ∈ v, c = ' ' ∨ c ∈ w) : OneQuoteKind v := by
  rintro ⟨h1, h2⟩
  apply h
  constructor
  · rcases hs _ h1 with h | h
    · exact absurd h (by decide)
    · exact h
  · rcases hs _ h2 with h | h
    · exact absurd h (by decide)
    · exact h

/-- Writing the class attribute. -/
theorem setClass (x : AttrExt) {m : Meta} (wf : MetaWF m) (v : List Char) (hv : OneQuoteKind v) :
    ∃ m', setAttribute x m classKey (some v) = .ok m' ∧ MetaWF m' ∧ viewOf m' classKey = some (some v) ∧
      OthersSame m m' := by
  obtain ⟨m', h1, h2, h3⟩ := setAttribute_spec x wf classKey (some v)
  refine ⟨m', h1, h2, ?_, fun k hk => ?_⟩
  · have hk : SameIgnoringCase classKey classKey := rfl
    rw [h3, if_pos hk, Option.map_some, scan_content_of_one_quote x v hv]
  · rw [h3, if_neg hk]

theorem classList_view {m : Meta} {l : List (List Char)} {v : List Char} (h : viewOf m classKey = some (some v)) :
    ClassList (viewOf m) l ↔ getClassList v = l := by
  have h' : viewOf m ['c', 'l', 'a', 's', 's'] = some (some v) := h
  unfold ClassList
  rw [h']
  constructor
  · exact tokens_unique
  · rintro rfl
    obtain ⟨l, hl⟩ := tokens_exists v
    show Tokens v (getClassList v)
    rwa [tokens_unique hl]

theorem tokens_iff {s : List Char} {l : List (List Char)} : Tokens s l ↔ getClassList s = l := by
  constructor
  · exact tokens_unique
  · rintro rfl
    obtain ⟨l, hl⟩ := tokens_exists s
    rwa [tokens_unique hl]

/-- `ClassList` splits into "no class value" and "a class value with these tokens". -/
theorem classList_cases {m : Meta} (wf : MetaWF m) {l : List (List Char)} (h : ClassList (viewOf m) l) :
    (classValue m = .ok none ∧ l = [] ∧ ∀ v, viewOf m classKey ≠ some (some v)) ∨
    ∃ v, viewOf m classKey = some (some v) ∧ classValue m = .ok (some v) ∧ getClassList v = l := by
  have hc := classValue_view wf
  cases hv : viewOf m classKey with
  | none =>
    left
    rw [hv] at hc
    have hv' : viewOf m ['c', 'l', 'a', 's', 's'] = none := hv
    unfold ClassList at h
    rw [hv'] at h
    exact ⟨hc, h, by simp⟩
  | some w =>
    cases w with
    | none =>
      left
      rw [hv] at hc
      have hv' : viewOf m ['c', 'l', 'a', 's', 's'] = some none := hv
      unfold ClassList at h
      rw [hv'] at h
      exact ⟨hc, h, by simp⟩
    | some v =>
      right
      rw [hv] at hc
      exact ⟨v, rfl, hc, (classList_view hv).1 h⟩

/-- characters of names kept or added come from the old value or the given string -/
theorem clean_of_lists {v s : List Char} {l : List (List Char)} (hq : OneQuoteKind (v ++ s))
    (hl : ∀ t ∈ l, t ∈ getClassList v ∨ t ∈ getClassList s) : OneQuoteKind (classListToString l) := by
  apply oneQuoteKind_mono hq
  intro c hc
  rcases mem_classListToString hc with h | ⟨t, ht, hct⟩
  · exact Or.inl h
  · right
    rcases hl t ht with h | h
    · simp [mem_of_mem_classList h hct]
    · simp [mem_of_mem_classList h hct]

theorem clean_intro {m : Meta} {v s : List Char} (hv : viewOf m classKey = some (some v)) (hq : OneQuoteKind (v ++ s)) :
    Clean (viewOf m) s := by
  unfold Clean
  rw [hv]
  exact hq

/-- **C04** (partial: `Clean`; and no duplicates exactly if the given names have none or the element already
has a class value, even an empty one): every given name becomes a class, the old classes stay in front in order, the new ones follow in the
order given, nothing else is added, other attributes are untouched, and a second call leaves the class list as it is. Never panics. -/
theorem C04_add_class_partial (x : AttrExt) (m : Meta) (wf : MetaWF m) (s : List Char)
    (old names : List (List Char)) (hold : ClassList (viewOf m) old) (hnames : Tokens s names)
    (hq : Clean (viewOf m) s) :
    ∃ m' new, addClass x m s = .ok m' ∧ MetaWF m' ∧ ClassList (viewOf m') new ∧ OthersSame m m' ∧
      (∃ added, new = old ++ added ∧ added.Sublist names ∧ ∀ t ∈ added, t ∉ old) ∧ (∀ t, t ∈ new ↔ t ∈ old ∨ t ∈ names) ∧
      (old.Nodup → (new.Nodup ↔ names.Nodup ∨ ∃ v, viewOf m ['c', 'l', 'a', 's', 's'] = some (some v))) ∧ Clean (viewOf m') s ∧
      ∃ m'', addClass x m' s = .ok m'' ∧ ClassList (viewOf m'') new := by
  have hn := tokens_unique hnames
  by_cases hne : names = []
  · have hadd : ∀ m, addClass x m s = .ok m := by intro m; simp [addClass, hn, hne]
    exact ⟨m, old, hadd m, wf, hold, fun _ _ => rfl, ⟨[], by simp⟩, by simp [hne], fun h => ⟨fun _ => Or.inl (by rw [hne]; exact .nil), fun _ => h⟩, hq, m, hadd m, hold⟩
  have hadd : ∀ m, addClass x m s = addClassOne x m s := by intro m; simp [addClass, hn, hne]
  -- a second call on an element with a class value containing all the names
  have again : ∀ (m : Meta) (v : List Char), MetaWF m → viewOf m classKey = some (some v) →
      OneQuoteKind (v ++ s) → (∀ t ∈ names, t ∈ getClassList v) →
      ∃ m'', addClass x m s = .ok m'' ∧ ClassList (viewOf m'') (getClassList v) := by
    intro m v wf hv hq hall
    have hcv := classValue_view wf
    rw [hv] at hcv
    rw [hadd]
    simp only [addClassOne, hcv, bind, Except.bind]
    rw [hn, pushMissing_idem _ _ hall]
    obtain ⟨m', h1, h2, h3, _⟩ := setClass x wf (classListToString (getClassList v))
      (clean_of_lists hq (fun t ht => Or.inl ht))
    exact ⟨m', h1, (classList_view h3).2 (getClassList_join (getClassList_valid v))⟩
  rcases classList_cases wf hold with ⟨hcv, rfl, hno⟩ | ⟨v, hv, hcv, hcl⟩
  · have hs : OneQuoteKind s := by
      unfold Clean at hq
      split at hq
      · exact absurd (by assumption) (hno _)
      · exact hq
    obtain ⟨m', h1, h2, h3, h4⟩ := setClass x wf s hs
    refine ⟨m', names, ?_, h2, (classList_view h3).2 hn, h4, ⟨names, by simp⟩, by simp, ?_, ?_, ?_⟩
    · rw [hadd]; simp only [addClassOne, hcv, bind, Except.bind]; exact h1
    · refine fun _ => ⟨Or.inl, ?_⟩
      rintro (h | ⟨v, h⟩)
      · exact h
      · exact absurd h (hno v)
    · exact clean_intro h3 (oneQuoteKind_mono hs (fun c hc => by right; simpa using hc))
    · have := again m' s h2 h3 (oneQuoteKind_mono hs (fun c hc => by right; simpa using hc)) (fun t ht => by rw [hn]; exact ht)
      rwa [hn] at this
  · have hq' : OneQuoteKind (v ++ s) := by
      unfold Clean at hq
      rw [hv] at hq
      exact hq
    obtain ⟨e1, e2, e3⟩ := pushMissing_spec old names
    have hval : ∀ t ∈ pushMissing old names, IsToken t := by
      intro t ht
      rcases (e2 t).1 ht with h | h
      · rw [← hcl] at h; exact getClassList_valid v t h
      · exact tokens_valid hnames t h
    have hq2 : OneQuoteKind (classListToString (pushMissing old names)) :=
      clean_of_lists hq' (fun t ht => by rw [hcl, hn]; exact (e2 t).1 ht)
    obtain ⟨m', h1, h2, h3, h4⟩ := setClass x wf _ hq2
    have hcl2 : OneQuoteKind (classListToString (pushMissing old names) ++ s) := by
      apply oneQuoteKind_mono hq'
      intro c hc
      rcases List.mem_append.1 hc with hc | hc
      · rcases mem_classListToString hc with h | ⟨t, ht, hct⟩
        · exact Or.inl h
        · right
          rcases (e2 t).1 ht with h | h
          · rw [← hcl] at h; simp [mem_of_mem_classList h hct]
          · rw [← hn] at h; simp [mem_of_mem_classList h hct]
      · right; simp [hc]
    refine ⟨m', pushMissing old names, ?_, h2, (classList_view h3).2 (getClassList_join hval), h4,
      e1, e2, fun h => ⟨fun _ => Or.inr ⟨v, hv⟩, fun _ => e3 h⟩, clean_intro h3 hcl2, ?_⟩
    · rw [hadd]; simp only [addClassOne, hcv, bind, Except.bind]; rw [hcl, hn]; exact h1
    · have := again m' _ h2 h3 hcl2 ?_
      · rwa [getClassList_join hval] at this
      · intro t ht
        rw [getClassList_join hval]
        exact (e2 t).2 (Or.inr ht)

/-- **C04 fails** on "no name is added twice": an element without a class, `add_class("a a")`. -/
theorem C04_fails_duplicate :
    ∃ m', addClass quoteEnc {} "a a".toList = .ok m' ∧ ClassList (viewOf m') ["a".toList, "a".toList] := by
  refine ⟨_, rfl, ?_⟩
  rw [classList_view (v := "a a".toList) (by decide)]
  decide

/-- trimming is harmless when the string has no exotic white space -/
theorem trim_ok {s : List Char} (h : ∀ c ∈ s, ¬ ExoticSpace c) : getClassList (trim s) = getClassList s := by
  apply getClassList_trim
  intro c hc hw
  have := h c hc
  simp only [isUnicodeWs, Bool.or_eq_true, Bool.and_eq_true, decide_eq_true_eq, beq_iff_eq] at hw
  simp only [ExoticSpace] at this
  simp only [IsSpace]
  omega

theorem sublist_filter_mem {names old : List (List Char)} :
    removedIndexs old names = [] ↔ ∀ t ∈ names, t ∉ old := by
  simp only [removedIndexs, List.filterMap_eq_nil_iff, List.findIdx?_eq_none_iff]
  constructor
  · intro h t ht hm
    have := h t ht t hm
    simp at this
  · intro h t ht y hy
    rw [beq_eq_false_iff_ne]
    rintro rfl
    exact h _ ht hy

/-- The given names that are present stand in the same order as in the element, without repetition.
In particular true whenever a single name is given. -/
def InOrder (names old : List (List Char)) : Prop := (names.filter fun t => decide (t ∈ old)).Sublist old
instance (a b : List (List Char)) : Decidable (InOrder a b) := by unfold InOrder; infer_instance

theorem retain_inOrder {names old : List (List Char)} (hnd : old.Nodup) (hio : InOrder names old) :
    retainByIndex old (removedIndexs old names) = .ok (old.filter fun t => decide (t ∉ names)) := by
  have e : (names.filter (old.contains ·)) = names.filter fun t => decide (t ∈ old) := by
    apply List.filter_congr; intro t _; simp
  rw [removedIndexs_filter, e, retain_removed hnd hio]
  congr 1
  apply List.filter_congr
  intro t ht
  simp [ht]

/-- **C05** (partial: the element's classes are distinct, the present names are given in the element's
order): exactly the named classes are removed, the others keep their order, other attributes are untouched,
no panic. -/
theorem C05_remove_class_partial (x : AttrExt) (m : Meta) (wf : MetaWF m) (s : List Char)
    (old names : List (List Char)) (hold : ClassList (viewOf m) old) (hnames : Tokens s names)
    (hq : Clean (viewOf m) s) (hex : ∀ c ∈ s, ¬ ExoticSpace c) (hnd : old.Nodup) (hio : InOrder names old) :
    ∃ m', removeClass x m s = .ok m' ∧ MetaWF m' ∧ OthersSame m m' ∧
      ClassList (viewOf m') (old.filter fun t => decide (t ∉ names)) ∧ Clean (viewOf m') s := by
  have hn := tokens_unique hnames
  have htn : getClassList (trim s) = names := by rw [trim_ok hex, hn]
  have same : (∀ t ∈ names, t ∉ old) → (old.filter fun t => decide (t ∉ names)) = old := by
    intro h
    rw [List.filter_eq_self]
    intro t ht
    simp only [decide_eq_true_eq]
    exact fun hm => h t hm ht
  unfold removeClass
  by_cases hemp : (trim s).isEmpty
  · simp only [hemp, if_true]
    have : names = [] := by
      rw [← htn, List.isEmpty_iff.1 hemp]; rfl
    refine ⟨m, rfl, wf, fun _ _ => rfl, ?_, hq⟩
    rw [same (by simp [this])]
    exact hold
  · simp only [hemp, if_false, Bool.false_eq_true]
    rcases classList_cases wf hold with ⟨hcv, rfl, hno⟩ | ⟨v, hv, hcv, hcl⟩
    · simp only [hcv, bind, Except.bind, pure, Except.pure]
      exact ⟨m, rfl, wf, fun _ _ => rfl, by simpa using hold, hq⟩
    · simp only [hcv, bind, Except.bind, hcl, htn, pure, Except.pure]
      by_cases hrm : removedIndexs old names = []
      · simp only [hrm, List.isEmpty_nil, if_true]
        refine ⟨m, rfl, wf, fun _ _ => rfl, ?_, hq⟩
        rw [same (sublist_filter_mem.1 hrm)]
        exact hold
      · have : (removedIndexs old names).isEmpty = false := by simpa using hrm
        simp only [this, Bool.false_eq_true, if_false, retain_inOrder hnd hio]
        have hq' : OneQuoteKind (v ++ s) := by
          unfold Clean at hq
          rw [hv] at hq
          exact hq
        have hsub : ∀ t ∈ (old.filter fun t => decide (t ∉ names)), t ∈ getClassList v := by
          intro t ht
          rw [hcl]
          exact List.mem_of_mem_filter ht
        obtain ⟨m', h1, h2, h3, h4⟩ := setClass x wf _ (clean_of_lists hq' (fun t ht => Or.inl (hsub t ht)))
        refine ⟨m', h1, h2, h4, (classList_view h3).2
          (getClassList_join fun t ht => getClassList_valid v t (hsub t ht)), clean_intro h3 (oneQuoteKind_mono hq' fun c hc => ?_)⟩
        rcases List.mem_append.1 hc with hc | hc
        · rcases mem_classListToString hc with h | ⟨t, ht, hct⟩
          · exact Or.inl h
          · right; simp [mem_of_mem_classList (hsub t ht) hct]
        · right; simp [hc]

theorem inOrder_single (t : List Char) (old : List (List Char)) : InOrder [t] old := by
  unfold InOrder
  by_cases h : t ∈ old
  · simp [h]
  · simp [h]

/-- **C05** for a single name: always right on an element with distinct classes. -/
theorem C05_remove_one_class (x : AttrExt) (m : Meta) (wf : MetaWF m) (t : List Char) (ht : IsToken t)
    (old : List (List Char)) (hold : ClassList (viewOf m) old)
    (hq : Clean (viewOf m) t) (hex : ∀ c ∈ t, ¬ ExoticSpace c) (hnd : old.Nodup) :
    ∃ m', removeClass x m t = .ok m' ∧ MetaWF m' ∧ OthersSame m m' ∧
      ClassList (viewOf m') (old.filter fun u => decide (u ≠ t)) := by
  have hnames : Tokens t [t] := by
    have := tokens_of_joined [t] (by simpa using ht)
    simpa [classListToString] using this
  obtain ⟨m', h1, h2, h3, h4, -⟩ := C05_remove_class_partial x m wf t old [t] hold hnames hq hex hnd (inOrder_single t old)
  exact ⟨m', h1, h2, h3, by simpa using h4⟩

/-- an element with the given class attribute, for the witnesses -/
def classMeta (v : String) : Meta :=
  { attrs := [{ key := some classKey, value := some v.toList, quote := some '"' }], lcMap := [(classKey, 0)] }

theorem classMeta_wf (v : String) : MetaWF (classMeta v) := by
  constructor
  · intro k i h
    simp only [classMeta, mapGet_cons] at h
    split at h
    · rename_i e; subst e; decide
    · simp [mapGet] at h
  · intro k i h
    simp only [classMeta, mapGet_cons] at h
    split at h
    · simp at h; subst h; simp [classMeta]
    · simp [mapGet] at h
  · intro k k' i h h'
    simp only [classMeta, mapGet_cons] at h h'
    split at h <;> split at h'
    · rename_i e e'; rw [← e, ← e']
    · simp [mapGet] at h'
    · simp [mapGet] at h
    · simp [mapGet] at h

/-- **C05 fails**: removing "d a" from "a b c d" panics; removing "c b" from "a b c d" leaves
"b d": the named class `b` stays and the class `a`, which was not named, is gone. -/
theorem C05_fails_out_of_order :
    removeClass quoteEnc (classMeta "a b c d") "d a".toList = .error .overflow ∧
    ∃ m', removeClass quoteEnc (classMeta "a b c d") "c b".toList = .ok m' ∧
      ClassList (viewOf m') ["b".toList, "d".toList] := by
  refine ⟨by decide, ?_⟩
  refine ⟨_, rfl, ?_⟩
  rw [classList_view (v := "b d".toList) (by decide)]
  decide

/-- **C05 fails**: a name given twice panics. -/
theorem C05_fails_repeated : removeClass quoteEnc (classMeta "a b") "a a".toList = .error .overflow := by decide

/-- **C05 fails**: a class that stands twice in the attribute is removed only once. -/
theorem C05_fails_duplicate_class :
    ∃ m', removeClass quoteEnc (classMeta "a a") "a".toList = .ok m' ∧ ClassList (viewOf m') ["a".toList] := by
  refine ⟨_, rfl, ?_⟩
  rw [classList_view (v := "a".toList) (by decide)]
  decide

theorem toggle_added (old names : List (List Char)) :
    (names.filter fun c => (old.findIdx? (· == c)).isNone) = names.filter fun t => decide (t ∉ old) := by
  apply List.filter_congr
  intro t _
  rw [Bool.eq_iff_iff, Option.isNone_iff_eq_none, List.findIdx?_eq_none_iff, decide_eq_true_eq]
  constructor
  · intro h hm
    have := h t hm
    simp at this
  · intro h y hy
    rw [beq_eq_false_iff_ne]
    rintro rfl
    exact h hy

theorem toggle_one (x : AttrExt) (m : Meta) (wf : MetaWF m) (s : List Char)
    (old names : List (List Char)) (hold : ClassList (viewOf m) old) (hnames : Tokens s names)
    (hq : Clean (viewOf m) s) (hex : ∀ c ∈ s, ¬ ExoticSpace c) (hnd : old.Nodup) (hio : InOrder names old) :
    ∃ m', toggleClass x m s = .ok m' ∧ MetaWF m' ∧ OthersSame m m' ∧ Clean (viewOf m') s ∧
      ClassList (viewOf m') ((old.filter fun t => decide (t ∉ names)) ++ names.filter fun t => decide (t ∉ old)) := by
  have hn := tokens_unique hnames
  have htn : getClassList (trim s) = names := by rw [trim_ok hex, hn]
  unfold toggleClass
  by_cases hemp : (trim s).isEmpty
  · simp only [hemp, if_true]
    have : names = [] := by
      rw [← htn, List.isEmpty_iff.1 hemp]; rfl
    exact ⟨m, rfl, wf, fun _ _ => rfl, hq, by simpa [this] using hold⟩
  · simp only [hemp, if_false, Bool.false_eq_true]
    rcases classList_cases wf hold with ⟨hcv, rfl, hno⟩ | ⟨v, hv, hcv, hcl⟩
    · simp only [hcv, bind, Except.bind]
      have hs : OneQuoteKind s := by
        unfold Clean at hq
        split at hq
        · exact absurd (by assumption) (hno _)
        · exact hq
      obtain ⟨m', h1, h2, h3, h4⟩ := setClass x wf (trim s)
        (oneQuoteKind_mono hs (fun c hc => Or.inr (trim_subset s c hc)))
      refine ⟨m', h1, h2, h4, ?_, (classList_view h3).2 (by simp [htn])⟩
      unfold Clean
      rw [h3]
      exact oneQuoteKind_mono hs (fun c hc => by
        right
        rcases List.mem_append.1 hc with hc | hc
        · exact trim_subset s c hc
        · exact hc)
    · have hq' : OneQuoteKind (v ++ s) := by
        unfold Clean at hq
        rw [hv] at hq
        exact hq
      simp only [hcv, bind, Except.bind, hcl, htn, pure, Except.pure, toggle_added]
      have hleft : dropFound old (removedIndexs old names) = .ok (old.filter fun t => decide (t ∉ names)) := by
        unfold dropFound
        by_cases hrm : removedIndexs old names = []
        · have h := sublist_filter_mem.1 hrm
          have : (old.filter fun t => decide (t ∉ names)) = old := by
            rw [List.filter_eq_self]
            intro t ht
            simp only [decide_eq_true_eq]
            exact fun hm => h t hm ht
          simp only [hrm, List.isEmpty_nil, if_true, this]
        · have : (removedIndexs old names).isEmpty = false := by simpa using hrm
          simp only [this, Bool.false_eq_true, if_false, retain_inOrder hnd hio]
      rw [hleft]
      simp only []
      by_cases hnone : (removedIndexs old names).isEmpty && (names.filter fun t => decide (t ∉ old)).isEmpty
      · simp only [hnone, if_true]
        rw [Bool.and_eq_true, List.isEmpty_iff, List.isEmpty_iff] at hnone
        have h := sublist_filter_mem.1 hnone.1
        have : (old.filter fun t => decide (t ∉ names)) = old := by
          rw [List.filter_eq_self]
          intro t ht
          simp only [decide_eq_true_eq]
          exact fun hm => h t hm ht
        refine ⟨m, rfl, wf, fun _ _ => rfl, hq, ?_⟩
        rw [this, hnone.2, List.append_nil]
        exact hold
      · simp only [hnone, Bool.false_eq_true, if_false]
        have hall : ∀ t ∈ (old.filter fun t => decide (t ∉ names)) ++ names.filter (fun t => decide (t ∉ old)),
            t ∈ getClassList v ∨ t ∈ getClassList s := by
          intro t ht
          rw [hcl, hn]
          rcases List.mem_append.1 ht with h | h
          · exact Or.inl (List.mem_of_mem_filter h)
          · exact Or.inr (List.mem_of_mem_filter h)
        have hval : ∀ t ∈ (old.filter fun t => decide (t ∉ names)) ++ names.filter (fun t => decide (t ∉ old)), IsToken t := by
          intro t ht
          rcases hall t ht with h | h
          · exact getClassList_valid v t h
          · exact getClassList_valid s t h
        obtain ⟨m', h1, h2, h3, h4⟩ := setClass x wf _ (clean_of_lists hq' hall)
        refine ⟨m', h1, h2, h4, ?_, (classList_view h3).2 (getClassList_join hval)⟩
        unfold Clean
        rw [h3]
        apply oneQuoteKind_mono hq'
        intro c hc
        rcases List.mem_append.1 hc with hc | hc
        · rcases mem_classListToString hc with h | ⟨t, ht, hct⟩
          · exact Or.inl h
          · right
            rcases hall t ht with h | h
            · simp [mem_of_mem_classList h hct]
            · simp [mem_of_mem_classList h hct]
        · right; simp [hc]

/-- **C06** (partial: distinct classes, distinct names, present names in the element's order): each present
name is removed, each absent one is added, the others are untouched; toggling again restores the class set. -/
theorem C06_toggle_class_partial (x : AttrExt) (m : Meta) (wf : MetaWF m) (s : List Char)
    (old names : List (List Char)) (hold : ClassList (viewOf m) old) (hnames : Tokens s names)
    (hq : Clean (viewOf m) s) (hex : ∀ c ∈ s, ¬ ExoticSpace c)
    (hnd : old.Nodup) (hndn : names.Nodup) (hio : InOrder names old) :
    ∃ m' new, toggleClass x m s = .ok m' ∧ MetaWF m' ∧ OthersSame m m' ∧ ClassList (viewOf m') new ∧ new.Nodup ∧
      (∀ t, t ∈ new ↔ (t ∈ old ∧ t ∉ names) ∨ (t ∈ names ∧ t ∉ old)) ∧
      (new.filter fun t => decide (t ∉ names)) = (old.filter fun t => decide (t ∉ names)) ∧
      ∃ m'' back, toggleClass x m' s = .ok m'' ∧ ClassList (viewOf m'') back ∧ back.Nodup ∧ ∀ t, t ∈ back ↔ t ∈ old := by
  obtain ⟨m', h1, h2, h3, h4, h5⟩ := toggle_one x m wf s old names hold hnames hq hex hnd hio
  generalize hnew : (old.filter fun t => decide (t ∉ names)) ++ (names.filter fun t => decide (t ∉ old)) = new at h5
  have hmem : ∀ t, t ∈ new ↔ (t ∈ old ∧ t ∉ names) ∨ (t ∈ names ∧ t ∉ old) := by
    intro t; rw [← hnew]; simp
  have hndw : new.Nodup := by
    rw [← hnew, List.nodup_append]
    refine ⟨hnd.filter _, hndn.filter _, ?_⟩
    intro a ha b hb hab
    subst hab
    simp only [List.mem_filter, decide_eq_true_eq] at ha hb
    exact hb.2 ha.1
  have hio2 : InOrder names new := by
    have : (names.filter fun t => decide (t ∈ new)) = names.filter fun t => decide (t ∉ old) := by
      apply List.filter_congr
      intro t ht
      simp [hmem, ht]
    unfold InOrder
    rw [this, ← hnew]
    exact List.sublist_append_right _ _
  obtain ⟨m'', g1, g2, g3, g4, g5⟩ := toggle_one x m' h2 s new names h5 hnames h4 hex hndw hio2
  refine ⟨m', new, h1, h2, h3, h5, hndw, hmem, ?_, m'', _, g1, g5, ?_, ?_⟩
  · rw [← hnew, List.filter_append, List.filter_filter]
    have : (List.filter (fun t => decide (t ∉ names)) (names.filter fun t => decide (t ∉ old))) = [] := by
      rw [List.filter_eq_nil_iff]
      intro t ht
      simp [List.mem_of_mem_filter ht]
    rw [this, List.append_nil]
    apply List.filter_congr
    simp
  · rw [List.nodup_append]
    refine ⟨hndw.filter _, hndn.filter _, ?_⟩
    intro a ha b hb hab
    subst hab
    simp only [List.mem_filter, decide_eq_true_eq] at ha hb
    exact hb.2 ha.1
  · intro t
    simp only [List.mem_append, List.mem_filter, decide_eq_true_eq, hmem]
    by_cases h1 : t ∈ old <;> by_cases h2 : t ∈ names <;> simp [h1, h2]

/-- **C06 fails** when present names are given out of order. -/
theorem C06_fails_out_of_order : toggleClass quoteEnc (classMeta "a b") "b a".toList = .error .overflow := by decide

/-- `has_class(names)` on a set: answers without panic, and true exactly when at least one name is given and
some element has all the given names. -/
theorem C04_has_class_exact (ms : List Meta) (hwf : ∀ m ∈ ms, MetaWF m) (s : List Char) (names : List (List Char))
    (hnames : Tokens s names) (hex : ∀ c ∈ s, ¬ ExoticSpace c) :
    ∃ b, hasClass ms s = .ok b ∧
      (b = true ↔ names ≠ [] ∧ ∃ m ∈ ms, ∃ l, ClassList (viewOf m) l ∧ ∀ t ∈ names, t ∈ l) := by
  have htn : getClassList (trim s) = names := by rw [trim_ok hex, tokens_unique hnames]
  have hall : names ≠ [] → ∃ b, hasClass.go ms names = .ok b ∧
      (b = true ↔ ∃ m ∈ ms, ∃ l, ClassList (viewOf m) l ∧ ∀ t ∈ names, t ∈ l) := by
    intro hne
    induction ms with
    | nil => exact ⟨false, rfl, by simp⟩
    | cons m ms ih =>
      have wf := hwf m (by simp)
      obtain ⟨b, hb1, hb2⟩ := ih (fun m hm => hwf m (by simp [hm]))
      have hone : ∃ b, hasClassOne m names = .ok b ∧
          (b = true ↔ ∃ l, ClassList (viewOf m) l ∧ ∀ t ∈ names, t ∈ l) := by
        have hcv := classValue_view wf
        cases hv : viewOf m classKey with
        | none =>
          rw [hv] at hcv
          refine ⟨false, by simp [hasClassOne, hcv, Except.map], ?_⟩
          simp only [Bool.false_eq_true, false_iff, not_exists, not_and]
          intro l hl
          have hv' : viewOf m ['c', 'l', 'a', 's', 's'] = none := hv
          unfold ClassList at hl
          rw [hv'] at hl
          subst hl
          obtain ⟨t, ht⟩ := List.exists_mem_of_ne_nil _ hne
          intro h; exact absurd (h t ht) (by simp)
        | some w =>
          cases w with
          | none =>
            rw [hv] at hcv
            refine ⟨false, by simp [hasClassOne, hcv, Except.map], ?_⟩
            simp only [Bool.false_eq_true, false_iff, not_exists, not_and]
            intro l hl
            have hv' : viewOf m ['c', 'l', 'a', 's', 's'] = some none := hv
            unfold ClassList at hl
            rw [hv'] at hl
            subst hl
            obtain ⟨t, ht⟩ := List.exists_mem_of_ne_nil _ hne
            intro h; exact absurd (h t ht) (by simp)
          | some v =>
            rw [hv] at hcv
            refine ⟨_, by simp only [hasClassOne, hcv, Except.map]; rfl, ?_⟩
            simp only [List.all_eq_true, List.contains_eq_mem, decide_eq_true_eq]
            constructor
            · intro h
              exact ⟨getClassList v, (classList_view hv).2 rfl, h⟩
            · rintro ⟨l, hl, h⟩
              rw [(classList_view hv).1 hl]
              exact h
      obtain ⟨b', h1, h2⟩ := hone
      cases b' with
      | true =>
        refine ⟨true, by simp [hasClass.go, h1], ?_⟩
        simp only [true_iff]
        exact ⟨m, by simp, h2.1 rfl⟩
      | false =>
        refine ⟨b, by simp [hasClass.go, h1, hb1], ?_⟩
        rw [hb2]
        constructor
        · rintro ⟨m', hm', h⟩
          exact ⟨m', by simp [hm'], h⟩
        · rintro ⟨m', hm', h⟩
          rcases List.mem_cons.1 hm' with rfl | hm'
          · exact absurd (h2.2 h) (by simp)
          · exact ⟨m', hm', h⟩
  unfold hasClass
  by_cases hemp : (trim s).isEmpty
  · refine ⟨false, by simp [hemp], ?_⟩
    have : names = [] := by rw [← htn, List.isEmpty_iff.1 hemp]; rfl
    simp [this]
  · simp only [hemp, Bool.false_eq_true, if_false, htn]
    by_cases hne : names = []
    · -- a trimmed, non-empty string always has a token
      exfalso
      subst hne
      obtain ⟨c, u, e⟩ : ∃ c u, trim s = c :: u := by
        cases h : trim s with
        | nil => simp [h] at hemp
        | cons c u => exact ⟨c, u, rfl⟩
      have hws : isUnicodeWs c = false := by
        have hh : (trim s).head? = some c := by rw [e]; rfl
        have : ∃ v, trim s ++ v = s.dropWhile isUnicodeWs := by
          obtain ⟨g', h3, h4⟩ := dropWhile_split isUnicodeWs (s.dropWhile isUnicodeWs).reverse
          refine ⟨g'.reverse, ?_⟩
          have h3' := congrArg List.reverse h3
          rw [List.reverse_reverse, List.reverse_append] at h3'
          rw [trim, ← h3']
        obtain ⟨v, hv⟩ := this
        have hd : (s.dropWhile isUnicodeWs).head? = some c := by rw [← hv, e]; rfl
        have := List.head?_dropWhile_not isUnicodeWs s
        rw [hd] at this
        simpa using this
      have hc : ¬ IsSpace c := by
        intro hs
        have : isUnicodeWs c = true := by
          simp only [isUnicodeWs, Bool.or_eq_true, Bool.and_eq_true, decide_eq_true_eq, beq_iff_eq]
          simp only [IsSpace] at hs
          omega
        rw [this] at hws
        cases hws
      obtain ⟨l, hl⟩ := tokens_exists (trim s)
      have hl' := tokens_unique hl
      rw [htn] at hl'
      subst hl'
      generalize hg : trim s = g at hl
      generalize hll : ([] : List (List Char)) = ll at hl
      cases hl with
      | blank _ hg' => exact hc (hg' c (by rw [← hg, e]; simp))
      | token => simp at hll
    · obtain ⟨b, h1, h2⟩ := hall hne
      exact ⟨b, h1, by rw [h2]; simp [hne]⟩

/-! Cases meeting the hypotheses. -/
example : ClassList (viewOf (classMeta "a b c")) ["a".toList, "b".toList, "c".toList] := by
  rw [classList_view (v := "a b c".toList) (by decide)]; decide
example : InOrder ["a".toList, "x".toList, "c".toList] ["a".toList, "b".toList, "c".toList] := by decide
example : ¬ InOrder ["c".toList, "a".toList] ["a".toList, "b".toList, "c".toList] := by decide
example : Clean (viewOf (classMeta "a b c")) "x".toList := by
  show OneQuoteKind ("a b c".toList ++ "x".toList); decide
example : ∀ c ∈ "a x c".toList, ¬ ExoticSpace c := by decide

end Visdom
