import Verif.Spec.Written
import Verif.Props.AttrExact
/-!
# C77: the attributes that are read are those that are written
-/
namespace Visdom
open Spec

theorem lower_spec (k : List Char) : (k.map fun c => Char.ofNat (lowerCode c)) = lowerStr k := by
  rw [lowerStr]
  refine List.map_congr_left fun c _ => ?_
  rw [← toNat_asciiLower, Char.ofNat_toNat]

theorem Spec.InStep.listed' {m : Meta} (is : InStep m) {k : List Char} {i : Nat} (hg : mapGet m.lcMap k = some i) :
    ∃ a key, m.attrs[i]? = some a ∧ a.key = some key ∧ k = lowerStr key := by
  obtain ⟨a, key, h1, h2, h3⟩ := is.listed k i hg
  exact ⟨a, key, h1, h2, by rw [h3, lower_spec]⟩

theorem Spec.InStep.found' {m : Meta} (is : InStep m) {i : Nat} {a : Attr} {key : List Char} (h1 : m.attrs[i]? = some a) (h2 : a.key = some key) :
    mapGet m.lcMap (lowerStr key) = some i := by rw [← lower_spec]; exact is.found i a key h1 h2

theorem Spec.InStep.wf {m : Meta} (is : InStep m) : MetaWF m where
  lower := fun k i hk => by
    obtain ⟨_, key, _, _, rfl⟩ := is.listed' hk
    exact lowerStr_idem key
  range := fun k i hk => by
    obtain ⟨_, _, h1, _⟩ := is.listed' hk
    exact (List.getElem?_eq_some_iff.1 h1).1
  inj := fun k k' i hk hk' => by
    obtain ⟨a, key, h1, h2, rfl⟩ := is.listed' hk
    obtain ⟨a', key', h1', h2', rfl⟩ := is.listed' hk'
    rw [h1] at h1'
    cases h1'
    rw [h2] at h2'
    cases h2'
    rfl

theorem filterMap_range {α β : Type} (f : α → Option β) : ∀ (l : List α), (List.range l.length).filterMap (fun i => l[i]?.bind f) = l.filterMap f
  | [] => rfl
  | a :: l => by
    rw [List.length_cons, List.range_succ_eq_map, List.filterMap_cons, List.filterMap_map, List.filterMap_cons]
    have := filterMap_range f l
    simp only [Function.comp_def, List.getElem?_cons_succ, List.getElem?_cons_zero, Option.bind_some]
    rw [this]

theorem getAttributes_some {m : Meta} (wf : MetaWF m) : getAttributes m = .ok ((List.range m.attrs.length).filterMap fun i =>
    m.attrs[i]?.bind fun a => (nameAt m i).map fun k => (k, attrValueOf a)) := by
  have hall : (mapEntries m.lcMap).all (fun p => decide (p.2 < m.attrs.length)) = true := by
    rw [List.all_eq_true]
    rintro ⟨k, i⟩ hp
    exact decide_eq_true (wf.range _ _ (mem_mapEntries.1 hp))
  rw [getAttributes, if_pos hall]
  congr 1
  refine filterMap_same fun i hi => ?_
  rw [nameAt, List.getElem?_eq_getElem (List.mem_range.1 hi)]
  cases (mapEntries m.lcMap).find? (fun p => p.2 == i) <;> rfl

theorem Spec.InStep.agree {m : Meta} (is : InStep m) : getAttributes m = .ok (writtenAttrs m) := by
  rw [getAttributes_some is.wf, writtenAttrs, ← filterMap_range _ m.attrs]
  congr 1
  refine filterMap_same fun i hi => ?_
  have hi := List.mem_range.1 hi
  rw [List.getElem?_eq_getElem hi, Option.bind_some, Option.bind_some]
  have : nameAt m i = (m.attrs[i]).key.map lowerStr := by
    apply Option.ext
    intro k
    rw [nameAt_iff is.wf, Option.map_eq_some_iff]
    constructor
    · intro hg
      obtain ⟨a, key, h1, h2, h3⟩ := is.listed' hg
      rw [List.getElem?_eq_getElem hi, Option.some.injEq] at h1
      exact ⟨key, by rw [h1, h2], h3.symm⟩
    · rintro ⟨key, h1, rfl⟩
      exact is.found' (List.getElem?_eq_getElem hi) h1
  rw [this, Option.map_map]
  cases (m.attrs[i]).key with
  | none => rfl
  | some key =>
    simp only [Option.map_some, Function.comp_apply, lower_spec, attrValueOf]
    cases (m.attrs[i]).value <;> rfl

theorem inStep_set (x : AttrExt) {m : Meta} (is : InStep m) (n : List Char) (v : Option (List Char)) : ∃ m', setAttribute x m n v = .ok m' ∧ InStep m' := by
  unfold setAttribute
  cases hg : mapGet m.lcMap (lowerStr n) with
  | some i =>
    obtain ⟨a, key, h1, h2, h3⟩ := is.listed' hg
    simp only [h1]
    have hi := (List.getElem?_eq_some_iff.1 h1).1
    refine ⟨_, rfl, fun k j hk => ?_, fun j b key' hb hkey => ?_⟩
    · obtain ⟨b, key', g1, g2, g3⟩ := is.listed k j hk
      by_cases hij : i = j
      · subst hij
        rw [h1] at g1
        cases g1
        exact ⟨{ a with value := (v.map (quoteScan x)).map (·.content) }, key', by simp only [List.getElem?_set, hi, if_true], g2, g3⟩
      · exact ⟨b, key', by simp only [List.getElem?_set, hij, if_false]; exact g1, g2, g3⟩
    · simp only [List.getElem?_set, hi, if_true] at hb
      split at hb
      · rename_i hij
        subst hij
        cases hb
        exact is.found i a key' h1 hkey
      · exact is.found j b key' hb hkey
  | none =>
    refine ⟨_, rfl, fun k j hk => ?_, fun j b key' hb hkey => ?_⟩
    · simp only [mapGet_insert] at hk
      split at hk
      · rename_i he
        cases hk
        exact ⟨_, n, List.getElem?_concat_length, rfl, by rw [lower_spec, he]⟩
      · obtain ⟨b, key', g1, g2, g3⟩ := is.listed k j hk
        exact ⟨b, key', by rw [List.getElem?_append_left (List.getElem?_eq_some_iff.1 g1).1]; exact g1, g2, g3⟩
    · rw [lower_spec]
      simp only [mapGet_insert]
      by_cases hj : j < m.attrs.length
      · rw [List.getElem?_append_left hj] at hb
        have := is.found' hb hkey
        rw [if_neg (by intro he; rw [← he, hg] at this; cases this)]
        exact this
      · rw [List.getElem?_append_right (by omega)] at hb
        have hj' : j = m.attrs.length := by
          have := (List.getElem?_eq_some_iff.1 hb).1
          simp at this
          omega
        subst hj'
        simp at hb
        subst hb
        cases hkey
        rw [if_pos rfl]

theorem inStep_remove {m : Meta} (is : InStep m) (n : List Char) (hn : lowerStr n = n) : ∃ m', removeAttribute m n = .ok m' ∧ InStep m' := by
  unfold removeAttribute
  cases hg : mapGet m.lcMap (lowerStr n) with
  | none => exact ⟨m, rfl, is⟩
  | some i =>
    have hi := is.wf.range _ _ hg
    simp only [hi, if_true]
    refine ⟨_, rfl, fun k j hk => ?_, fun j b key' hb hkey => ?_⟩
    · simp only [mapGet_remove] at hk
      split at hk
      · cases hk
      · rename_i hne
        obtain ⟨b, key', g1, g2, g3⟩ := is.listed k j hk
        have hij : i ≠ j := by
          rintro rfl
          exact hne (by rw [← hn]; exact is.wf.inj _ _ _ hg hk)
        exact ⟨b, key', by simp only [List.getElem?_set, hij, if_false]; exact g1, g2, g3⟩
    · simp only [List.getElem?_set, hi, if_true] at hb
      split at hb
      · cases hb
        cases hkey
      · rename_i hij
        rw [lower_spec]
        have := is.found' hb hkey
        simp only [mapGet_remove]
        rw [if_neg (by intro he; rw [← he, ← hn, hg, Option.some.injEq] at this; exact hij this)]
        exact this

/-- C77: as long as attributes are removed under names without capital letters, `get_attributes` lists after every history exactly the attributes that are
written in the start tag, in the same order. -/
theorem C77_written_partial (x : AttrExt) {m : Meta} (is : InStep m) (ops : List AttrOp) (hops : ∀ n, .remove n ∈ ops → NoCapital n) :
    ∃ m', runAttrOps x m ops = .ok m' ∧ InStep m' ∧ getAttributes m' = .ok (writtenAttrs m') := by
  induction ops generalizing m with
  | nil => exact ⟨m, rfl, is, is.agree⟩
  | cons op ops ih =>
    obtain ⟨m1, h1, h2⟩ : ∃ m', runAttrOp x m op = .ok m' ∧ InStep m' := by
      cases op with
      | set n v => exact inStep_set x is n v
      | remove n => exact inStep_remove is n ((lowerStr_eq_self_iff _).2 (hops n (by simp)))
    obtain ⟨m', h3, h4⟩ := ih h2 fun n hn => hops n (by simp [hn])
    exact ⟨m', by simp [runAttrOps, h1, h3], h4⟩

/-- The name `k` is in the table, and no attribute is written under it. -/
def Unwritten (m : Meta) (k : List Char) : Prop :=
  MetaWF m ∧ (∃ i, mapGet m.lcMap k = some i) ∧ ∀ a ∈ m.attrs, ∀ key, a.key = some key → lowerStr key ≠ k

theorem unwritten_names {m : Meta} {k : List Char} (hu : Unwritten m k) : k ∉ (writtenAttrs m).map (·.1) := by
  intro hk
  obtain ⟨⟨k', v⟩, h1, rfl⟩ := List.mem_map.1 hk
  obtain ⟨a, ha, he⟩ := List.mem_filterMap.1 h1
  obtain ⟨key, h2, h3⟩ := Option.map_eq_some_iff.1 he
  rw [lower_spec] at h3
  exact hu.2.2 a ha key h2 (congrArg Prod.fst h3)

theorem unwritten_listed {m : Meta} {k : List Char} (hu : Unwritten m k) : ∃ l, getAttributes m = .ok l ∧ k ∈ l.map (·.1) := by
  obtain ⟨l, h1, h2, _⟩ := getAttributes_eq hu.1
  exact ⟨l, h1, h2 ▸ (mem_names hu.1).2 hu.2.1⟩

theorem unwritten_remove {m : Meta} (is : InStep m) {n : List Char} (hn : ¬ NoCapital n) (hp : viewOf m n ≠ none) :
    ∃ m', removeAttribute m n = .ok m' ∧ Unwritten m' (lowerStr n) := by
  obtain ⟨m', h1, wf', _⟩ := removeAttribute_spec is.wf n
  refine ⟨m', h1, wf', ?_⟩
  have hne : lowerStr n ≠ n := fun he => hn ((lowerStr_eq_self_iff _).1 he)
  rw [viewOf_eq is.wf] at hp
  unfold removeAttribute at h1
  cases hg : mapGet m.lcMap (lowerStr n) with
  | none => rw [hg] at hp; exact absurd rfl hp
  | some i =>
    rw [hg] at h1
    have hi := is.wf.range _ _ hg
    simp only [hi, if_true, Except.ok.injEq] at h1
    subst h1
    refine ⟨⟨i, ?_⟩, fun a ha key hk he => ?_⟩
    · simp only [mapGet_remove]
      rw [if_neg (Ne.symm hne)]
      exact hg
    · obtain ⟨j, hj⟩ := List.mem_iff_getElem?.1 ha
      simp only [List.getElem?_set, hi, if_true] at hj
      split at hj
      · cases hj
        cases hk
      · rename_i hij
        have := is.found' hj hk
        rw [he, hg, Option.some.injEq] at this
        exact hij this

theorem unwritten_op (x : AttrExt) {m : Meta} {k : List Char} (hu : Unwritten m k) (op : AttrOp) (hop : ∀ n, op = .remove n → n ≠ k) :
    ∃ m', runAttrOp x m op = .ok m' ∧ Unwritten m' k := by
  obtain ⟨wf, ⟨i, hi⟩, hw⟩ := hu
  have hr := wf.range _ _ hi
  have hl := wf.lower _ _ hi
  cases op with
  | set n v =>
    obtain ⟨m', h1, wf', _⟩ := setAttribute_spec x wf n v
    refine ⟨m', h1, wf', ?_⟩
    unfold setAttribute at h1
    dsimp only at h1
    cases hg : mapGet m.lcMap (lowerStr n) with
    | some j =>
      rw [hg] at h1
      have hj := wf.range _ _ hg
      simp only [List.getElem?_eq_getElem hj, Except.ok.injEq] at h1
      subst h1
      refine ⟨⟨i, hi⟩, fun a ha key hk => ?_⟩
      rcases List.mem_or_eq_of_mem_set ha with h2 | rfl
      · exact hw a h2 key hk
      · exact hw _ (List.getElem_mem hj) key hk
    | none =>
      rw [hg] at h1
      simp only [Except.ok.injEq] at h1
      subst h1
      have hnk : lowerStr n ≠ k := by rintro rfl; rw [hg] at hi; cases hi
      refine ⟨⟨i, by simp only [mapGet_insert, if_neg hnk]; exact hi⟩, fun a ha key hk => ?_⟩
      rcases List.mem_append.1 ha with h2 | h2
      · exact hw a h2 key hk
      · rw [List.mem_singleton] at h2
        subst h2
        cases hk
        exact hnk
  | remove n =>
    have hnk := hop n rfl
    obtain ⟨m', h1, wf', _⟩ := removeAttribute_spec wf n
    refine ⟨m', h1, wf', ?_⟩
    unfold removeAttribute at h1
    cases hg : mapGet m.lcMap (lowerStr n) with
    | none =>
      rw [hg] at h1
      simp only [Except.ok.injEq] at h1
      subst h1
      exact ⟨⟨i, hi⟩, hw⟩
    | some j =>
      rw [hg] at h1
      simp only [wf.range _ _ hg, if_true, Except.ok.injEq] at h1
      subst h1
      refine ⟨⟨i, by simp only [mapGet_remove, if_neg hnk]; exact hi⟩, fun a ha key hk => ?_⟩
      rcases List.mem_or_eq_of_mem_set ha with h2 | rfl
      · exact hw a h2 key hk
      · cases hk

/-- C77, exactly: after a removal the attributes listed are those written if and only if the name is given without capital letters, or was absent. -/
theorem C77_remove_exact_partial {m : Meta} (is : InStep m) (n : List Char) : ∃ m', removeAttribute m n = .ok m' ∧
    (getAttributes m' = .ok (writtenAttrs m') ↔ NoCapital n ∨ viewOf m n = none) := by
  by_cases hn : NoCapital n
  · obtain ⟨m', h1, h2⟩ := inStep_remove is n ((lowerStr_eq_self_iff _).2 hn)
    exact ⟨m', h1, iff_of_true h2.agree (.inl hn)⟩
  by_cases hp : viewOf m n = none
  · refine ⟨m, ?_, iff_of_true is.agree (.inr hp)⟩
    rw [viewOf_eq is.wf] at hp
    unfold removeAttribute
    cases hg : mapGet m.lcMap (lowerStr n) with
    | none => rfl
    | some i =>
      rw [hg] at hp
      simp only [Option.map_eq_none_iff, List.getElem?_eq_none_iff] at hp
      exact absurd (is.wf.range _ _ hg) (by omega)
  · obtain ⟨m', h1, h2⟩ := unwritten_remove is hn hp
    refine ⟨m', h1, iff_of_false (fun h3 => ?_) (by tauto)⟩
    obtain ⟨l, h4, h5⟩ := unwritten_listed h2
    rw [h3] at h4
    cases h4
    exact unwritten_names h2 h5

/-- C77, what happens otherwise: once a present attribute has been removed under a name with capital letters, whatever is set afterwards under this name can
be read but is not written, until the attribute is removed under its name in small letters. -/
theorem C77_unwritten (x : AttrExt) {m : Meta} (is : InStep m) {n : List Char} (hn : ¬ NoCapital n) (hp : viewOf m n ≠ none) (ops : List AttrOp)
    (hops : ∀ k, .remove k ∈ ops → NoCapital k → ¬ SameIgnoringCase k n) :
    ∃ m', runAttrOps x m (.remove n :: ops) = .ok m' ∧ (∃ v, getAttribute m' n = .ok (some v)) ∧ ∀ e ∈ writtenAttrs m', ¬ SameIgnoringCase e.1 n := by
  obtain ⟨m1, h1, h2⟩ := unwritten_remove is hn hp
  have key : ∀ (ops : List AttrOp), (∀ k, .remove k ∈ ops → NoCapital k → ¬ SameIgnoringCase k n) → ∀ m1, Unwritten m1 (lowerStr n) →
      ∃ m', runAttrOps x m1 ops = .ok m' ∧ Unwritten m' (lowerStr n) := by
    intro ops
    induction ops with
    | nil => exact fun _ m1 hu => ⟨m1, rfl, hu⟩
    | cons op ops ih =>
      intro hops m1 hu
      obtain ⟨m2, g1, g2⟩ := unwritten_op x hu op (by
        rintro k rfl rfl
        exact hops _ (by simp) ((lowerStr_eq_self_iff _).1 (lowerStr_idem n)) ((lowerStr_eq_iff _ _).1 (lowerStr_idem n)))
      obtain ⟨m', g3, g4⟩ := ih (fun k hk => hops k (by simp [hk])) m2 g2
      exact ⟨m', by simp [runAttrOps, g1, g3], g4⟩
  obtain ⟨m', h3, h4⟩ := key ops hops m1 h2
  refine ⟨m', by simp [runAttrOps, runAttrOp, h1, h3], ?_, fun e he hs => ?_⟩
  · obtain ⟨i, hi⟩ := h4.2.1
    obtain ⟨v, hv⟩ := getAttribute_ok h4.1 n
    unfold getAttribute at hv ⊢
    rw [hi] at hv ⊢
    simp only [List.getElem?_eq_getElem (h4.1.range _ _ hi)] at hv ⊢
    cases (m'.attrs[i]'(h4.1.range _ _ hi)).value <;> exact ⟨_, rfl⟩
  · refine unwritten_names h4 (List.mem_map.2 ⟨e, he, ?_⟩)
    obtain ⟨a, ha, h5⟩ := List.mem_filterMap.1 he
    obtain ⟨key, h6, h7⟩ := Option.map_eq_some_iff.1 h5
    have h8 : e.1 = lowerStr key := by rw [← h7, lower_spec]
    rw [h8, ← lowerStr_idem key, ← h8]
    exact (lowerStr_eq_iff _ _).2 hs

/-! ### Examples -/

theorem inStep_class (s : String) : InStep (classMeta s) where
  listed := fun k i hk => by
    simp only [classMeta, mapGet_cons] at hk
    split at hk
    · rename_i he
      cases hk
      exact ⟨_, "class".toList, rfl, rfl, by rw [← he]; decide⟩
    · cases hk
  found := fun i a key ha hk => by
    match i, ha with
    | 0, ha =>
      cases ha
      cases hk
      rfl

/-- A new attribute is written behind the others, a removed one is gone. -/
example : ∃ m', runAttrOps quoteEnc (classMeta "a b") [.set "ID".toList (some "x".toList), .remove "class".toList] = .ok m' ∧
    InStep m' ∧ getAttributes m' = .ok (writtenAttrs m') :=
  C77_written_partial quoteEnc (inStep_class "a b") _ (by
    intro n hn
    simp only [List.mem_cons, reduceCtorEq, AttrOp.remove.injEq, List.not_mem_nil, or_false, false_or] at hn
    subst hn
    decide)

/-- C77 is false for a removal under another spelling: the class that is set afterwards can be read, and is not in the HTML. -/
theorem C77_fails_capital : ∃ m', runAttrOps quoteEnc (classMeta "a b") [.remove "CLASS".toList, .set "class".toList (some "c".toList)] = .ok m' ∧
    getAttribute m' "class".toList = .ok (some (.value "c".toList none)) ∧ writtenAttrs m' = [] := ⟨_, rfl, by decide, by decide⟩

/-- The hypotheses of `C77_unwritten` are met by `remove_attr("CLASS")`, `add_class`, `set_attr`. -/
example : ∃ m', runAttrOps quoteEnc (classMeta "a b") [.remove "CLASS".toList, .set "class".toList (some "c".toList), .set "id".toList none,
      .remove "Class".toList, .set "claSS".toList (some "d".toList)] = .ok m' ∧
    (∃ v, getAttribute m' "CLASS".toList = .ok (some v)) ∧ ∀ e ∈ writtenAttrs m', ¬ SameIgnoringCase e.1 "CLASS".toList :=
  C77_unwritten quoteEnc (inStep_class "a b") (by decide) (by decide) _ (by
    intro n hn
    simp only [List.mem_cons, reduceCtorEq, AttrOp.remove.injEq, List.not_mem_nil, or_false, false_or] at hn
    subst hn
    decide)

end Visdom
