import Verif.Proofs.Strings
import Verif.Spec.Attr
/-! Lemmas about the attribute store. -/
namespace Visdom
open Spec

theorem mapGet_cons (k k' : List Char) (v : Nat) (m : List (List Char × Nat)) :
    mapGet ((k', v) :: m) k = if k' = k then some v else mapGet m k := by
  unfold mapGet
  by_cases h : k' = k
  · simp [h]
  · have : (k' == k) = false := by simpa using h
    simp [List.find?_cons, this, h]

theorem mapGet_remove (m : List (List Char × Nat)) (k k' : List Char) :
    mapGet (mapRemove m k') k = if k' = k then none else mapGet m k := by
  induction m with
  | nil => simp [mapRemove, mapGet]
  | cons p m ih =>
    obtain ⟨a, b⟩ := p
    unfold mapRemove at ih ⊢
    by_cases h1 : a = k'
    · subst h1
      simp only [List.filter_cons, beq_self_eq_true, Bool.not_true, Bool.false_eq_true, if_false, ih]
      by_cases h2 : a = k
      · simp [h2]
      · simp [h2, mapGet_cons]
    · have : (a == k') = false := by simpa using h1
      simp only [List.filter_cons, this, Bool.not_false, if_true, mapGet_cons, ih]
      by_cases h2 : k' = k
      · subst h2; simp [h1]
      · simp [h2]

theorem mapGet_insert (m : List (List Char × Nat)) (k k' : List Char) (v : Nat) :
    mapGet (mapInsert m k' v) k = if k' = k then some v else mapGet m k := by
  unfold mapInsert
  rw [mapGet_cons, mapGet_remove]
  by_cases h : k' = k <;> simp [h]

/-- The invariant of the attribute store: the map's keys are lower case, its positions exist, and
different names have different positions. It holds for the empty store and is kept by every operation. -/
structure MetaWF (m : Meta) : Prop where
  lower : ∀ k i, mapGet m.lcMap k = some i → lowerStr k = k
  range : ∀ k i, mapGet m.lcMap k = some i → i < m.attrs.length
  inj : ∀ k k' i, mapGet m.lcMap k = some i → mapGet m.lcMap k' = some i → k = k'

theorem metaWF_empty : MetaWF {} := by
  constructor <;> intros <;> simp_all [mapGet]

/-- What a reader sees, as in the specification. -/
def seen (v : Option AttrValue) : Option (Option (List Char)) :=
  match v with
  | none => none
  | some .tru => some none
  | some (.value s _) => some (some s)

/-- The store read through `get_attribute` (a panic reads as absent; `MetaWF` excludes panics). -/
def viewOf (m : Meta) : Store := fun k =>
  match getAttribute m k with
  | .ok v => seen v
  | .error _ => none

theorem getAttribute_ok {m : Meta} (h : MetaWF m) (n : List Char) : ∃ v, getAttribute m n = .ok v := by
  unfold getAttribute
  cases hg : mapGet m.lcMap (lowerStr n) with
  | none => exact ⟨_, rfl⟩
  | some i =>
    have := h.range _ _ hg
    simp only [List.getElem?_eq_getElem this]
    cases (m.attrs[i]).value <;> exact ⟨_, rfl⟩

theorem viewOf_eq {m : Meta} (h : MetaWF m) (n : List Char) :
    viewOf m n = match mapGet m.lcMap (lowerStr n) with
      | none => none
      | some i => (m.attrs[i]?).map (·.value) := by
  unfold viewOf getAttribute
  cases hg : mapGet m.lcMap (lowerStr n) with
  | none => rfl
  | some i =>
    have := h.range _ _ hg
    simp only [List.getElem?_eq_getElem this]
    cases hv : (m.attrs[i]).value <;> simp [seen, hv]

theorem setAttribute_spec (x : AttrExt) {m : Meta} (h : MetaWF m) (n : List Char) (v : Option (List Char)) :
    ∃ m', setAttribute x m n v = .ok m' ∧ MetaWF m' ∧
      ∀ k, viewOf m' k = if SameIgnoringCase k n then some (v.map fun s => (quoteScan x s).content) else viewOf m k := by
  unfold setAttribute
  cases hg : mapGet m.lcMap (lowerStr n) with
  | some i =>
    have hi := h.range _ _ hg
    simp only [List.getElem?_eq_getElem hi]
    refine ⟨_, rfl, ?_, ?_⟩
    · exact ⟨h.lower, fun k j hk => by simpa using h.range k j hk, h.inj⟩
    · have wf' : MetaWF { m with attrs := m.attrs.set i { m.attrs[i] with value := (v.map (quoteScan x)).map (·.content) } } :=
        ⟨h.lower, fun k j hk => by simpa using h.range k j hk, h.inj⟩
      intro k
      rw [viewOf_eq wf', viewOf_eq h]
      simp only
      by_cases hk : SameIgnoringCase k n
      · rw [if_pos hk, (lowerStr_eq_iff k n).2 hk, hg]
        simp [List.getElem?_set, hi, Function.comp_def]
      · rw [if_neg hk]
        cases hg2 : mapGet m.lcMap (lowerStr k) with
        | none => rfl
        | some j =>
          have hij : i ≠ j := by
            rintro rfl
            exact hk ((lowerStr_eq_iff k n).1 (h.inj _ _ _ hg2 hg))
          simp [List.getElem?_set, hij]
  | none =>
    have wf' : MetaWF (Meta.mk (m.attrs ++ [Attr.mk (some n) ((v.map (quoteScan x)).map (·.content))
          ((v.map (quoteScan x)).map (·.quote)) (((v.map (quoteScan x)).map (·.needQuote)).getD false)])
        (mapInsert m.lcMap (lowerStr n) m.attrs.length)) := by
      constructor
      · intro k i hk
        simp only [mapGet_insert] at hk
        split at hk
        · rename_i e; rw [← e, lowerStr_idem]
        · exact h.lower _ _ hk
      · intro k i hk
        simp only [mapGet_insert] at hk
        split at hk
        · simp at hk; simp [← hk]
        · have := h.range _ _ hk; simp; omega
      · intro k k' i hk hk'
        simp only [mapGet_insert] at hk hk'
        split at hk <;> split at hk'
        · rename_i e1 e2; rw [← e1, ← e2]
        · have := h.range _ _ hk'; simp at hk; omega
        · have := h.range _ _ hk; simp at hk'; omega
        · exact h.inj _ _ _ hk hk'
    refine ⟨_, rfl, wf', ?_⟩
    intro k
    rw [viewOf_eq wf', viewOf_eq h]
    simp only [mapGet_insert]
    by_cases hk : SameIgnoringCase k n
    · have e := (lowerStr_eq_iff k n).2 hk
      rw [if_pos hk, if_pos e.symm]
      simp [Function.comp_def]
    · rw [if_neg hk, if_neg (fun e => hk ((lowerStr_eq_iff k n).1 e.symm))]
      cases hg2 : mapGet m.lcMap (lowerStr k) with
      | none => rfl
      | some j =>
        have := h.range _ _ hg2
        simp [List.getElem?_append, this]

theorem removeAttribute_spec {m : Meta} (h : MetaWF m) (n : List Char) :
    ∃ m', removeAttribute m n = .ok m' ∧ MetaWF m' ∧
      ∀ k, viewOf m' k =
        if SameIgnoringCase k n then
          (if lowerStr n = n then none else (viewOf m k).map fun _ => none)
        else viewOf m k := by
  unfold removeAttribute
  cases hg : mapGet m.lcMap (lowerStr n) with
  | none =>
    refine ⟨m, rfl, h, fun k => ?_⟩
    by_cases hk : SameIgnoringCase k n
    · rw [if_pos hk, viewOf_eq h, (lowerStr_eq_iff k n).2 hk, hg]
      simp
    · rw [if_neg hk]
  | some i =>
    have hi := h.range _ _ hg
    simp only [hi, if_true]
    have wf' : MetaWF { attrs := m.attrs.set i {}, lcMap := mapRemove m.lcMap n } := by
      constructor
      · intro k j hk
        simp only [mapGet_remove] at hk
        split at hk
        · cases hk
        · exact h.lower _ _ hk
      · intro k j hk
        simp only [mapGet_remove] at hk
        split at hk
        · cases hk
        · simpa using h.range _ _ hk
      · intro k k' j hk hk'
        simp only [mapGet_remove] at hk hk'
        split at hk
        · cases hk
        · split at hk'
          · cases hk'
          · exact h.inj _ _ _ hk hk'
    refine ⟨_, rfl, wf', fun k => ?_⟩
    rw [viewOf_eq wf', viewOf_eq h]
    simp only [mapGet_remove]
    by_cases hk : SameIgnoringCase k n
    · rw [if_pos hk, (lowerStr_eq_iff k n).2 hk, hg]
      by_cases hl : lowerStr n = n
      · simp [hl]
      · have : ¬ n = lowerStr n := fun e => hl e.symm
        simp [hl, this, hi, List.getElem?_set]
    · rw [if_neg hk]
      have hne : lowerStr k ≠ lowerStr n := fun e => hk ((lowerStr_eq_iff k n).1 e)
      by_cases hl : n = lowerStr k
      · exfalso
        apply hne
        rw [hl, lowerStr_idem]
      · rw [if_neg hl]
        cases hg2 : mapGet m.lcMap (lowerStr k) with
        | none => rfl
        | some j =>
          have hij : i ≠ j := by
            rintro rfl
            exact hne (h.inj _ _ _ hg2 hg)
          simp [List.getElem?_set, hij]

/-! ### the value scan -/

/-- the wrapping quote chosen by the scan of `v`: double, unless the first quote in `v` is double -/
def wrapQuote (v : List Char) : Char :=
  match v.find? (fun c => c == '"' || c == '\'') with
  | some '"' => '\''
  | _ => '"'

theorem scan_found (x : AttrExt) (v : List Char) (s : QuoteLoop) (hs : s.findQuote = true)
    (hq : s.quote = '"' ∨ s.quote = '\'') :
    (v.foldl (quoteStep x) s).quote = s.quote ∧
    (v.foldl (quoteStep x) s).content = s.content ++ v.flatMap fun c =>
      if c = s.quote then (x.enc c).getD [c] else [c] := by
  induction v generalizing s with
  | nil => simp
  | cons c v ih =>
    have step : (quoteStep x s c).findQuote = true ∧ (quoteStep x s c).quote = s.quote ∧
        (quoteStep x s c).content = s.content ++ (if c = s.quote then (x.enc c).getD [c] else [c]) := by
      unfold quoteStep
      by_cases hn : s.needQuote
      all_goals
        simp only [hn, if_true, Bool.false_eq_true, if_false]
        by_cases hc : c = '"' ∨ c = '\''
        · have : (c == '"' || c == '\'') = true := by simpa using hc
          simp only [this, if_true, hs]
          by_cases he : s.quote = c
          · simp only [he, beq_self_eq_true, if_true]
            cases x.enc c <;> simp_all
          · have h2 : (s.quote == c) = false := by simpa using he
            have h3 : ¬ c = s.quote := fun e => he e.symm
            simp [h2, h3, hs]
        · have : (c == '"' || c == '\'') = false := by simpa using hc
          have h3 : ¬ c = s.quote := by rintro rfl; exact hc hq
          simp [this, h3, hs]
    obtain ⟨h1, h2, h3⟩ := step
    have := ih (quoteStep x s c) h1 (by rw [h2]; exact hq)
    simp only [List.foldl_cons, this, h2, h3, List.flatMap_cons, List.append_assoc, and_self]

theorem scan_spec (x : AttrExt) (v : List Char) :
    (quoteScan x v).quote = wrapQuote v ∧
    (quoteScan x v).content = v.flatMap fun c => if c = wrapQuote v then (x.enc c).getD [c] else [c] := by
  have key : ∀ (v : List Char) (s : QuoteLoop), s.findQuote = false → s.quote = '"' →
      (v.foldl (quoteStep x) s).quote = wrapQuote v ∧
      (v.foldl (quoteStep x) s).content = s.content ++ v.flatMap fun c =>
        if c = wrapQuote v then (x.enc c).getD [c] else [c] := by
    intro v
    induction v with
    | nil => intro s hs hq; simp [wrapQuote, hq]
    | cons c v ih =>
      intro s hs hq
      by_cases hc : c = '"' ∨ c = '\''
      · -- the first quote
        have hcb : (c == '"' || c == '\'') = true := by simpa using hc
        have hw : wrapQuote (c :: v) = if c = '"' then '\'' else '"' := by
          rcases hc with rfl | rfl <;> simp [wrapQuote]
        have step : (quoteStep x s c).findQuote = true ∧
            (quoteStep x s c).quote = (if c = '"' then '\'' else '"') ∧
            (quoteStep x s c).content = s.content ++ [c] := by
          unfold quoteStep
          by_cases hn : s.needQuote <;> simp [hn, hs, hq, hcb]
        obtain ⟨h1, h2, h3⟩ := step
        have := scan_found x v (quoteStep x s c) h1 (by rw [h2]; split <;> simp)
        rw [List.foldl_cons, this.1, this.2, h2, h3, hw]
        refine ⟨rfl, ?_⟩
        have hne : ¬ c = (if c = '"' then '\'' else '"') := by
          rcases hc with rfl | rfl <;> simp
        simp only [List.flatMap_cons, if_neg hne, List.append_assoc]
      · have hcb : (c == '"' || c == '\'') = false := by simpa using hc
        have hw : wrapQuote (c :: v) = wrapQuote v := by
          simp [wrapQuote, hcb]
        have step : (quoteStep x s c).findQuote = false ∧ (quoteStep x s c).quote = '"' ∧
            (quoteStep x s c).content = s.content ++ [c] := by
          unfold quoteStep
          by_cases hn : s.needQuote <;> simp [hn, hs, hq, hcb]
        obtain ⟨h1, h2, h3⟩ := step
        have := ih (quoteStep x s c) h1 h2
        rw [List.foldl_cons, this.1, this.2, h3, hw]
        have hne : ¬ c = wrapQuote v := by
          intro e
          apply hc
          rw [e]; unfold wrapQuote; split <;> simp
        simp only [List.flatMap_cons, if_neg hne, List.append_assoc, and_self]
  have := key v {} rfl rfl
  simpa [quoteScan] using this

theorem wrapQuote_cases (v : List Char) :
    (wrapQuote v = '"' ∧ (('"' ∈ v → '\'' ∈ v))) ∨ (wrapQuote v = '\'' ∧ '"' ∈ v) := by
  unfold wrapQuote
  cases h : v.find? (fun c => c == '"' || c == '\'') with
  | none =>
    left
    refine ⟨rfl, fun hm => ?_⟩
    rw [List.find?_eq_none] at h
    exact absurd (h _ hm) (by simp)
  | some c =>
    have hc := List.find?_some h
    have hm := List.mem_of_find?_eq_some h
    have hc' : c = '"' ∨ c = '\'' := by simpa using hc
    rcases hc' with rfl | rfl
    · right; exact ⟨rfl, hm⟩
    · left; exact ⟨rfl, fun _ => hm⟩

/-- A value with at most one kind of quote is stored as it is. -/
theorem scan_content_of_one_quote (x : AttrExt) (v : List Char) (h : ¬ ('"' ∈ v ∧ '\'' ∈ v)) :
    (quoteScan x v).content = v := by
  rw [(scan_spec x v).2]
  have hw : wrapQuote v ∉ v := by
    rcases wrapQuote_cases v with ⟨h1, h2⟩ | ⟨h1, h2⟩
    · rw [h1]; intro hm; exact h ⟨hm, h2 hm⟩
    · rw [h1]; intro hm; exact h ⟨h2, hm⟩
  have : ∀ l : List Char, wrapQuote v ∉ l → (l.flatMap fun c => if c = wrapQuote v then (x.enc c).getD [c] else [c]) = l := by
    intro l hl
    induction l with
    | nil => rfl
    | cons c l ih =>
      have hc : ¬ c = wrapQuote v := fun e => hl (by simp [e])
      rw [List.flatMap_cons, if_neg hc, ih (fun hm => hl (by simp [hm]))]
      rfl
  exact this v hw

end Visdom
