import Verif.Proofs.Attr
/-!
# C07 (write then read), C08 (removal), C09 (quoting)
-/
namespace Visdom
open Spec

/-- The value contains at most one of the two kinds of quote. -/
def OneQuoteKind (v : List Char) : Prop := ¬ ('"' ∈ v ∧ '\'' ∈ v)
instance (v : List Char) : Decidable (OneQuoteKind v) := by unfold OneQuoteKind; infer_instance

/-- The name contains no ASCII capital letter. -/
def NoCapital (n : List Char) : Prop := ∀ c ∈ n, ¬ (65 ≤ c.toNat ∧ c.toNat ≤ 90)
instance (v : List Char) : Decidable (NoCapital v) := by unfold NoCapital; infer_instance

theorem lowerStr_eq_self_iff (n : List Char) : lowerStr n = n ↔ NoCapital n := by
  induction n with
  | nil => simp [lowerStr, NoCapital]
  | cons c n ih =>
    have hc : asciiLower c = c ↔ ¬ (65 ≤ c.toNat ∧ c.toNat ≤ 90) := by
      rw [char_eq_iff, toNat_asciiLower]
      unfold lowerCode
      split <;> constructor <;> intro h <;> omega
    simp only [lowerStr, List.map_cons, List.cons.injEq, NoCapital, List.mem_cons, forall_eq_or_imp] at ih ⊢
    rw [hc, ih]

/-- Run one user operation of the specification on the model. -/
def runAttrOp (x : AttrExt) (m : Meta) : AttrOp → R Meta
  | .set n v => setAttribute x m n v
  | .remove n => removeAttribute m n

/-- Run a history, oldest first; a panic stops it. -/
def runAttrOps (x : AttrExt) (m : Meta) : List AttrOp → R Meta
  | [] => .ok m
  | op :: rest =>
    match runAttrOp x m op with
    | .error e => .error e
    | .ok m' => runAttrOps x m' rest

/-- An operation on which the library keeps its promise. -/
def OpOk : AttrOp → Prop
  | .set _ (some v) => OneQuoteKind v
  | .set _ none => True
  | .remove n => NoCapital n

/-- Attribute methods never panic, whatever the history, and always leave a readable store. -/
theorem C07_never_panics (x : AttrExt) (m : Meta) (wf : MetaWF m) (ops : List AttrOp) :
    ∃ m', runAttrOps x m ops = .ok m' ∧ MetaWF m' ∧ ∀ n, ∃ v, getAttribute m' n = .ok v := by
  induction ops generalizing m with
  | nil => exact ⟨m, rfl, wf, getAttribute_ok wf⟩
  | cons op ops ih =>
    cases op with
    | set n v =>
      obtain ⟨m', h1, h2, _⟩ := setAttribute_spec x wf n v
      simpa [runAttrOps, runAttrOp, h1] using ih m' h2
    | remove n =>
      obtain ⟨m', h1, h2, _⟩ := removeAttribute_spec wf n
      simpa [runAttrOps, runAttrOp, h1] using ih m' h2

/-- **C07 + C08, all histories**: the attribute store behaves as a finite map under case-insensitive
names: the last write wins under every letter case, removals erase, other names are untouched.
Partial: values with both kinds of quote and removals under a name with a capital letter are excluded. -/
theorem C07_history_partial (x : AttrExt) (m : Meta) (wf : MetaWF m) (ops : List AttrOp)
    (hops : ∀ op ∈ ops, OpOk op) :
    ∃ m', runAttrOps x m ops = .ok m' ∧ ∀ n, viewOf m' n = runStore (viewOf m) ops n := by
  induction ops generalizing m with
  | nil => exact ⟨m, rfl, fun n => rfl⟩
  | cons op ops ih =>
    have hop := hops op (by simp)
    have step : ∃ m', runAttrOp x m op = .ok m' ∧ MetaWF m' ∧ viewOf m' = op.apply (viewOf m) := by
      cases op with
      | set n v =>
        obtain ⟨m', h1, h2, h3⟩ := setAttribute_spec x wf n v
        refine ⟨m', h1, h2, funext fun k => ?_⟩
        rw [h3 k]
        cases v with
        | none => rfl
        | some v => simp only [Option.map_some, scan_content_of_one_quote x v hop, AttrOp.apply]
      | remove n =>
        obtain ⟨m', h1, h2, h3⟩ := removeAttribute_spec wf n
        refine ⟨m', h1, h2, funext fun k => ?_⟩
        rw [h3 k, if_pos ((lowerStr_eq_self_iff n).2 hop)]
        rfl
    obtain ⟨m', h1, h2, h3⟩ := step
    obtain ⟨m'', h4, h5⟩ := ih m' h2 (fun o ho => hops o (by simp [ho]))
    refine ⟨m'', by simp [runAttrOps, h1, h4], fun n => ?_⟩
    rw [h5 n, h3]
    rfl

/-- **C07**: one write, then a read under any letter case; every other name reads as before. For every
value: what is read back is the value with each occurrence of the quote it will be wrapped in replaced
by its entity. -/
theorem C07_set_get_exact (x : AttrExt) (m : Meta) (wf : MetaWF m) (n : List Char) (v : List Char) :
    ∃ m', setAttribute x m n (some v) = .ok m' ∧ MetaWF m' ∧
      (∀ k, SameIgnoringCase k n → viewOf m' k = some (some
        (v.flatMap fun c => if c = wrapQuote v then (x.enc c).getD [c] else [c]))) ∧
      (∀ k, ¬ SameIgnoringCase k n → viewOf m' k = viewOf m k) := by
  obtain ⟨m', h1, h2, h3⟩ := setAttribute_spec x wf n (some v)
  refine ⟨m', h1, h2, fun k hk => ?_, fun k hk => ?_⟩
  · rw [h3 k, if_pos hk, Option.map_some, (scan_spec x v).2]
  · rw [h3 k, if_neg hk]

/-- **C07** (partial: one kind of quote): what was written is read back under any letter case. -/
theorem C07_set_get_partial (x : AttrExt) (m : Meta) (wf : MetaWF m) (n : List Char) (v : List Char)
    (hv : OneQuoteKind v) :
    ∃ m', setAttribute x m n (some v) = .ok m' ∧ MetaWF m' ∧
      (∀ k, SameIgnoringCase k n → viewOf m' k = some (some v)) ∧
      (∀ k, ¬ SameIgnoringCase k n → viewOf m' k = viewOf m k) := by
  obtain ⟨m', h1, h2, h3⟩ := setAttribute_spec x wf n (some v)
  refine ⟨m', h1, h2, fun k hk => ?_, fun k hk => ?_⟩
  · rw [h3 k, if_pos hk, Option.map_some, scan_content_of_one_quote x v hv]
  · rw [h3 k, if_neg hk]

/-- **C07**, the exact condition: with an encoder that gives both quotes longer names (as HTML's entities are), what was
written is read back iff it contains at most one kind of quote. -/
theorem C07_read_back_exact_partial (x : AttrExt) (hx : ∀ c, c = '"' ∨ c = '\'' → ∃ e, x.enc c = some e ∧ 1 < e.length) (m : Meta)
    (wf : MetaWF m) (n : List Char) (v : List Char) :
    ∃ m', setAttribute x m n (some v) = .ok m' ∧ ((∀ k, SameIgnoringCase k n → viewOf m' k = some (some v)) ↔ OneQuoteKind v) := by
  obtain ⟨m', h1, _, h3, _⟩ := C07_set_get_exact x m wf n v
  refine ⟨m', h1, fun hv => ?_, fun hv => ?_⟩
  · rintro ⟨hd, hs⟩
    have he := (hv n rfl).symm.trans (h3 n rfl)
    simp only [Option.some.injEq] at he
    have hq : wrapQuote v = '"' ∨ wrapQuote v = '\'' := by
      rcases wrapQuote_cases v with h | h
      · exact Or.inl h.1
      · exact Or.inr h.1
    have hm : wrapQuote v ∈ v := by rcases hq with h | h <;> rw [h] <;> assumption
    obtain ⟨e, he1, he2⟩ := hx _ hq
    have hlen : ∀ l : List Char, l.length ≤ (l.flatMap fun c => if c = wrapQuote v then (x.enc c).getD [c] else [c]).length ∧
        (wrapQuote v ∈ l → l.length < (l.flatMap fun c => if c = wrapQuote v then (x.enc c).getD [c] else [c]).length) := by
      intro l
      induction l with
      | nil => exact ⟨Nat.le_refl _, fun h => by cases h⟩
      | cons c l ih =>
        rw [List.flatMap_cons, List.length_append, List.length_cons]
        by_cases hc : c = wrapQuote v
        · rw [if_pos hc, hc, he1, Option.getD_some]
          exact ⟨by omega, fun _ => by omega⟩
        · rw [if_neg hc, List.length_singleton]
          refine ⟨by omega, fun hmem => ?_⟩
          rcases List.mem_cons.1 hmem with h | h
          · exact absurd h.symm hc
          · have := ih.2 h
            omega
    have := (hlen v).2 hm
    rw [← he] at this
    omega
  · obtain ⟨m'', h4, _, h5, _⟩ := C07_set_get_partial x m wf n v hv
    rw [h1] at h4
    obtain rfl := Except.ok.inj h4
    exact h5

/-- The encoder the witnesses use: the named entities of the two quotes. -/
def quoteEnc : AttrExt where
  enc c := if c = '"' then some "&quot;".toList else if c = '\'' then some "&apos;".toList else none
  needQuoted _ := false

/-- **C07 fails** for a value with both kinds of quote: it is read back with an entity in it. -/
theorem C07_fails_both_quotes :
    ∃ m', setAttribute quoteEnc {} "a".toList (some ['\'', '"']) = .ok m' ∧
      viewOf m' "a".toList = some (some "'&quot;".toList) ∧ "'&quot;".toList ≠ ['\'', '"'] := by
  refine ⟨_, rfl, ?_⟩
  decide

example : ∀ c, c = '"' ∨ c = '\'' → ∃ e, quoteEnc.enc c = some e ∧ 1 < e.length := by
  rintro c (rfl | rfl)
  · exact ⟨"&quot;".toList, by decide, by decide⟩
  · exact ⟨"&apos;".toList, by decide, by decide⟩

/-- **C08**, exact: after removal the attribute is gone when the name was given without capital letters;
given with a capital letter an attribute that was present stays present and loses its value. Other names are
untouched in both cases. -/
theorem C08_remove_exact (m : Meta) (wf : MetaWF m) (n : List Char) :
    ∃ m', removeAttribute m n = .ok m' ∧ MetaWF m' ∧
      (∀ k, SameIgnoringCase k n → (viewOf m' k = none ↔ NoCapital n ∨ viewOf m k = none)) ∧
      (∀ k, ¬ SameIgnoringCase k n → viewOf m' k = viewOf m k) := by
  obtain ⟨m', h1, h2, h3⟩ := removeAttribute_spec wf n
  refine ⟨m', h1, h2, fun k hk => ?_, fun k hk => ?_⟩
  · rw [h3 k, if_pos hk, ← lowerStr_eq_self_iff]
    by_cases hl : lowerStr n = n <;> simp [hl]
  · rw [h3 k, if_neg hk]

/-- **C08** (partial: names without capital letters): after removal `has_attr` is false under any letter case. -/
theorem C08_remove_partial (m : Meta) (wf : MetaWF m) (n : List Char) (hn : NoCapital n) :
    ∃ m', removeAttribute m n = .ok m' ∧
      (∀ k, SameIgnoringCase k n → hasAttribute m' k = .ok false) ∧
      (∀ k, ¬ SameIgnoringCase k n → hasAttribute m' k = hasAttribute m k ∧ viewOf m' k = viewOf m k) := by
  obtain ⟨m', h1, h2, h3⟩ := removeAttribute_spec wf n
  have hseen : ∀ {m : Meta}, MetaWF m → ∀ k, hasAttribute m k = .ok (viewOf m k).isSome := by
    intro m wf k
    unfold hasAttribute viewOf
    obtain ⟨v, hv⟩ := getAttribute_ok wf k
    rw [hv]
    rcases v with _ | v
    · rfl
    · cases v <;> rfl
  refine ⟨m', h1, fun k hk => ?_, fun k hk => ?_⟩
  · rw [hseen h2, h3 k, if_pos hk, if_pos ((lowerStr_eq_self_iff n).2 hn)]
    rfl
  · rw [hseen h2, hseen wf, h3 k, if_neg hk]
    exact ⟨rfl, rfl⟩

/-- **C08 fails** for a name with a capital letter: set `id`, remove `ID`: `id` is still there. -/
theorem C08_fails_capital :
    ∃ m m', setAttribute quoteEnc {} "id".toList (some "x".toList) = .ok m ∧
      removeAttribute m "ID".toList = .ok m' ∧ hasAttribute m' "id".toList = .ok true := by
  refine ⟨_, _, rfl, rfl, ?_⟩
  decide

/-- **C09** (partial: the attribute is new): the stored value does not contain the quote stored with it,
provided the entity encoder replaces each kind of quote by a text without quotes. -/
theorem C09_quote_safe_partial (x : AttrExt)
    (hx : ∀ q, q = '"' ∨ q = '\'' → ∃ e, x.enc q = some e ∧ '"' ∉ e ∧ '\'' ∉ e)
    (m : Meta) (wf : MetaWF m) (n v : List Char) (hnew : viewOf m n = none) :
    ∃ m' s q, setAttribute x m n (some v) = .ok m' ∧ getAttribute m' n = .ok (some (.value s (some q))) ∧
      (q = '"' ∨ q = '\'') ∧ q ∉ s := by
  have hg : mapGet m.lcMap (lowerStr n) = none := by
    rw [viewOf_eq wf] at hnew
    cases hg : mapGet m.lcMap (lowerStr n) with
    | none => rfl
    | some i =>
      have := wf.range _ _ hg
      simp [hg, List.getElem?_eq_getElem this] at hnew
  have hs := scan_spec x v
  have hw : wrapQuote v = '"' ∨ wrapQuote v = '\'' := by
    rcases wrapQuote_cases v with h | h <;> simp [h.1]
  refine ⟨_, (quoteScan x v).content, (quoteScan x v).quote, by simp only [setAttribute, hg]; rfl, ?_, ?_, ?_⟩
  · simp [getAttribute, mapGet_insert]
  · rw [hs.1]; exact hw
  · rw [hs.1, hs.2]
    simp only [List.mem_flatMap, not_exists, not_and]
    intro c _
    by_cases hc : c = wrapQuote v
    · rw [if_pos hc]
      obtain ⟨e, he, h1, h2⟩ := hx c (hc ▸ hw)
      rw [he]
      rcases hw with h | h <;> rw [h] <;> simpa using (by assumption)
    · rw [if_neg hc]
      simpa using fun e => hc e.symm

/-- **C09**, exactly for an attribute that exists: it keeps its quote `q`, and the new value escapes from it exactly if `q` is the first
quote in the value. -/
theorem C09_existing_partial (x : AttrExt)
    (hx : ∀ q, q = '"' ∨ q = '\'' → ∃ e, x.enc q = some e ∧ '"' ∉ e ∧ '\'' ∉ e)
    (m : Meta) (n v s0 : List Char) (q : Char) (hq : q = '"' ∨ q = '\'') (hold : getAttribute m n = .ok (some (.value s0 (some q)))) :
    ∃ m' s, setAttribute x m n (some v) = .ok m' ∧ getAttribute m' n = .ok (some (.value s (some q))) ∧
      (q ∈ s ↔ v.find? (fun c => c == '"' || c == '\'') = some q) := by
  unfold getAttribute at hold
  cases hg : mapGet m.lcMap (lowerStr n) with
  | none => rw [hg] at hold; cases hold
  | some i =>
    rw [hg] at hold
    simp only at hold
    cases ha : m.attrs[i]? with
    | none => rw [ha] at hold; cases hold
    | some a =>
      rw [ha] at hold
      simp only at hold
      have haq : a.quote = some q := by
        cases hv : a.value with
        | none => rw [hv] at hold; cases hold
        | some w =>
          rw [hv] at hold
          simp only [Except.ok.injEq, Option.some.injEq, AttrValue.value.injEq] at hold
          exact hold.2
      have hi : i < m.attrs.length := by
        rw [List.getElem?_eq_some_iff] at ha; exact ha.1
      refine ⟨_, (quoteScan x v).content, by simp only [setAttribute, hg, ha]; rfl, ?_, ?_⟩
      · simp only [getAttribute, hg, List.getElem?_set_self hi, Option.map_some, haq]
      rw [(scan_spec x v).2]
      have hw : wrapQuote v = '"' ∨ wrapQuote v = '\'' := by
        rcases wrapQuote_cases v with h | h <;> simp [h.1]
      have key : q ∈ (v.flatMap fun c => if c = wrapQuote v then (x.enc c).getD [c] else [c]) ↔ q ∈ v ∧ q ≠ wrapQuote v := by
        rw [List.mem_flatMap]
        constructor
        · rintro ⟨c, hc, hqc⟩
          by_cases hcw : c = wrapQuote v
          · rw [if_pos hcw] at hqc
            obtain ⟨e, he, h1, h2⟩ := hx c (hcw ▸ hw)
            rw [he] at hqc
            rcases hq with rfl | rfl
            · exact absurd hqc h1
            · exact absurd hqc h2
          · rw [if_neg hcw, List.mem_singleton] at hqc
            subst hqc
            exact ⟨hc, hcw⟩
        · rintro ⟨h1, h2⟩
          exact ⟨q, h1, by rw [if_neg h2]; simp⟩
      rw [key]
      unfold wrapQuote
      cases hf : v.find? (fun c => c == '"' || c == '\'') with
      | none =>
        rw [List.find?_eq_none] at hf
        constructor
        · rintro ⟨h1, _⟩
          exact absurd (by rcases hq with rfl | rfl <;> rfl) (hf q h1)
        · intro h1; cases h1
      | some c =>
        have hc : c = '"' ∨ c = '\'' := by simpa using List.find?_some hf
        have hm := List.mem_of_find?_eq_some hf
        constructor
        · rintro ⟨_, h2⟩
          rcases hc with rfl | rfl <;> rcases hq with rfl | rfl <;> first | rfl | exact absurd rfl h2
        · intro h1
          obtain rfl := Option.some.inj h1
          refine ⟨hm, ?_⟩
          rcases hq with rfl | rfl <;> decide

/-- **C09 fails** when the attribute exists: `a='x'` keeps its single quotes, and `it's` is stored as it is. -/
theorem C09_fails_existing :
    ∃ m : Meta, MetaWF m ∧ ∃ m', setAttribute quoteEnc m "a".toList (some "it's".toList) = .ok m' ∧
      getAttribute m' "a".toList = .ok (some (.value "it's".toList (some '\''))) := by
  refine ⟨{ attrs := [{ key := some "a".toList, value := some "x".toList, quote := some '\'' }],
            lcMap := [("a".toList, 0)] }, ?_, _, rfl, by decide⟩
  constructor
  · intro k i h
    rw [mapGet_cons] at h
    split at h
    · rename_i e; subst e; decide
    · simp [mapGet] at h
  · intro k i h
    rw [mapGet_cons] at h
    split at h
    · simp at h; subst h; decide
    · simp [mapGet] at h
  · intro k k' i h h'
    rw [mapGet_cons] at h h'
    split at h <;> split at h'
    · rename_i e e'; rw [← e, ← e']
    · simp [mapGet] at h'
    · simp [mapGet] at h
    · simp [mapGet] at h

/-! Cases meeting the hypotheses. -/
example : ∃ m, setAttribute quoteEnc {} "a".toList (some "x".toList) = .ok m ∧
    getAttribute m "A".toList = .ok (some (.value "x".toList (some '"'))) ∧
    "it's \"".toList.find? (fun c => c == '"' || c == '\'') = some '\'' ∧
    "say \"it's\"".toList.find? (fun c => c == '"' || c == '\'') = some '"' := ⟨_, rfl, by decide, by decide, by decide⟩
example : MetaWF {} := metaWF_empty
example : ∃ m, setAttribute quoteEnc {} "Data-X".toList (some "it's".toList) = .ok m ∧
    viewOf m "dATA-x".toList = some (some "it's".toList) ∧ OneQuoteKind "it's".toList := by
  refine ⟨_, rfl, by decide, by decide⟩
example : ∀ op ∈ [AttrOp.set "A".toList (some "1".toList), .remove "a".toList], OpOk op := by
  simp only [List.mem_cons, List.not_mem_nil, or_false, forall_eq_or_imp, forall_eq, OpOk]
  decide
example : ∀ q, q = '"' ∨ q = '\'' → ∃ e, quoteEnc.enc q = some e ∧ '"' ∉ e ∧ '\'' ∉ e := by
  rintro q (rfl | rfl)
  · exact ⟨_, rfl, by decide⟩
  · exact ⟨_, rfl, by decide⟩

end Visdom
