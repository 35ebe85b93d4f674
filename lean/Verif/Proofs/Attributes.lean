import Verif.Model.SetAttrs
import Verif.Proofs.Attr
import Mathlib.Data.List.Nodup
/-!
# The names listed by `get_attributes`
-/
namespace Visdom
open Spec

theorem filterMap_same {α β : Type} {f g : α → Option β} {l : List α} (he : ∀ x ∈ l, f x = g x) : l.filterMap f = l.filterMap g := by
  induction l with
  | nil => rfl
  | cons a l ih => rw [List.filterMap_cons, List.filterMap_cons, he a (by simp), ih fun x hx => he x (by simp [hx])]

theorem mem_of_mapGet {m : List (List Char × Nat)} {k : List Char} {i : Nat} (hg : mapGet m k = some i) : (k, i) ∈ m := by
  unfold mapGet at hg
  cases hf : m.find? (fun p => p.1 == k) with
  | none => rw [hf] at hg; cases hg
  | some p =>
    rw [hf] at hg
    have h1 := List.mem_of_find?_eq_some hf
    have h2 := List.find?_some hf
    obtain ⟨a, b⟩ := p
    simp only [Option.map_some, Option.some.injEq] at hg
    simp only [beq_iff_eq] at h2
    subst hg h2
    exact h1

theorem mem_mapEntries {m : List (List Char × Nat)} {k : List Char} {i : Nat} : (k, i) ∈ mapEntries m ↔ mapGet m k = some i := by
  unfold mapEntries
  rw [List.mem_filter, beq_iff_eq]
  exact ⟨fun a => a.2, fun a => ⟨mem_of_mapGet a, a⟩⟩

/-- The name with the given position. -/
def nameAt (m : Meta) (i : Nat) : Option (List Char) := ((mapEntries m.lcMap).find? fun p => p.2 == i).map (·.1)

theorem nameAt_iff {m : Meta} (wf : MetaWF m) {i : Nat} {k : List Char} : nameAt m i = some k ↔ mapGet m.lcMap k = some i := by
  unfold nameAt
  constructor
  · intro hn
    cases hf : (mapEntries m.lcMap).find? (fun p => p.2 == i) with
    | none => rw [hf] at hn; cases hn
    | some p =>
      obtain ⟨a, b⟩ := p
      rw [hf] at hn
      have h1 := mem_mapEntries.1 (List.mem_of_find?_eq_some hf)
      have h2 := List.find?_some hf
      simp only [Option.map_some, Option.some.injEq] at hn
      simp only [beq_iff_eq] at h2
      subst hn h2
      exact h1
  · intro hg
    cases hf : (mapEntries m.lcMap).find? (fun p => p.2 == i) with
    | none =>
      have := List.find?_eq_none.1 hf _ (mem_mapEntries.2 hg)
      simp at this
    | some p =>
      obtain ⟨a, b⟩ := p
      have h1 := mem_mapEntries.1 (List.mem_of_find?_eq_some hf)
      have h2 := List.find?_some hf
      simp only [beq_iff_eq] at h2
      subst h2
      rw [Option.map_some, wf.inj _ _ _ h1 hg]

/-- The listed names. -/
def names (m : Meta) : List (List Char) := (List.range m.attrs.length).filterMap (nameAt m)

theorem getAttributes_eq {m : Meta} (wf : MetaWF m) : ∃ l, getAttributes m = .ok l ∧ l.map (·.1) = names m ∧
    ∀ k v, (k, v) ∈ l → getAttribute m k = .ok (some v) := by
  have hall : (mapEntries m.lcMap).all (fun p => decide (p.2 < m.attrs.length)) = true := by
    rw [List.all_eq_true]
    rintro ⟨k, i⟩ hp
    exact decide_eq_true (wf.range _ _ (mem_mapEntries.1 hp))
  refine ⟨_, by rw [getAttributes, if_pos hall], ?_, ?_⟩
  · rw [List.map_filterMap, names]
    apply filterMap_same
    intro i hi
    have hi := List.mem_range.1 hi
    rw [nameAt, List.getElem?_eq_getElem hi]
    cases (mapEntries m.lcMap).find? (fun p => p.2 == i) <;> rfl
  · intro k v hkv
    obtain ⟨i, hi, he⟩ := List.mem_filterMap.1 hkv
    have hi := List.mem_range.1 hi
    rw [List.getElem?_eq_getElem hi] at he
    cases hf : (mapEntries m.lcMap).find? (fun p => p.2 == i) with
    | none => rw [hf] at he; cases he
    | some p =>
      rw [hf] at he
      obtain ⟨a, b⟩ := p
      simp only [Option.some.injEq, Prod.mk.injEq] at he
      obtain ⟨rfl, rfl⟩ := he
      have h1 := mem_mapEntries.1 (List.mem_of_find?_eq_some hf)
      have h2 := List.find?_some hf
      simp only [beq_iff_eq] at h2
      subst h2
      rw [getAttribute, wf.lower _ _ h1, h1]
      simp only [List.getElem?_eq_getElem hi, attrValueOf]
      cases (m.attrs[b]).value <;> rfl

theorem mem_names {m : Meta} (wf : MetaWF m) {k : List Char} : k ∈ names m ↔ ∃ i, mapGet m.lcMap k = some i := by
  unfold names
  rw [List.mem_filterMap]
  constructor
  · rintro ⟨i, -, hn⟩
    exact ⟨i, (nameAt_iff wf).1 hn⟩
  · rintro ⟨i, hg⟩
    exact ⟨i, List.mem_range.2 (wf.range _ _ hg), (nameAt_iff wf).2 hg⟩

theorem names_nodup {m : Meta} (wf : MetaWF m) : (names m).Nodup := by
  unfold names
  refine List.Nodup.filterMap (fun i j k hi hj => ?_) List.nodup_range
  have h1 := (nameAt_iff wf).1 hi
  have h2 := (nameAt_iff wf).1 hj
  rw [h1] at h2
  exact Option.some.inj h2

theorem nameAt_congr {m m' : Meta} (wf : MetaWF m) (wf' : MetaWF m') {i : Nat}
    (he : ∀ k, mapGet m.lcMap k = some i ↔ mapGet m'.lcMap k = some i) : nameAt m i = nameAt m' i := by
  apply Option.ext
  intro k
  rw [nameAt_iff wf, nameAt_iff wf', he]

theorem names_set (e : AttrExt) {m m' : Meta} (wf : MetaWF m) (n : List Char) (v : Option (List Char)) (wf' : MetaWF m')
    (hs : setAttribute e m n v = .ok m') : names m' = if lowerStr n ∈ names m then names m else names m ++ [lowerStr n] := by
  unfold setAttribute at hs
  dsimp only at hs
  cases hg : mapGet m.lcMap (lowerStr n) with
  | some i =>
    rw [hg] at hs
    have hi := wf.range _ _ hg
    simp only [List.getElem?_eq_getElem hi, Except.ok.injEq] at hs
    rw [if_pos ((mem_names wf).2 ⟨i, hg⟩)]
    subst hs
    unfold names
    rw [List.length_set]
    exact filterMap_same fun j _ => nameAt_congr wf' wf fun k => Iff.rfl
  | none =>
    rw [hg] at hs
    simp only [Except.ok.injEq] at hs
    rw [if_neg (fun hm => by obtain ⟨i, hi⟩ := (mem_names wf).1 hm; rw [hg] at hi; cases hi)]
    have hget : ∀ k, mapGet m'.lcMap k = if lowerStr n = k then some m.attrs.length else mapGet m.lcMap k := by
      subst hs; exact fun k => mapGet_insert _ _ _ _
    have hlen : m'.attrs.length = m.attrs.length + 1 := by subst hs; simp
    unfold names
    rw [hlen, List.range_succ, List.filterMap_append]
    congr 1
    · refine filterMap_same fun j hj => nameAt_congr wf' wf fun k => ?_
      have hj := List.mem_range.1 hj
      rw [hget]
      split
      · rename_i hk
        subst hk
        rw [hg]
        simp only [Option.some.injEq, reduceCtorEq, iff_false]
        omega
      · rfl
    · have : nameAt m' m.attrs.length = some (lowerStr n) := (nameAt_iff wf').2 (by rw [hget, if_pos rfl])
      simp [this]

theorem names_remove {m m' : Meta} (wf : MetaWF m) (n : List Char) (wf' : MetaWF m') (hn : lowerStr n = n)
    (hs : removeAttribute m n = .ok m') : names m' = (names m).filter fun k => decide (k ≠ n) := by
  unfold removeAttribute at hs
  rw [hn] at hs
  cases hg : mapGet m.lcMap n with
  | none =>
    rw [hg] at hs
    simp only [Except.ok.injEq] at hs
    subst hs
    rw [List.filter_eq_self.2]
    intro k hk
    obtain ⟨i, hi⟩ := (mem_names wf).1 hk
    simp only [decide_eq_true_eq]
    rintro rfl
    rw [hg] at hi; cases hi
  | some i =>
    rw [hg] at hs
    simp only [if_pos (wf.range _ _ hg), Except.ok.injEq] at hs
    have hget : ∀ k, mapGet m'.lcMap k = if n = k then none else mapGet m.lcMap k := by
      subst hs; exact fun k => mapGet_remove _ _ _
    have hlen : m'.attrs.length = m.attrs.length := by subst hs; simp
    unfold names
    rw [hlen, List.filter_filterMap]
    refine filterMap_same fun j _ => Option.ext fun k => ?_
    rw [nameAt_iff wf', hget, Option.filter_eq_some_iff, nameAt_iff wf]
    by_cases hk : n = k
    · simp [hk]
    · simp [hk, Ne.symm hk]

end Visdom
