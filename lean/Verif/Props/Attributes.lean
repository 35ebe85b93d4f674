import Verif.Proofs.Attributes
import Verif.Props.Classes
/-!
# C57: `get_attributes`
-/
namespace Visdom
open Spec

/-- C57: `get_attributes` does not panic, names no attribute twice, and lists exactly what `get_attribute` answers, under names
in lower case. -/
theorem C57_lists (m : Meta) (wf : MetaWF m) : ∃ l, getAttributes m = .ok l ∧ (l.map (·.1)).Nodup ∧
    ∀ k v, (k, v) ∈ l ↔ NoCapital k ∧ getAttribute m k = .ok (some v) := by
  obtain ⟨l, h1, h2, h3⟩ := getAttributes_eq wf
  refine ⟨l, h1, h2 ▸ names_nodup wf, fun k v => ⟨fun hkv => ⟨?_, h3 k v hkv⟩, fun ⟨hn, hg⟩ => ?_⟩⟩
  · have : k ∈ names m := h2 ▸ List.mem_map.2 ⟨_, hkv, rfl⟩
    obtain ⟨i, hi⟩ := (mem_names wf).1 this
    exact (lowerStr_eq_self_iff _).1 (wf.lower _ _ hi)
  · have : k ∈ names m := by
      rw [mem_names wf]
      rw [getAttribute, (lowerStr_eq_self_iff _).2 hn] at hg
      cases hm : mapGet m.lcMap k with
      | none => rw [hm] at hg; cases hg
      | some i => exact ⟨i, rfl⟩
    rw [← h2] at this
    obtain ⟨⟨k', v'⟩, hp, rfl⟩ := List.mem_map.1 this
    have := h3 k' v' hp
    rw [hg] at this
    cases this
    exact hp

theorem names_iff {m : Meta} (wf : MetaWF m) (n : List Char) : (∃ k ∈ names m, SameIgnoringCase k n) ↔ lowerStr n ∈ names m := by
  constructor
  · rintro ⟨k, hk, hs⟩
    obtain ⟨i, hi⟩ := (mem_names wf).1 hk
    rw [← (lowerStr_eq_iff k n).2 hs, wf.lower _ _ hi]
    exact hk
  · intro hm
    exact ⟨_, hm, (lowerStr_eq_iff _ _).1 (lowerStr_idem n)⟩

/-- C57: the order of the listed attributes after any history of writes and removals. Missing: removals under a name with a
capital letter, after which the library still lists the attribute (`C57_fails_capital`). -/
theorem C57_order_partial (x : AttrExt) (m : Meta) (wf : MetaWF m) (ops : List AttrOp) (hops : ∀ n, .remove n ∈ ops → NoCapital n) :
    ∃ m' l l', runAttrOps x m ops = .ok m' ∧ MetaWF m' ∧ getAttributes m = .ok l ∧ getAttributes m' = .ok l' ∧
      l'.map (·.1) = ops.foldl AttrOp.names (l.map (·.1)) := by
  obtain ⟨l, h1, h2, -⟩ := getAttributes_eq wf
  suffices hs : ∃ m', runAttrOps x m ops = .ok m' ∧ MetaWF m' ∧ names m' = ops.foldl AttrOp.names (names m) by
    obtain ⟨m', a, b, c⟩ := hs
    obtain ⟨l', g1, g2, -⟩ := getAttributes_eq b
    exact ⟨m', l, l', a, b, h1, g1, by rw [g2, h2, c]⟩
  clear h1 h2 l
  induction ops generalizing m with
  | nil => exact ⟨m, rfl, wf, rfl⟩
  | cons op ops ih =>
    obtain ⟨m', a, b, c⟩ : ∃ m', runAttrOp x m op = .ok m' ∧ MetaWF m' ∧ names m' = AttrOp.names (names m) op := by
      cases op with
      | set n v =>
        obtain ⟨m', a, b, -⟩ := setAttribute_spec x wf n v
        refine ⟨m', a, b, ?_⟩
        rw [names_set x wf n v b a, AttrOp.names]
        by_cases hm : lowerStr n ∈ names m
        · rw [if_pos hm, if_pos ((names_iff wf n).2 hm)]
        · rw [if_neg hm, if_neg (fun hc => hm ((names_iff wf n).1 hc))]
          rw [lowerStr]
          congr 2
          refine List.map_congr_left fun c _ => ?_
          rw [← toNat_asciiLower, Char.ofNat_toNat]
      | remove n =>
        have hn := (lowerStr_eq_self_iff _).2 (hops n (by simp))
        obtain ⟨m', a, b, -⟩ := removeAttribute_spec wf n
        refine ⟨m', a, b, ?_⟩
        rw [names_remove wf n b hn a, AttrOp.names]
        refine List.filter_congr fun k hk => ?_
        obtain ⟨i, hi⟩ := (mem_names wf).1 hk
        rw [decide_eq_decide, ← lowerStr_eq_iff, wf.lower _ _ hi, hn]
    obtain ⟨m'', a', b', c'⟩ := ih m' b (fun n hn => hops n (by simp [hn]))
    refine ⟨m'', by simp [runAttrOps, a, a'], b', ?_⟩
    rw [c', c, List.foldl_cons]

example : ∃ m', runAttrOps quoteEnc (classMeta "a b") [.set "ID".toList (some "x".toList), .set "class".toList none, .remove "class".toList,
      .set "Class".toList (some "y".toList)] = .ok m' ∧
    getAttributes m' = .ok [("id".toList, .value "x".toList (some '"')), ("class".toList, .value "y".toList (some '"'))] := ⟨_, rfl, by decide⟩

/-- C57 is false for a removal under another spelling: the attribute is still listed. -/
theorem C57_fails_capital : ∃ m', runAttrOps quoteEnc (classMeta "a b") [.remove "Class".toList] = .ok m' ∧
    getAttributes m' = .ok [("class".toList, .tru)] := ⟨_, rfl, by decide⟩

end Visdom
