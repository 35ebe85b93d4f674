import Verif.Props.MutExact
import Verif.Props.SetText
/-!
# C75: moving there and back, and putting back what was removed
-/
namespace Visdom.Spec

/-- The node `n` stands where an insertion of it at `t` puts it: last or first child of `t`, immediately before or after `t`. -/
def Stands (h : Heap) (D : Nat → Prop) (t n : Nat) : InsertPosition → Prop
  | .beforeEnd => ∃ A, h.kids t = A ++ [n]
  | .afterBegin => ∃ B, h.kids t = n :: B
  | .afterEnd => ∃ p A B, ¬ D p ∧ h.kids p = A ++ t :: n :: B
  | .beforeBegin => ∃ p A B, ¬ D p ∧ h.kids p = A ++ n :: t :: B

end Visdom.Spec

namespace Visdom
open Spec

section
variable {h g : Heap} {D : Nat → Prop} {e : Ext}

theorem filter_notMem_single (l : List Nat) (n : Nat) : l.filter (· ∉ [n]) = l.filter (· ≠ n) :=
  List.filter_congr fun x _ => by simp

theorem filter_middle {A B : List Nat} {n : Nat} (hn : (A ++ n :: B).Nodup) : (A ++ n :: B).filter (· ≠ n) = A ++ B := by
  have h1 : n ∉ A := fun h8 => (List.nodup_append.1 hn).2.2 n h8 n (by simp) rfl
  have h2 : n ∉ B := (List.nodup_cons.1 (List.nodup_append.1 hn).2.1).1
  rw [List.filter_append, filter_ne_self h1, List.filter_cons, filter_ne_self h2]
  simp

/-- What one insertion does, if the node cannot get lost. -/
theorem insert_place (ok : HeapOk g D) {pos : InsertPosition} {t n : Nat} (u : Usable e g D (.insert pos t n)) (ha : Accepted e g t n)
    (hk : (g.node n).kind ≠ .root) (w : Welcome e g pos t [n]) : ∃ g', g.insertAdjacent e pos t n = .ok g' ∧ Kept g g' D ∧
      (∀ q, ¬ D q → (g'.kids q).filter (· ≠ n) = (g.kids q).filter (· ≠ n)) ∧ Stands g' D t n pos := by
  have hm : moved g n = [n] := if_neg hk
  have hDt := tag_live ok ha.1
  obtain ⟨g1, r1, kept⟩ := insert_kept ok (pos := pos) (dest := [n]) (by simp) ⟨u.1, u.2.2.2.2⟩ ⟨u.2.1, u.2.2.2.1, hk⟩ w
  refine ⟨g1, r1, kept, ?_⟩
  by_cases hp : pos = .afterBegin ∨ pos = .beforeEnd
  · obtain ⟨h', r2, k1, k2, k3, -⟩ := insert_inside ok u ha hp
    rw [r1] at r2; cases r2
    have hal : e.allow (g.tagNames t) n = true := by
      unfold Welcome at w; rw [if_pos hp] at w; exact w n (by simp)
    simp only [hm, filter_notMem_single, List.filter_cons, hal, if_true, List.filter_nil] at k1 k2 k3
    refine ⟨fun q hq => ?_, ?_⟩
    · by_cases hqt : q = t
      · subst hqt
        rw [k1]; split <;> simp
      · rw [k2 q hq hqt (.inr hk)]; simp
    · rcases hp with rfl | rfl
      · exact ⟨_, by rw [k1]; simp; rfl⟩
      · exact ⟨_, by rw [k1]; simp; rfl⟩
  · have w' := w
    unfold Welcome at w'
    rw [if_neg hp] at w'
    obtain ⟨p, hpar⟩ := Option.ne_none_iff_exists'.1 w'
    obtain ⟨h', A, B, r2, k1, k2, k3, k4, -⟩ := insert_beside ok u ha hp hpar
    rw [r1] at r2; cases r2
    simp only [hm, filter_notMem_single, List.cons_append, List.nil_append] at k1 k2 k3 k4
    have hDp := (u.1 p hpar).1
    refine ⟨fun q hq => ?_, ?_⟩
    · by_cases hqt : q = p
      · subst hqt
        have hnd := kept.ok.kids_nodup hq
        rw [k1]
        rw [k2] at hnd ⊢
        split at hnd
        · rename_i hpp
          rw [if_pos hpp, show A ++ t :: n :: B = (A ++ [t]) ++ n :: B by simp]
          rw [show A ++ t :: n :: B = (A ++ [t]) ++ n :: B by simp] at hnd
          rw [filter_middle hnd]; simp
        · rename_i hpp
          rw [if_neg hpp, filter_middle hnd]
      · rw [k3 q hq hqt (.inr hk)]; simp
    · cases pos with
      | afterBegin => simp at hp
      | beforeEnd => simp at hp
      | afterEnd => exact ⟨p, A, B, hDp, by simpa using k2⟩
      | beforeBegin => exact ⟨p, A, B, hDp, by simpa using k2⟩

/-- Two heaps that differ only in the place of `n`: an insertion of `n` in the one, at the place it has in the other, makes them equal. -/
theorem insert_like (okg : HeapOk g D) (okh : HeapOk h D) {pos : InsertPosition} {t n : Nat} (u : Usable e g D (.insert pos t n))
    (ha : Accepted e g t n) (hk : (g.node n).kind ≠ .root) (w : Welcome e g pos t [n])
    (hs : ∀ q, ¬ D q → (g.kids q).filter (· ≠ n) = (h.kids q).filter (· ≠ n)) (st : Stands h D t n pos) :
    ∃ g', g.insertAdjacent e pos t n = .ok g' ∧ Kept g g' D ∧ ∀ q, ¬ D q → g'.kids q = h.kids q := by
  obtain ⟨g', r, kept, hf, st'⟩ := insert_place okg u ha hk w
  have hDt := tag_live okg ha.1
  have htn : t ≠ n := ha.2.2.1
  refine ⟨g', r, kept, ?_⟩
  -- the list that holds `n`, before and after
  obtain ⟨p, hDp, A, B, hh, hg⟩ : ∃ p, ¬ D p ∧ ∃ A B, h.kids p = A ++ n :: B ∧ g'.kids p = A ++ n :: B := by
    have hfp : ∀ p, ¬ D p → (g'.kids p).filter (· ≠ n) = (h.kids p).filter (· ≠ n) := fun p hp => (hf p hp).trans (hs p hp)
    cases pos with
    | beforeEnd =>
      obtain ⟨A, hA⟩ := st
      obtain ⟨A', hA'⟩ := st'
      have h1 := hfp t hDt
      have n1 := okh.kids_nodup hDt
      have n2 := kept.ok.kids_nodup hDt
      rw [hA] at n1 h1
      rw [hA'] at n2 h1
      rw [filter_middle n1, filter_middle n2] at h1
      simp only [List.append_nil] at h1
      subst h1
      exact ⟨t, hDt, _, [], hA, hA'⟩
    | afterBegin =>
      obtain ⟨A, hA⟩ := st
      obtain ⟨A', hA'⟩ := st'
      have h1 := hfp t hDt
      have n1 := okh.kids_nodup hDt
      have n2 := kept.ok.kids_nodup hDt
      rw [hA] at n1 h1
      rw [hA'] at n2 h1
      have f1 := filter_middle (A := []) n1
      have f2 := filter_middle (A := []) n2
      simp only [List.nil_append] at f1 f2
      rw [f1, f2] at h1
      subst h1
      exact ⟨t, hDt, [], _, hA, hA'⟩
    | afterEnd =>
      obtain ⟨p, A, B, hp, hA⟩ := st
      obtain ⟨p', A', B', hp', hA'⟩ := st'
      have ht : t ∈ (g'.kids p).filter (· ≠ n) := by rw [hfp p hp, hA]; simp [htn]
      have h2 := kept.ok.kid_parent hp (List.mem_filter.1 ht).1
      have h3 := kept.ok.kid_parent hp' (c := t) (by rw [hA']; simp)
      rw [h2] at h3; cases h3
      have n1 := okh.kids_nodup hp
      have n2 := kept.ok.kids_nodup hp
      have h1 := hfp p hp
      rw [hA, show A ++ t :: n :: B = (A ++ [t]) ++ n :: B by simp] at n1 h1
      rw [hA', show A' ++ t :: n :: B' = (A' ++ [t]) ++ n :: B' by simp] at n2 h1
      rw [filter_middle n1, filter_middle n2] at h1
      have t1 : t ∉ A := fun h4 => by
        rw [List.append_assoc] at n1; exact (List.nodup_append.1 n1).2.2 t h4 t (by simp) rfl
      have t2 : t ∉ A' := fun h4 => by
        rw [List.append_assoc] at n2; exact (List.nodup_append.1 n2).2.2 t h4 t (by simp) rfl
      obtain ⟨rfl, rfl⟩ := append_cons_unique (t := t) t2 t1 (by simpa using h1)
      exact ⟨p, hp, A' ++ [t], B', by simpa using hA, by simpa using hA'⟩
    | beforeBegin =>
      obtain ⟨p, A, B, hp, hA⟩ := st
      obtain ⟨p', A', B', hp', hA'⟩ := st'
      have ht : t ∈ (g'.kids p).filter (· ≠ n) := by rw [hfp p hp, hA]; simp [htn]
      have h2 := kept.ok.kid_parent hp (List.mem_filter.1 ht).1
      have h3 := kept.ok.kid_parent hp' (c := t) (by rw [hA']; simp)
      rw [h2] at h3; cases h3
      have n1 := okh.kids_nodup hp
      have n2 := kept.ok.kids_nodup hp
      have h1 := hfp p hp
      rw [hA] at n1 h1
      rw [hA'] at n2 h1
      rw [filter_middle n1, filter_middle n2] at h1
      have t1 : t ∉ A := fun h4 => (List.nodup_append.1 n1).2.2 t h4 t (by simp) rfl
      have t2 : t ∉ A' := fun h4 => (List.nodup_append.1 n2).2.2 t h4 t (by simp) rfl
      obtain ⟨rfl, rfl⟩ := append_cons_unique (t := t) t2 t1 (by simpa using h1)
      exact ⟨p, hp, A', t :: B', hA, hA'⟩
  intro q hq
  by_cases hqp : q = p
  · subst hqp; rw [hh, hg]
  · have n1 : n ∉ h.kids q := fun h1 => by
      have h2 := okh.kid_parent hq h1
      have h3 := okh.kid_parent hDp (c := n) (by rw [hh]; simp)
      rw [h2] at h3; cases h3; exact hqp rfl
    have n2 : n ∉ g'.kids q := fun h1 => by
      have h2 := kept.ok.kid_parent hq h1
      have h3 := kept.ok.kid_parent hDp (c := n) (by rw [hg]; simp)
      rw [h2] at h3; cases h3; exact hqp rfl
    have := (hf q hq).trans (hs q hq)
    rwa [filter_ne_self n1, filter_ne_self n2] at this

/-- After an insertion of `n` it can be inserted wherever it could be inserted before. -/
theorem accepted_again {h1 : Heap} {pos : InsertPosition} {t n t' : Nat} (he : h.insertAdjacent e pos t n = .ok h1)
    (hk : (h.node n).kind ≠ .root) (hd : SameData h h1) (ha : Accepted e h t' n) : Accepted e h1 t' n := by
  refine ⟨(hd t').1.trans ha.1, fun h2 => hk ((hd n).1 ▸ h2.1), ha.2.2.1, fun h2 => ha.2.2.2 ?_⟩
  rcases insertAdjacent_parent he with rfl | ⟨-, N, q, hN, -, hpar⟩
  · exact h2
  · have hN : ∀ m ∈ N, m = n := by
      rcases hN with ⟨-, h3⟩ | h3
      · exact absurd h3 hk
      · exact h3
    exact (above_stays hpar (fun h3 => ha.2.2.1 (hN t' h3)) (fun m hm => by rw [hN m hm]; exact ha.2.2.2) n).1 h2

/-- C75, the part that holds: a node that is moved to any place and then back to where it stood (after its former previous sibling,
before its former next sibling, or as first or last child of its former parent) leaves every list of children as it was before. Missing:
nodes taken away by `remove` or `replace_with` (`C75_reinsert`, `C75_replace_back`). -/
theorem C75_there_and_back_partial (ok : HeapOk h D) {pos pos' : InsertPosition} {t t' n : Nat} (u : Usable e h D (.insert pos t n))
    (ha : Accepted e h t n) (hk : (h.node n).kind ≠ .root) (w : Welcome e h pos t [n])
    (ht' : Attached h D t' ∧ t' < h.size) (ha' : Accepted e h t' n) (w' : Welcome e h pos' t' [n]) (st : Stands h D t' n pos') :
    ∃ h1 h2, h.insertAdjacent e pos t n = .ok h1 ∧ h1.insertAdjacent e pos' t' n = .ok h2 ∧ (∀ q, ¬ D q → h2.kids q = h.kids q) ∧
      SameData h h2 ∧ HeapOk h2 D := by
  obtain ⟨h1, r1, kept, hf, -⟩ := insert_place ok u ha hk w
  have u' : Usable e h1 D (.insert pos' t' n) :=
    ⟨kept.attached t' ht'.2 ht'.1, kept.attached n u.2.2.2.1 u.2.1, u.2.2.1, Nat.lt_of_lt_of_le u.2.2.2.1 kept.size, Nat.lt_of_lt_of_le ht'.2 kept.size⟩
  obtain ⟨h2, r2, kept2, hq⟩ := insert_like kept.ok ok u' (accepted_again r1 hk kept.data ha') (by rw [(kept.data n).1]; exact hk)
    (w'.kept kept) hf st
  exact ⟨h1, h2, r1, r2, hq, kept.data.trans kept2.data, kept2.ok⟩

/-- C75: an insertion of a node where it stands already changes no list. -/
theorem C75_same_place_partial (ok : HeapOk h D) {pos : InsertPosition} {t n : Nat} (u : Usable e h D (.insert pos t n))
    (ha : Accepted e h t n) (hk : (h.node n).kind ≠ .root) (w : Welcome e h pos t [n]) (st : Stands h D t n pos) :
    ∃ h1, h.insertAdjacent e pos t n = .ok h1 ∧ (∀ q, ¬ D q → h1.kids q = h.kids q) ∧ SameData h h1 ∧ HeapOk h1 D := by
  obtain ⟨h1, r1, kept, hq⟩ := insert_like ok ok u ha hk w (fun _ _ => rfl) st
  exact ⟨h1, r1, hq, kept.data, kept.ok⟩

/-- C75: the same insertion a second time changes no list. -/
theorem C75_again_partial (ok : HeapOk h D) {pos : InsertPosition} {t n : Nat} (u : Usable e h D (.insert pos t n))
    (ha : Accepted e h t n) (hk : (h.node n).kind ≠ .root) (w : Welcome e h pos t [n]) :
    ∃ h1 h2, h.insertAdjacent e pos t n = .ok h1 ∧ h1.insertAdjacent e pos t n = .ok h2 ∧ (∀ q, ¬ D q → h2.kids q = h1.kids q) ∧
      Stands h1 D t n pos := by
  obtain ⟨h1, r1, kept, -, st⟩ := insert_place ok u ha hk w
  have u' : Usable e h1 D (.insert pos t n) := ⟨kept.attached t u.2.2.2.2 u.1, kept.attached n u.2.2.2.1 u.2.1, u.2.2.1,
    Nat.lt_of_lt_of_le u.2.2.2.1 kept.size, Nat.lt_of_lt_of_le u.2.2.2.2 kept.size⟩
  obtain ⟨h2, r2, hq, -⟩ := C75_same_place_partial kept.ok u' (accepted_again r1 hk kept.data ha) (by rw [(kept.data n).1]; exact hk) (w.kept kept) st
  exact ⟨h1, h2, r1, r2, hq, st⟩

/-- C75: a new node (one without parent) that is inserted anywhere and removed again leaves every list of children as it was before. -/
theorem C75_insert_remove_partial (ok : HeapOk h D) {pos : InsertPosition} {t n : Nat} (u : Usable e h D (.insert pos t n))
    (ha : Accepted e h t n) (hk : (h.node n).kind ≠ .root) (w : Welcome e h pos t [n]) (hn : h.parent n = none) :
    ∃ h1 h2, h.insertAdjacent e pos t n = .ok h1 ∧ removeAll h1 [n] = .ok h2 ∧ (∀ q, ¬ D q → h2.kids q = h.kids q) ∧
      SameData h h2 ∧ HeapOk h2 D := by
  obtain ⟨h1, r1, kept, hf, -⟩ := insert_place ok u ha hk w
  obtain ⟨h2, r2, d⟩ := detach_detached kept.ok (kept.attached n u.2.2.2.1 u.2.1)
  refine ⟨h1, h2, r1, by simp only [removeAll, r2], fun q hq => ?_, kept.data.trans d.data, d.ok⟩
  rw [d.kids q hq, hf q hq, filter_ne_self (free_of_parent_none ok hn hq)]

/-! ### What was removed cannot be put back -/

theorem placeNodes_mem {h' : Heap} {pos : InsertPosition} {t : Nat} {N : List Nat} (he : h.placeNodes e pos t N = .ok h') {q m : Nat}
    (hm : m ∈ h'.kids q) : m ∈ h.kids q ∨ m ∈ N := by
  unfold Heap.placeNodes at he
  obtain ⟨M, hM, hall⟩ : ∃ M, (∀ m ∈ M, m ∈ N) ∧ (if pos = .afterBegin ∨ pos = .beforeEnd then
      (removeNotAllowed (e.allow (h.tagNames t)) N).map (·.1) else .ok N) = .ok M := by
    split
    · obtain ⟨b, hb⟩ := removeNotAllowed_eq (e.allow (h.tagNames t)) N
      exact ⟨_, fun m hm => (List.mem_filter.1 hm).1, by rw [hb.1]; rfl⟩
    · exact ⟨N, fun _ h1 => h1, rfl⟩
  simp only [hall] at he
  split at he
  · cases he; exact .inl hm
  suffices h1 : m ∈ h.kids q ∨ m ∈ M from h1.imp id (hM m)
  split at he
  · unfold Heap.insertInside at he
    obtain ⟨-, f2, -⟩ := setParent_fields t M h
    simp only [f2] at he
    cases hc : (h.node t).childs with
    | some cs =>
      simp only [hc] at he
      have hcs : h.kids t = cs := by simp [Heap.kids, hc]
      split at he
      · cases he
      split at he
      · cases he
        rw [setChilds_kids] at hm
        split at hm
        · rename_i h1; rw [h1, hcs]; simpa using hm
        · simp only [Heap.kids, (resetIndex_fields _ _ _).2.1, f2] at hm; exact .inl hm
      split at he
      · cases he
      · cases he
        rw [setChilds_kids] at hm
        split at hm
        · rename_i h1; rw [h1, hcs]; simpa [or_comm] using hm
        · simp only [Heap.kids, (resetIndex_fields _ _ _).2.1, f2] at hm; exact .inl hm
    | none =>
      simp only [hc] at he
      cases he
      rw [setChilds_kids] at hm
      split at hm
      · exact .inr hm
      · simp only [Heap.kids, (resetIndex_fields _ _ _).2.1, f2] at hm; exact .inl hm
  · unfold Heap.insertBeside at he
    have hr : ∀ (g : Heap) (s : Nat) (l : List Nat) (q : Nat), (g.resetIndex s l).kids q = g.kids q := fun g s l q => by
      simp only [Heap.kids, (resetIndex_fields _ _ _).2.1]
    have hs : ∀ (g : Heap) (s : Nat) (l : List Nat) (q : Nat), (g.setParent s l).kids q = g.kids q := fun g s l q => by
      simp only [Heap.kids, (setParent_fields _ _ _).2.1]
    simp only at he
    generalize (if decide (pos = InsertPosition.afterEnd) = true then h.index t + 1 else h.index t) = index at he
    split at he
    · cases he; rw [hr] at hm; exact .inl hm
    rename_i p _
    split at he
    · cases he
    split at he
    · cases he; rw [hr] at hm; exact .inl hm
    rename_i cs hc
    rw [(resetIndex_fields _ _ _).2.1] at hc
    have hcs : h.kids p = cs := by simp [Heap.kids, hc]
    have hn : ∀ m, m ∈ (if index < cs.length then cs.drop index else []) → m ∈ cs := fun m hm => by
      split at hm
      · exact List.mem_of_mem_drop hm
      · cases hm
    have hpv : ∀ m, m ∈ (if index < cs.length then cs.take index else cs) → m ∈ cs := fun m hm => by
      split at hm
      · exact List.mem_of_mem_take hm
      · exact hm
    generalize (if index < cs.length then cs.drop index else []) = nexts at he hn
    generalize (if index < cs.length then cs.take index else cs) = prevs at he hpv
    split at he
    · cases he
    split at he
    · cases he
      rw [setChilds_kids] at hm
      split at hm
      · rename_i h1
        rw [h1, hcs]
        simp only [Option.getD_some, List.mem_append] at hm
        exact hm.imp (hpv m) id
      · rw [hs, hr] at hm; exact .inl hm
    · cases he
      rw [setChilds_kids] at hm
      split at hm
      · rename_i h1
        rw [h1, hcs]
        simp only [Option.getD_some, List.mem_append] at hm
        rcases hm with (hm | hm) | hm
        · exact .inl (hpv m hm)
        · exact .inr hm
        · exact .inl (hn m hm)
      · rename_i h1
        rw [hr, setChilds_kids, if_neg h1, hs, hr] at hm
        exact .inl hm

/-- C75 fails for every removed element: an element with a parent that is removed and then inserted again, wherever that is, takes its
former next sibling out of the document; without a next sibling the insertion panics. -/
theorem C75_reinsert (ok : HeapOk h D) {x p : Nat} {A B : List Nat} (hp : h.parent x = some p) (hD : ¬ D p) (hkp : h.kids p = A ++ x :: B) :
    ∃ h1, removeAll h [x] = .ok h1 ∧ ∀ pos t, Accepted e h t x →
      (B = [] → h1.insertAdjacent e pos t x = .error (if A = [] then .overflow else .outOfBounds)) ∧
      ∀ y B', B = y :: B' → ∀ h2, h1.insertAdjacent e pos t x = .ok h2 → ∀ q, ¬ D q → y ∉ h2.kids q := by
  have hi : (h.kids p)[A.length]? = some x := by rw [hkp]; simp
  have hx : Attached h D x := by
    intro q hq
    rw [hp] at hq; cases hq
    exact ⟨hD, by rw [(ok.link p _ x hD hi).2]; exact hi⟩
  have hk : (h.node x).kind ≠ .root := ok.kid p x hD (by rw [hkp]; simp)
  obtain ⟨h1, r1, d⟩ := detach_detached ok hx
  obtain ⟨tw1, tw2⟩ := C34_twice ok hp hD hkp
  have htw : removeAll h [x, x] = h1.detach x := by
    simp only [removeAll, r1]
    cases h1.detach x <;> rfl
  rw [htw] at tw1 tw2
  refine ⟨h1, by simp only [removeAll, r1], fun pos t ha => ?_⟩
  have hk1 : (h1.node x).kind ≠ .root := by rw [(d.data x).1]; exact hk
  have ha1 : Accepted e h1 t x :=
    ⟨(d.data t).1.trans ha.1, fun h2 => hk1 h2.1, ha.2.2.1, fun h2 => ha.2.2.2 ((above_congr d.parent).1 h2)⟩
  have hf : h1.isFragment e x = false := by simp [Heap.isFragment, Heap.isRoot, hk1]
  have hrun : h1.insertAdjacent e pos t x = (h1.detach x).bind fun g => g.placeNodes e pos t [x] := by
    simp only [Heap.insertAdjacent, (Accepted.validate (e := e) d.ok).1 ha1, Heap.takeNodes, hf]
    cases h1.detach x <;> rfl
  rw [hrun]
  constructor
  · intro hB; rw [tw2 hB]; rfl
  · rintro y B' rfl h2 he q hq hy
    obtain ⟨g, g1, g2, g3⟩ := tw1 y B' rfl
    rw [g1] at he
    have hnd := ok.kids_nodup hD
    rw [hkp] at hnd
    have hyx : y ≠ x := by
      rintro rfl
      simp [List.nodup_append] at hnd
    have hpy : h.parent y = some p := ok.kid_parent hD (by rw [hkp]; simp)
    rcases placeNodes_mem he hy with hm | hm
    · by_cases hqp : q = p
      · subst hqp
        rw [g2] at hm
        simp only [List.nodup_append, List.nodup_cons, List.mem_cons] at hnd
        rcases List.mem_append.1 hm with h3 | h3
        · exact hnd.2.2 y h3 y (by simp) rfl
        · exact hnd.2.1.2.1 h3
      · rw [g3 q hqp] at hm
        have := ok.kid_parent hq hm
        rw [hpy] at this; cases this; exact hqp rfl
    · exact hyx (by simpa using hm)

/-- C75 fails for every replaced element: replacing an element by a new one and the new one by the old one again takes the next sibling out
of the document; without a next sibling the second call panics. -/
theorem C75_replace_back (ok : HeapOk h D) {t n p : Nat} {A B : List Nat} (hp : h.parent t = some p) (hD : ¬ D p)
    (hkp : h.kids p = A ++ t :: B) (hn : h.parent n = none) (hk : (h.node n).kind ≠ .root) (hb : n < h.size) (htn : t ≠ n) (hpn : ¬ Above h n t) :
    ∃ h1, h.replaceWith e t n = .ok (h1, n) ∧ h1.kids p = A ++ n :: B ∧
      (B = [] → h1.replaceWith e n t = .error .outOfBounds) ∧
      ∀ y B', B = y :: B' → ∃ h2, h1.replaceWith e n t = .ok (h2, t) ∧ h2.kids p = A ++ t :: B' ∧ ∀ q, ¬ D q → y ∉ h2.kids q := by
  have hi : (h.kids p)[A.length]? = some t := by rw [hkp]; simp
  have hidx : h.index t = A.length := (ok.link p _ t hD hi).2
  have ht : Attached h D t := by
    intro q hq
    rw [hp] at hq; cases hq
    exact ⟨hD, by rw [hidx]; exact hi⟩
  have hkt : (h.node t).kind ≠ .root := ok.kid p t hD (by rw [hkp]; simp)
  have htake : h.takeNodes e n = .ok (h, [n]) := by
    have hf : h.isFragment e n = false := by simp [Heap.isFragment, Heap.isRoot, hk]
    simp only [Heap.takeNodes, hf, detach_none hn]; rfl
  have hnd := ok.kids_nodup hD
  rw [hkp] at hnd
  have hfree : ∀ q, ¬ D q → n ∉ h.kids q := fun q hq => free_of_parent_none ok hn hq
  have hpp : p ≠ n := by rintro rfl; exact hpn (.parent hp)
  obtain ⟨h1, t', r1, r2⟩ := replaceWith_taken htake ok ht (by simpa using hfree) (by simpa using hk) (by simpa using hb)
    (by simpa using ⟨htn.symm, hpn⟩) (by simp)
  have ht' := replaceWith_handle (fun hd : IsDoc e h n => hk hd.1) r1
  have hm : moved h n = [n] := if_neg hk
  simp only [hm] at ht'
  rw [ht'] at r1
  rcases r2 with ⟨r2, -⟩ | ⟨r2, -⟩ | ⟨p', -, r3, -, -, s⟩
  · cases r2
  · rw [hp] at r2; cases r2
  rw [hp] at r3; cases r3
  rw [hidx] at s
  have hA : (h.kids p).take A.length = A := by rw [hkp]; simp
  have hB : (h.kids p).drop (A.length + 1) = B := by rw [hkp]; simp
  rw [hA, hB] at s
  have htA : t ∉ A := fun h2 => (List.nodup_append.1 hnd).2.2 t h2 t (by simp) rfl
  have htB : t ∉ B := (List.nodup_cons.1 (List.nodup_append.1 hnd).2.1).1
  have hnB : n ∉ B := fun h2 => hfree p hD (by rw [hkp]; simp [h2])
  have hpk : p ∉ h.kids p := fun h2 => ok.parent_ne (ok.kid_parent hD h2) rfl
  have hpB : p ∉ B := fun h2 => hpk (by rw [hkp]; simp [h2])
  have htp : t ≠ p := ok.parent_ne hp
  have hk1 : h1.kids p = A ++ n :: B := by rw [s.new]; simp
  have hc1 : (h1.node p).childs = some (A ++ n :: B) := by
    rw [childs_of_kid (h := h1) (p := p) (i := A.length) (c := n) (by rw [hk1]; simp), hk1]
  have ht1 : h1.index t = A.length := by rw [s.indexOther t (by simp [htA, htB, htn]), hidx]
  have hn1 : h1.index n = A.length := s.index A.length n (by simp)
  have hpt1 : h1.parent t = some p := by rw [s.parent, if_neg (by simpa using htn), hp]
  have hpn1 : h1.parent n = some p := by rw [s.parent, if_pos (by simp)]
  -- the removal of the old element takes out the new one
  obtain ⟨g, g1, g2, g3, g4, g5, g6⟩ : ∃ g, h1.detach t = .ok g ∧ (g.node p).childs = some (A ++ B) ∧ g.index n = A.length ∧
      g.parent n = some p ∧ (∀ q, q ≠ p → g.kids q = h1.kids q) ∧ ∀ y, (g.node y).kind = (h1.node y).kind := by
    have her : (A ++ n :: B).eraseIdx A.length = A ++ B := by
      rw [List.eraseIdx_append_of_length_le (Nat.le_refl _)]; simp
    have hdr : (A ++ n :: B).drop (A.length + 1) = B := by simp
    simp only [Heap.detach, hpt1, Heap.removeChild, if_true, hc1, ht1, her, hdr]
    rw [if_neg (by simp [htp.symm, hpB]), if_neg (by simp)]
    split
    · exact ⟨_, rfl, by simp [setChilds_childs], by rw [setChilds_index, hn1], by rw [setChilds_parent, hpn1],
        fun q hq => by rw [setChilds_kids, if_neg hq], fun y => (setChilds_data _ _ _ y).1⟩
    · rw [if_neg (by simp)]
      obtain ⟨f1, f2, f3, f4, f5, f6⟩ := resetIndex_fields B h1 A.length
      refine ⟨_, rfl, by simp [setChilds_childs], by rw [setChilds_index, f5 n hnB, hn1], by rw [setChilds_parent, f3, hpn1],
        fun q hq => ?_, fun y => ?_⟩
      · rw [setChilds_kids, if_neg hq]; exact kids_of_childs (f2 q)
      · rw [(setChilds_data _ _ _ y).1, (f4 y).1]
  have hf : h1.isFragment e t = false := by simp [Heap.isFragment, Heap.isRoot, (s.data t).1, hkt]
  have hrun : h1.replaceWith e n t = ((if (A ++ B).length < A.length + 1 then .error .outOfBounds else
      .ok ((((g.resetIndex A.length [t]).resetIndex (A.length + 1) ((A ++ B).drop (A.length + 1))).setParent p [t]).setChilds p
        (some ((A ++ B).take A.length ++ [t] ++ (A ++ B).drop (A.length + 1)))) : R Heap)).map (·, t) := by
    have hnd : n ∉ (A ++ B).drop (A.length + 1) := fun h2 => by
      rcases List.mem_append.1 (List.mem_of_mem_drop h2) with h3 | h3
      · exact hfree p hD (by rw [hkp]; simp [h3])
      · exact hnB h3
    have hpd : p ∉ (A ++ B).drop (A.length + 1) := fun h2 => by
      rcases List.mem_append.1 (List.mem_of_mem_drop h2) with h3 | h3
      · exact hpk (by rw [hkp]; simp [h3])
      · exact hpB h3
    simp only [Heap.replaceWith, Heap.takeNodes, hf, g1, Except.map, List.isEmpty_cons, Bool.false_eq_true, if_false, g4, g2, g3,
      hpp.symm, List.mem_singleton, htn.symm, htp.symm, or_self, hnd, hpd, and_false, List.length_singleton, Option.getD_some]
  refine ⟨h1, r1, hk1, fun hBe => ?_, fun y B' hBe => ?_⟩
  · subst hBe
    rw [hrun, if_pos (by simp)]; rfl
  · subst hBe
    rw [hrun, if_neg (by simp)]
    have hd : (A ++ y :: B').drop (A.length + 1) = B' := by simp
    have htk : (A ++ y :: B').take A.length = A := by simp
    rw [hd, htk]
    refine ⟨_, rfl, by simp [setChilds_kids], fun q hq hy => ?_⟩
    have hyp : h.parent y = some p := ok.kid_parent hD (by rw [hkp]; simp)
    rw [setChilds_kids] at hy
    split at hy
    · simp only [Option.getD_some, List.append_assoc, List.singleton_append, List.mem_append, List.mem_cons] at hy
      simp only [List.nodup_append, List.nodup_cons, List.mem_cons] at hnd
      rcases hy with h2 | h2 | h2
      · exact hnd.2.2 y h2 y (by simp) rfl
      · exact hnd.2.1.1 (.inl h2.symm)
      · exact hnd.2.1.2.1 h2
    · rename_i hqp
      rw [kids_of_childs ((setParent_fields p [t] _).2.1 q), kids_of_childs ((resetIndex_fields _ _ _).2.1 q),
        kids_of_childs ((resetIndex_fields _ _ _).2.1 q), g5 q hqp, s.other q hqp] at hy
      have := ok.kid_parent hq hy
      rw [hyp] at this; cases this; exact hqp rfl

/-- An insertion of a node that is in no list, and whose former parent has no list. -/
theorem insert_free (ok : HeapOk g D) {pos : InsertPosition} {t n : Nat} (ht : Attached g D t ∧ t < g.size) (ha : Accepted e g t n)
    (hk : (g.node n).kind ≠ .root) (hb : n < g.size) (hd : g.detach n = .ok g) (hfree : ∀ q, ¬ D q → n ∉ g.kids q) (w : Welcome e g pos t [n]) :
    ∃ g', g.insertAdjacent e pos t n = .ok g' ∧ HeapOk g' D ∧ (∀ q, ¬ D q → (g'.kids q).filter (· ≠ n) = g.kids q) ∧ Stands g' D t n pos ∧
      SameData g g' := by
  have hf : g.isFragment e n = false := by simp [Heap.isFragment, Heap.isRoot, hk]
  have hrun : g.insertAdjacent e pos t n = g.placeNodes e pos t [n] := by
    simp only [Heap.insertAdjacent, (Accepted.validate (e := e) ok).1 ha, Heap.takeNodes, hf, hd]; rfl
  have hDt := tag_live ok ha.1
  obtain ⟨g1, r1, ok1, -⟩ := placeNodes_step (e := e) ok ha.1 ht.2 ht.1 (N := [n]) (by simpa using hfree) (by simpa using hk) (by simpa using hb)
    (by simpa using ⟨ha.2.2.1.symm, ha.2.2.2⟩) (by simp) pos
  refine ⟨g1, hrun.trans r1, ok1, ?_⟩
  by_cases hp : pos = .afterBegin ∨ pos = .beforeEnd
  · have hal : e.allow (g.tagNames t) n = true := by
      unfold Welcome at w; rw [if_pos hp] at w; exact w n (by simp)
    have hN : Placeable g D t [n] := ⟨by simpa using hfree, by simpa using hk, by simpa using hb, by simpa using ⟨ha.2.2.1.symm, ha.2.2.2⟩⟩
    obtain ⟨g2, r2, s⟩ := placeNodes_inside (e := e) ok hDt hN (by simp) pos hp
    rw [r1] at r2; cases r2
    simp only [List.filter_cons, hal, if_true, List.filter_nil] at s
    rcases hp with rfl | rfl
    · simp only [reduceCtorEq, if_false] at s
      refine ⟨fun q hq => ?_, ⟨g.kids t, by simpa using s.new⟩, s.data⟩
      by_cases hqt : q = t
      · subst hqt
        rw [s.new]
        have := filter_ne_self (hfree q hq)
        simpa using this
      · rw [s.other q hqt, filter_ne_self (hfree q hq)]
    · simp only [if_true] at s
      refine ⟨fun q hq => ?_, ⟨g.kids t, by simpa using s.new⟩, s.data⟩
      by_cases hqt : q = t
      · subst hqt
        rw [s.new]
        have := filter_ne_self (hfree q hq)
        simpa using this
      · rw [s.other q hqt, filter_ne_self (hfree q hq)]
  · have w' := w
    unfold Welcome at w'
    rw [if_neg hp] at w'
    obtain ⟨p, hpar⟩ := Option.ne_none_iff_exists'.1 w'
    obtain ⟨hDp, hi⟩ := ht.1 p hpar
    have hpn : n ≠ p := by rintro rfl; exact ha.2.2.2 (.parent hpar)
    have hN : Placeable g D p [n] := ⟨by simpa using hfree, by simpa using hk, by simpa using hb,
      by simpa using ⟨hpn, fun h2 => ha.2.2.2 (.step h2 hpar)⟩⟩
    obtain ⟨g2, r2, s⟩ := placeNodes_beside (e := e) ok hpar ht.1 hN (by simp) pos hp
    rw [r1] at r2; cases r2
    have hsplit := (split_at hi).1
    have key : ∀ l A B, g1.kids p = l → l = A ++ n :: B → A ++ B = g.kids p → l.filter (· ≠ n) = g.kids p := by
      rintro l A B h1 rfl h3
      have hnd := ok1.kids_nodup hDp
      rw [h1] at hnd
      rw [filter_middle hnd, h3]
    have ho : ∀ q, q ≠ p → g1.kids q = g.kids q := by split at s <;> exact s.other
    have hdat : SameData g g1 := by split at s <;> exact s.data
    cases pos with
    | afterBegin => simp at hp
    | beforeEnd => simp at hp
    | afterEnd =>
      simp only [if_true] at s
      refine ⟨fun q hq => ?_, ⟨p, _, _, hDp, by simpa using s.new⟩, hdat⟩
      by_cases hqp : q = p
      · subst hqp
        exact key _ ((g.kids q).take (g.index t) ++ [t]) ((g.kids q).drop (g.index t + 1)) rfl (by rw [s.new]; simp) hsplit.symm
      · rw [ho q hqp, filter_ne_self (hfree q hq)]
    | beforeBegin =>
      simp only [reduceCtorEq, if_false] at s
      refine ⟨fun q hq => ?_, ⟨p, _, _, hDp, by simpa using s.new⟩, hdat⟩
      by_cases hqp : q = p
      · subst hqp
        exact key _ _ _ rfl (by rw [s.new]; simp; rfl) (by simpa using hsplit.symm)
      · rw [ho q hqp, filter_ne_self (hfree q hq)]

/-- C75, another part that holds: a child of an element that was emptied can be inserted again; it goes where it is asked to go, and nothing
else changes. -/
theorem C75_emptied_partial (ok : HeapOk h D) {x c : Nat} (hx : (h.node x).kind = .tag) (hxb : x < h.size) (hct : e.contentTag (h.tagNames x) = false)
    (hc : c ∈ h.kids x) {pos : InsertPosition} {t : Nat} (ht : Attached h D t ∧ t < h.size) (htx : t ∉ h.kids x) (ha : Accepted e h t c)
    (w : Welcome e h pos t [c]) :
    ∃ h2, (emptyAll h e [x]).insertAdjacent e pos t c = .ok h2 ∧ HeapOk h2 D ∧ Stands h2 D t c pos ∧
      (∀ q, ¬ D q → (h2.kids q).filter (· ≠ c) = if q = x then [] else h.kids q) ∧ SameData h h2 := by
  have he : emptyAll h e [x] = h.setChilds x none := by
    simp only [emptyAll, setTextAll, List.foldl_cons, List.foldl_nil, Heap.setText, hx, hct]; rfl
  have hD := tag_live ok hx
  have hk : (h.node c).kind ≠ .root := ok.kid x c hD hc
  have hpc := ok.kid_parent hD hc
  have okE : HeapOk (h.setChilds x none) D := by
    have := (setTextAll_raw (e := e) (D := D) [] [x] h ok (by simpa using ⟨hxb, hx⟩)).2.2.2
    exact he ▸ this
  have hkid : ∀ q, (h.setChilds x none).kids q = if q = x then [] else h.kids q := fun q => by rw [setChilds_kids]; rfl
  have hdat := setChilds_data (h := h) x none
  have hpar : ∀ y, (h.setChilds x none).parent y = h.parent y := fun y => by rw [setChilds_parent]
  have hatt : Attached (h.setChilds x none) D t := by
    intro p hp
    rw [hpar] at hp
    obtain ⟨h1, h2⟩ := ht.1 p hp
    refine ⟨h1, ?_⟩
    rw [hkid, setChilds_index, if_neg]
    · exact h2
    · rintro rfl; exact htx (List.mem_of_getElem? h2)
  have haE : Accepted e (h.setChilds x none) t c :=
    ⟨(hdat t).1.trans ha.1, fun h2 => hk ((hdat c).1 ▸ h2.1), ha.2.2.1, fun h2 => ha.2.2.2 ((above_congr hpar).1 h2)⟩
  have hdet : (h.setChilds x none).detach c = .ok (h.setChilds x none) := by
    simp only [Heap.detach, hpar, hpc, Heap.removeChild, if_true, setChilds_childs]
  have wE : Welcome e (h.setChilds x none) pos t [c] := by
    unfold Welcome at w ⊢
    rw [tagNames_same hdat, hpar]
    exact w
  rw [he]
  obtain ⟨h2, r1, r2, r3, r4, r5⟩ := insert_free okE ⟨hatt, by simpa using ht.2⟩ haE (by rw [(hdat c).1]; exact hk)
    (by simpa using (ok.bound c x hpc).1) hdet (fun q hq => by
      rw [hkid]
      split
      · simp
      · rename_i hqx
        intro h3
        have := ok.kid_parent hq h3
        rw [hpc] at this; cases this; exact hqx rfl) wE
  exact ⟨h2, r1, r2, r4, fun q hq => by rw [r3 q hq, hkid], hdat.trans r5⟩
end

/-! ### Examples -/

/-- `div(1)[ p(2), b(3), i(4) ]`, and a new `u(5)` that is nowhere. -/
def spareNodes : List Node :=
  [ rootN [1], el "div" 0 0 [2, 3, 4], el "p" 1 0, el "b" 1 1, el "i" 1 2, { kind := .tag, name := "u".toList, childs := some [] } ]

/-- The heap of `spareNodes`. -/
def spare : Heap := heapOf spareNodes

theorem spare_ok : HeapOk spare noneUsed := okCheck_sound (by decide)

theorem spare_usable {pos : InsertPosition} {t n : Nat} (hc : usableB ext0 spare [] (.insert pos t n) = true) :
    Usable ext0 spare noneUsed (.insert pos t n) := noneUsed_eq ▸ usableB_sound hc

theorem spare_attached {x : Nat} (hc : attachedB spare [] x = true) : Attached spare noneUsed x := noneUsed_eq ▸ attachedB_sound hc

theorem spare_accepted {t n : Nat} (hv : spare.validate ext0 t n = .ok true) : Accepted ext0 spare t n := (validate_sound hv).1 rfl

set_option maxRecDepth 100000 in
/-- `p(2).append(b(3))`, then `p(2).after(b(3))`. -/
example : ∃ h1 h2, spare.insertAdjacent ext0 .beforeEnd 2 3 = .ok h1 ∧ h1.insertAdjacent ext0 .afterEnd 2 3 = .ok h2 ∧
    h1.kids 1 = [2, 4] ∧ h2.kids 1 = [2, 3, 4] := by
  obtain ⟨h1, h2, r1, r2, r3, -⟩ := C75_there_and_back_partial (e := ext0) spare_ok (pos := .beforeEnd) (pos' := .afterEnd) (t := 2) (t' := 2) (n := 3)
    (spare_usable (by decide)) (spare_accepted (by decide)) (by decide) (by unfold Welcome; decide) ⟨spare_attached (by decide), by decide⟩
    (spare_accepted (by decide)) (by unfold Welcome; decide) ⟨1, [], [4], id, by decide⟩
  refine ⟨h1, h2, r1, r2, ?_, (r3 1 id).trans (by decide)⟩
  have : h1 = (match spare.insertAdjacent ext0 .beforeEnd 2 3 with | .ok h => h | .error _ => spare) := by rw [r1]
  rw [this]; decide

set_option maxRecDepth 100000 in
/-- `div(1).append(i(4))` twice; `i` is the last child already. -/
example : (∃ h1, spare.insertAdjacent ext0 .beforeEnd 1 4 = .ok h1 ∧ (∀ q, ¬ noneUsed q → h1.kids q = spare.kids q) ∧ SameData spare h1 ∧ HeapOk h1 noneUsed) ∧
    ∃ h1 h2, spare.insertAdjacent ext0 .afterBegin 1 4 = .ok h1 ∧ h1.insertAdjacent ext0 .afterBegin 1 4 = .ok h2 ∧
      (∀ q, ¬ noneUsed q → h2.kids q = h1.kids q) ∧ Stands h1 noneUsed 1 4 .afterBegin :=
  ⟨C75_same_place_partial (e := ext0) spare_ok (spare_usable (by decide)) (spare_accepted (by decide)) (by decide) (by unfold Welcome; decide) ⟨[2, 3], by decide⟩,
    C75_again_partial (e := ext0) spare_ok (spare_usable (by decide)) (spare_accepted (by decide)) (by decide) (by unfold Welcome; decide)⟩

set_option maxRecDepth 100000 in
/-- The new element before `b(3)`, and removed again. -/
example : ∃ h1 h2, spare.insertAdjacent ext0 .beforeBegin 3 5 = .ok h1 ∧ removeAll h1 [5] = .ok h2 ∧ (∀ q, ¬ noneUsed q → h2.kids q = spare.kids q) ∧
    SameData spare h2 ∧ HeapOk h2 noneUsed :=
  C75_insert_remove_partial (e := ext0) spare_ok (spare_usable (by decide)) (spare_accepted (by decide)) (by decide) (by unfold Welcome; decide) rfl

set_option maxRecDepth 100000 in
/-- `div(1).empty()`, and its former child `p(2)` into the new element. -/
example : ∃ h2, (emptyAll spare ext0 [1]).insertAdjacent ext0 .beforeEnd 5 2 = .ok h2 ∧ HeapOk h2 noneUsed ∧ Stands h2 noneUsed 5 2 .beforeEnd ∧
    (∀ q, ¬ noneUsed q → (h2.kids q).filter (· ≠ 2) = if q = 1 then [] else spare.kids q) ∧ SameData spare h2 :=
  C75_emptied_partial (e := ext0) spare_ok (x := 1) (c := 2) (by decide) (by decide) (by decide) (by decide)
    ⟨spare_attached (by decide), by decide⟩ (by decide) (spare_accepted (by decide)) (by unfold Welcome; decide)

set_option maxRecDepth 100000 in
/-- C75 does not hold in full: `b(3)` removed and appended to the `div` again takes `i(4)` with it; `b(3)` replaced by the new element and
back as well. -/
theorem C75_fails : (∃ h1 h2, removeAll spare [3] = .ok h1 ∧ h1.insertAdjacent ext0 .beforeEnd 1 3 = .ok h2 ∧ h2.kids 1 = [2, 3]) ∧
    (∃ h1 h2, spare.replaceWith ext0 3 5 = .ok (h1, 5) ∧ h1.replaceWith ext0 5 3 = .ok (h2, 3) ∧ h2.kids 1 = [2, 3]) ∧
    ∃ h1, removeAll spare [4] = .ok h1 ∧ h1.insertAdjacent ext0 .beforeEnd 1 4 = .error .outOfBounds :=
  ⟨⟨_, _, rfl, rfl, by decide⟩, ⟨_, _, rfl, rfl, by decide⟩, ⟨_, rfl, rfl⟩⟩

set_option maxRecDepth 100000 in
/-- The general theorems for the same cases. -/
example : (∃ h1, removeAll spare [3] = .ok h1 ∧ ∀ h2, h1.insertAdjacent ext0 .beforeEnd 1 3 = .ok h2 → ∀ q, 4 ∉ h2.kids q) ∧
    ∃ h1 h2, spare.replaceWith ext0 3 5 = .ok (h1, 5) ∧ h1.replaceWith ext0 5 3 = .ok (h2, 3) ∧ ∀ q, 4 ∉ h2.kids q := by
  constructor
  · obtain ⟨h1, r1, r2⟩ := C75_reinsert (e := ext0) spare_ok (x := 3) (p := 1) (A := [2]) (B := [4]) rfl id (by decide)
    exact ⟨h1, r1, fun h2 h3 q => (r2 .beforeEnd 1 (spare_accepted (by decide))).2 4 [] rfl h2 h3 q id⟩
  · obtain ⟨h1, r1, -, -, r2⟩ := C75_replace_back (e := ext0) spare_ok (t := 3) (n := 5) (p := 1) (A := [2]) (B := [4]) rfl id (by decide) rfl
      (by decide) (by decide) (by decide) (spare_accepted (t := 3) (n := 5) (by decide)).2.2.2
    obtain ⟨h2, r3, -, r4⟩ := r2 4 [] rfl
    exact ⟨h1, h2, r1, r3, fun q => r4 q id⟩

end Visdom
