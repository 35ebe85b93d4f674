import Verif.Proofs.Steps
/-!
# What the insertions do to the lists and to the parent links
-/
namespace Visdom
open Spec

section
variable {h h' : Heap} {D : Nat → Prop} {e : Ext}

/-! ## Lists -/

theorem used_insert {pos : InsertPosition} {t n : Nat} (ha : Accepted e h t n) :
    (fun x => Used e h D x (.insert pos t n)) = fun x => D x ∨ (x = n ∧ (h.node n).kind = .root) := by
  funext x; simp [Used, ha]

theorem tagNames_same {h1 : Heap} (k : SameData h h1) (t : Nat) : h1.tagNames t = h.tagNames t := by
  unfold Heap.tagNames Heap.isElem
  rw [(k t).1, (k t).2.1]

/-- Inside. -/
theorem insert_inside (ok : HeapOk h D) {pos : InsertPosition} {t n : Nat} (u : Usable e h D (.insert pos t n))
    (ha : Accepted e h t n) (hpos : pos = .afterBegin ∨ pos = .beforeEnd) : ∃ h', h.insertAdjacent e pos t n = .ok h' ∧
      h'.kids t = (if pos = .beforeEnd then (h.kids t).filter (· ∉ moved h n) ++ (moved h n).filter (e.allow (h.tagNames t))
        else (moved h n).filter (e.allow (h.tagNames t)) ++ (h.kids t).filter (· ∉ moved h n)) ∧
      (∀ q, ¬ D q → q ≠ t → (q ≠ n ∨ (h.node n).kind ≠ .root) → h'.kids q = (h.kids q).filter (· ∉ moved h n)) ∧
      (∀ y, h'.parent y = if y ∈ (moved h n).filter (e.allow (h.tagNames t)) then some t else h.parent y) ∧
      SameData h h' := by
  obtain ⟨ht, hn, hDn, hbn, hbt⟩ := u
  obtain ⟨h1, N, k1, rfl, k3, k4, k5, k6, k7, k8, k9, k10, k11, k12, k13⟩ := takeNodes_step (e := e) ok hn hDn hbn ha.2.1
  have k11 := k11 t ha.2.2.1 ha.2.2.2
  have hk1 : (h1.node t).kind = .tag := (k5 t).1.trans ha.1
  have hD1 := tag_live k3 hk1
  have hDt := tag_live ok ha.1
  obtain ⟨h', p1, p2⟩ := placeNodes_inside (e := e) k3 hD1 (⟨k8, k9, k10, k11⟩ : Placeable h1 _ t (moved h n)) k7 pos hpos
  rw [tagNames_same k5 t, k13 t hDt (.inl ha.2.2.1)] at p2
  refine ⟨h', ?_, ?_⟩
  · simp only [Heap.insertAdjacent, (Accepted.validate (e := e) ok).1 ha, k1]
    exact p1
  · split at p2
    · rename_i hp
      rw [if_pos hp]
      refine ⟨by rw [p2.new]; simp, fun q hq hqt hqn => by rw [p2.other q hqt, k13 q hq hqn], fun y => ?_, k5.trans p2.data⟩
      rw [p2.parent, k6]
    · rename_i hp
      rw [if_neg hp]
      refine ⟨by rw [p2.new]; simp, fun q hq hqt hqn => by rw [p2.other q hqt, k13 q hq hqn], fun y => ?_, k5.trans p2.data⟩
      rw [p2.parent, k6]

/-- Beside. -/
theorem insert_beside (ok : HeapOk h D) {pos : InsertPosition} {t n p : Nat} (u : Usable e h D (.insert pos t n))
    (ha : Accepted e h t n) (hpos : ¬ (pos = .afterBegin ∨ pos = .beforeEnd)) (hpar : h.parent t = some p) :
    ∃ h' A B, h.insertAdjacent e pos t n = .ok h' ∧ (h.kids p).filter (· ∉ moved h n) = A ++ t :: B ∧
      h'.kids p = (if pos = .afterEnd then A ++ t :: (moved h n ++ B) else A ++ (moved h n ++ t :: B)) ∧
      (∀ q, ¬ D q → q ≠ p → (q ≠ n ∨ (h.node n).kind ≠ .root) → h'.kids q = (h.kids q).filter (· ∉ moved h n)) ∧
      (∀ y, h'.parent y = if y ∈ moved h n then some p else h.parent y) ∧ SameData h h' := by
  obtain ⟨ht, hn, hDn, hbn, hbt⟩ := u
  obtain ⟨h1, N, k1, rfl, k3, k4, k5, k6, k7, k8, k9, k10, k11, k12, k13⟩ := takeNodes_step (e := e) ok hn hDn hbn ha.2.1
  have k11 := k11 t ha.2.2.1 ha.2.2.2
  have htN : t ∉ moved h n := fun h2 => (k11 t h2).1 rfl
  have hpar1 : h1.parent t = some p := (k6 t).trans hpar
  have hDp := (ht p hpar).1
  have hab : ∀ m ∈ moved h n, m ≠ p ∧ ¬ Above h1 m p := fun m hm =>
    ⟨by rintro rfl; exact (k11 m hm).2 (.parent hpar1), fun h2 => (k11 m hm).2 (.step h2 hpar1)⟩
  obtain ⟨h', p1, p2⟩ := placeNodes_beside (e := e) k3 hpar1 (k12 t htN ht) (⟨k8, k9, k10, hab⟩ : Placeable h1 _ p (moved h n)) k7 pos hpos
  have hk1 := k13 p hDp (.inl (by rintro rfl; exact ha.2.2.2 (.parent hpar)))
  obtain ⟨_, hi⟩ := k12 t htN ht p hpar1
  have hsplit := (split_at hi).1
  refine ⟨h', (h1.kids p).take (h1.index t), (h1.kids p).drop (h1.index t + 1), ?_, ?_, ?_⟩
  · simp only [Heap.insertAdjacent, (Accepted.validate (e := e) ok).1 ha, k1]
    exact p1
  · rw [← hk1]
    simpa using hsplit
  · split at p2
    · rename_i hp
      rw [if_pos hp]
      refine ⟨by rw [p2.new]; simp, fun q hq hqt hqn => by rw [p2.other q hqt, k13 q hq hqn], fun y => ?_, k5.trans p2.data⟩
      rw [p2.parent, k6]
    · rename_i hp
      rw [if_neg hp]
      refine ⟨by rw [p2.new]; simp, fun q hq hqt hqn => by rw [p2.other q hqt, k13 q hq hqn], fun y => ?_, k5.trans p2.data⟩
      rw [p2.parent, k6]

/-! ## Parent links, whatever the state -/

theorem removeChild_parent {p x : Nat} (he : h.removeChild p x = .ok h') (y : Nat) : h'.parent y = h.parent y := by
  unfold Heap.removeChild at he
  split at he
  · split at he
    · cases he; rfl
    · split at he
      · cases he
      split at he
      · cases he
      · split at he
        · cases he; simp
        · split at he
          · cases he
          · cases he; rw [setChilds_parent, (resetIndex_fields _ _ _).2.2.1]
  · cases he; rfl

theorem takeNodes_parent {n : Nat} {N : List Nat} (he : h.takeNodes e n = .ok (h', N)) :
    (∀ y, h'.parent y = h.parent y) ∧ (N = h.kids n ∧ (h.node n).kind = .root ∨ N = [n]) := by
  unfold Heap.takeNodes at he
  split at he
  · rename_i hf
    cases he
    unfold Heap.isFragment Heap.isRoot at hf
    simp only [Bool.and_eq_true, beq_iff_eq] at hf
    exact ⟨fun _ => rfl, .inl ⟨rfl, hf.1⟩⟩
  · cases hd : h.detach n with
    | error x => rw [hd] at he; cases he
    | ok g =>
      rw [hd] at he
      cases he
      refine ⟨fun y => ?_, .inr rfl⟩
      unfold Heap.detach at hd
      split at hd
      · cases hd; rfl
      · exact removeChild_parent hd y

theorem insertBeside_parent {after : Bool} {t : Nat} {N : List Nat} (he : h.insertBeside after t N = .ok h') :
    ∃ N' q, (∀ n ∈ N', n ∈ N) ∧ (N' = [] ∨ h.parent t = some q) ∧ ∀ y, h'.parent y = if y ∈ N' then some q else h.parent y := by
  unfold Heap.insertBeside at he
  simp only [] at he
  generalize (if after = true then h.index t + 1 else h.index t) = idx at he
  have fr := fun i => (resetIndex_fields N h i).2.2.1
  split at he
  · cases he; exact ⟨[], 0, by simp, .inl rfl, fun y => by rw [fr]; simp⟩
  · rename_i p hp
    rw [fr] at hp
    split at he
    · cases he
    split at he
    · cases he; exact ⟨[], 0, by simp, .inl rfl, fun y => by rw [fr]; simp⟩
    · rename_i cs _
      generalize (if idx < cs.length then cs.drop idx else []) = nexts at he
      split at he
      · cases he
      · split at he
        · cases he
          exact ⟨N, p, fun _ h1 => h1, .inr hp, fun y => by rw [setChilds_parent, (setParent_fields _ _ _).2.2.1, fr]⟩
        · cases he
          exact ⟨N, p, fun _ h1 => h1, .inr hp, fun y => by
            rw [setChilds_parent, (resetIndex_fields _ _ _).2.2.1, setChilds_parent, (setParent_fields _ _ _).2.2.1, fr]⟩

theorem insertInside_parent {atEnd : Bool} {t : Nat} {N : List Nat} (he : h.insertInside atEnd t N = .ok h') :
    ∀ y, h'.parent y = if y ∈ N then some t else h.parent y := by
  unfold Heap.insertInside at he
  simp only [] at he
  intro y
  rw [← (setParent_fields t N h).2.2.1]
  split at he
  · split at he
    · cases he
    · split at he
      · cases he; rw [setChilds_parent, (resetIndex_fields _ _ _).2.2.1]
      · split at he
        · cases he
        · cases he; rw [setChilds_parent, (resetIndex_fields _ _ _).2.2.1, (resetIndex_fields _ _ _).2.2.1]
  · cases he; rw [setChilds_parent, (resetIndex_fields _ _ _).2.2.1]

theorem placeNodes_parent {pos : InsertPosition} {t : Nat} {N : List Nat} (he : h.placeNodes e pos t N = .ok h') :
    ∃ N' q, (∀ n ∈ N', n ∈ N) ∧ (N' = [] ∨ q = t ∨ h.parent t = some q) ∧ ∀ y, h'.parent y = if y ∈ N' then some q else h.parent y := by
  unfold Heap.placeNodes at he
  simp only [] at he
  split at he
  · cases he
  · rename_i nodes hn
    have hsub : ∀ n ∈ nodes, n ∈ N := by
      split at hn
      · obtain ⟨b, hb, _⟩ := removeNotAllowed_eq (e.allow (h.tagNames t)) N
        rw [hb] at hn
        cases hn
        exact fun n hm => (List.mem_filter.1 hm).1
      · cases hn; exact fun _ hm => hm
    split at he
    · cases he; exact ⟨[], 0, by simp, .inl rfl, fun y => by simp⟩
    · split at he
      · exact ⟨nodes, t, hsub, .inr (.inl rfl), insertInside_parent he⟩
      · obtain ⟨N', q, h1, h2, h3⟩ := insertBeside_parent he
        exact ⟨N', q, fun n hn => hsub n (h1 n hn), h2.elim .inl (fun h4 => .inr (.inr h4)), h3⟩

/-- An insertion changes no parent link but those of the nodes it moves, and links them to `t` or to its parent. -/
theorem insertAdjacent_parent {pos : InsertPosition} {t n : Nat} (he : h.insertAdjacent e pos t n = .ok h') :
    h' = h ∨ (h.validate e t n = .ok true ∧ ∃ N q, ((∀ m ∈ N, m ∈ h.kids n) ∧ (h.node n).kind = .root ∨ ∀ m ∈ N, m = n) ∧
      (N = [] ∨ q = t ∨ h.parent t = some q) ∧ ∀ y, h'.parent y = if y ∈ N then some q else h.parent y) := by
  unfold Heap.insertAdjacent at he
  split at he
  · cases he
  · cases he; exact .inl rfl
  · rename_i hv
    split at he
    · cases he
    · rename_i h1 N hN
      obtain ⟨a1, a2⟩ := takeNodes_parent hN
      obtain ⟨N', q, b1, b2, b3⟩ := placeNodes_parent he
      refine .inr ⟨hv, N', q, ?_, ?_, fun y => by rw [b3, a1]⟩
      · rcases a2 with ⟨rfl, hk⟩ | rfl
        · exact .inl ⟨b1, hk⟩
        · exact .inr fun m hm => by simpa using b1 m hm
      · rwa [a1] at b2

/-- The ancestors of a node below which nothing is moved stay. -/
theorem above_stays {N : List Nat} {q : Nat} (hpar : ∀ y, h'.parent y = if y ∈ N then some q else h.parent y) {t : Nat}
    (ht : t ∉ N) (hab : ∀ m ∈ N, ¬ Above h m t) (a : Nat) : Above h' a t ↔ Above h a t := by
  constructor
  · intro h1
    induction h1 with
    | parent h2 => rw [hpar, if_neg ht] at h2; exact .parent h2
    | step _ h2 ih =>
      rw [hpar, if_neg ht] at h2
      exact .step (ih (fun h3 => hab _ h3 (.parent h2)) fun m hm h3 => hab m hm (.step h3 h2)) h2
  · intro h1
    induction h1 with
    | parent h2 => exact .parent (by rw [hpar, if_neg ht]; exact h2)
    | step _ h2 ih =>
      exact .step (ih (fun h3 => hab _ h3 (.parent h2)) fun m hm h3 => hab m hm (.step h3 h2)) (by rw [hpar, if_neg ht]; exact h2)

end
end Visdom
