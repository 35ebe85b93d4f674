import Verif.Model.Reports
import Verif.Props.Insert
/-!
# C36, C38: insertions of several elements and into several targets
-/
namespace Visdom
open Spec

section
variable {h : Heap} {D : Nat → Prop} {e : Ext}

/-- What is required of the elements `L` to be inserted at `t`: they are different, in place, not documents or fragments, and the
insertion of each makes sense. -/
structure Insertable (e : Ext) (h : Heap) (D : Nat → Prop) (t : Nat) (L : List Nat) : Prop where
  nodup : L.Nodup
  target : Attached h D t ∧ t < h.size
  each : ∀ n ∈ L, Attached h D n ∧ n < h.size ∧ (h.node n).kind ≠ .root ∧ Accepted e h t n

theorem Insertable.usable {t n : Nat} {L : List Nat} (i : Insertable e h D t (n :: L)) (ok : HeapOk h D) (pos : InsertPosition) :
    Usable e h D (.insert pos t n) ∧ Accepted e h t n ∧ moved h n = [n] := by
  obtain ⟨h1, h2, h3, h4⟩ := i.each n (by simp)
  exact ⟨⟨i.target.1, h1, fun hD => h3 (ok.dead n hD).1, h2, i.target.2⟩, h4, if_neg h3⟩

theorem used_single {pos : InsertPosition} {t n : Nat} (hk : (h.node n).kind ≠ .root) :
    (fun x => Used e h D x (.insert pos t n)) = D := by
  funext x; simp [Used, hk]

/-- After one insertion the others can still be made. -/
theorem Insertable.next {h' : Heap} {pos : InsertPosition} {t n : Nat} {L : List Nat} (i : Insertable e h D t (n :: L))
    (ok : HeapOk h D) (hrun : h.insertAdjacent e pos t n = .ok h') {q : Nat} {N : List Nat} (hN : ∀ m ∈ N, m = n)
    (hpar : ∀ y, h'.parent y = if y ∈ N then some q else h.parent y) (hdata : SameData h h')
    (hdoc : ∀ m, (h.node m).kind ≠ .root → (h'.node m).kind ≠ .root)
    (hl : ∀ y, ¬ Lost e h y (.insert pos t n)) : Insertable e h' D t L ∧ HeapOk h' D := by
  obtain ⟨u, ha, _⟩ := i.usable ok pos
  have hk := (i.each n (by simp)).2.2.1
  obtain ⟨h1, st⟩ := insert_step ok u
  have e1 : h1 = h' := by
    have := st.run
    simp only [Op.run, hrun, Except.ok.injEq] at this
    exact this.symm
  subst e1
  have hat : ∀ y, y < h.size → Attached h D y → Attached h1 D y := by
    intro y hb hy
    have := st.attached y hb hy (hl y)
    rwa [used_single hk] at this
  have hok := st.ok
  rw [used_single hk] at hok
  have htN : t ∉ N := fun h2 => ha.2.2.1 (hN t h2)
  have habt : ∀ m ∈ N, ¬ Above h m t := fun m hm => by rw [hN m hm]; exact ha.2.2.2
  refine ⟨⟨(List.nodup_cons.1 i.nodup).2, ⟨hat t i.target.2 i.target.1, Nat.lt_of_lt_of_le i.target.2 st.size⟩, fun m hm => ?_⟩, hok⟩
  obtain ⟨a1, a2, a3, a4⟩ := i.each m (by simp [hm])
  refine ⟨hat m a2 a1, Nat.lt_of_lt_of_le a2 st.size, hdoc m a3, ?_, fun h2 => hdoc m a3 h2.1, a4.2.2.1, fun h2 => ?_⟩
  · rw [(hdata t).1]; exact a4.1
  · exact a4.2.2.2 ((above_stays hpar htN habt m).1 h2)

/-- The loop of one target, inside. -/
theorem insertLoop_inside (pos : InsertPosition) (hpos : pos = .afterBegin ∨ pos = .beforeEnd) (t : Nat) (L : List Nat) :
    ∀ h, HeapOk h D → Insertable e h D t L → (∀ n ∈ L, e.allow (h.tagNames t) n = true) →
      ∃ h', insertLoop e pos t h L = .ok h' ∧
        h'.kids t = (if pos = .beforeEnd then (h.kids t).filter (· ∉ L) ++ L else L.reverse ++ (h.kids t).filter (· ∉ L)) ∧
        (∀ q, ¬ D q → q ≠ t → h'.kids q = (h.kids q).filter (· ∉ L)) ∧ SameData h h' ∧ HeapOk h' D := by
  induction L with
  | nil =>
    intro h ok _ _
    refine ⟨h, rfl, ?_, fun q _ _ => by simp, .refl h, ok⟩
    split <;> simp
  | cons n L ih =>
    intro h ok i hal
    obtain ⟨u, ha, hm⟩ := i.usable ok pos
    obtain ⟨h1, r1, r2, r3, r4, r5⟩ := insert_inside ok u ha hpos
    have hal1 : (moved h n).filter (e.allow (h.tagNames t)) = [n] := by
      rw [hm]; simp [hal n (by simp)]
    rw [hal1] at r2 r4
    rw [hm] at r2 r3
    have hk := (i.each n (by simp)).2.2.1
    obtain ⟨i1, ok1⟩ := i.next ok r1 (by simp) r4 r5 (fun m => by rw [(r5 m).1]; exact id) (by
      rintro y ⟨_, hy, hl⟩
      rw [if_pos hpos] at hl
      rw [hm, List.mem_singleton] at hy
      subst hy
      rw [hal y (by simp)] at hl
      cases hl)
    obtain ⟨h', s1, s2, s3, s4, s5⟩ := ih h1 ok1 i1 (fun m hm => by rw [tagNames_same r5]; exact hal m (by simp [hm]))
    have hnL := (List.nodup_cons.1 i.nodup).1
    have hff : ∀ l : List Nat, (l.filter (· ∉ [n])).filter (· ∉ L) = l.filter (· ∉ n :: L) := by
      intro l
      rw [List.filter_filter]
      congr 1
      funext a
      simp only [List.mem_cons, List.not_mem_nil, or_false, not_or, Bool.decide_and]
      rw [Bool.and_comm]
    refine ⟨h', by simp only [insertLoop, r1]; exact s1, ?_, fun q hq hqt => ?_, r5.trans s4, s5⟩
    · rw [s2, r2]
      split
      · rw [List.filter_append, hff]
        simp [hnL]
      · rw [List.filter_append, hff]
        simp [hnL]
    · rw [s3 q hq hqt, r3 q hq hqt (.inr hk), hff]

theorem append_cons_unique {A B A' B' : List Nat} {t : Nat} (h1 : t ∉ A) (h2 : t ∉ A') (he : A ++ t :: B = A' ++ t :: B') :
    A = A' ∧ B = B' := by
  induction A generalizing A' with
  | nil =>
    cases A' with
    | nil => simpa using he
    | cons a A' =>
      simp only [List.nil_append, List.cons_append, List.cons.injEq] at he
      exact absurd (by simp [he.1]) h2
  | cons a A ih =>
    cases A' with
    | nil =>
      simp only [List.nil_append, List.cons_append, List.cons.injEq] at he
      exact absurd (by simp [he.1]) h1
    | cons a' A' =>
      simp only [List.cons_append, List.cons.injEq] at he
      simp only [List.mem_cons, not_or] at h1 h2
      obtain ⟨rfl, rfl⟩ := ih h1.2 h2.2 he.2
      exact ⟨by rw [he.1], rfl⟩

/-- The loop of one target, beside. -/
theorem insertLoop_beside (pos : InsertPosition) (hpos : pos = .beforeBegin ∨ pos = .afterEnd) (t p : Nat) (L : List Nat) :
    ∀ h, HeapOk h D → Insertable e h D t L → h.parent t = some p →
      ∃ h' A B, insertLoop e pos t h L = .ok h' ∧ (h.kids p).filter (· ∉ L) = A ++ t :: B ∧
        h'.kids p = (if pos = .afterEnd then A ++ t :: (L.reverse ++ B) else A ++ (L ++ t :: B)) ∧
        (∀ q, ¬ D q → q ≠ p → h'.kids q = (h.kids q).filter (· ∉ L)) ∧ SameData h h' ∧ HeapOk h' D := by
  have hposN : ¬ (pos = .afterBegin ∨ pos = .beforeEnd) := by rcases hpos with rfl | rfl <;> simp
  induction L with
  | nil =>
    intro h ok i hp
    obtain ⟨_, hi⟩ := i.target.1 p hp
    have hsplit := (split_at hi).1
    refine ⟨h, (h.kids p).take (h.index t), (h.kids p).drop (h.index t + 1), rfl, ?_, ?_, fun q _ _ => by simp, .refl h, ok⟩
    · rw [List.filter_eq_self.2 (by simp)]
      simpa using hsplit
    · split
      · simpa using hsplit
      · simpa using hsplit
  | cons n L ih =>
    intro h ok i hp
    obtain ⟨u, ha, hm⟩ := i.usable ok pos
    obtain ⟨h1, A1, B1, r1, r2, r3, r4, r5, r6⟩ := insert_beside ok u ha hposN hp
    rw [hm] at r2 r3 r4 r5
    have hk := (i.each n (by simp)).2.2.1
    obtain ⟨i1, ok1⟩ := i.next ok r1 (by simp) r5 r6 (fun m => by rw [(r6 m).1]; exact id) (by
      rintro y ⟨_, _, hl⟩
      rw [if_neg hposN, hp] at hl
      cases hl)
    have htn : t ≠ n := ha.2.2.1
    have hp1 : h1.parent t = some p := by rw [r5, if_neg (by simpa using htn)]; exact hp
    obtain ⟨h', A, B, s1, s2, s3, s4, s5, s6⟩ := ih h1 ok1 i1 hp1
    have hnL := (List.nodup_cons.1 i.nodup).1
    have htL : t ∉ L := fun h2 => (i.each t (by simp [h2])).2.2.2.2.2.1 rfl
    have hff : ∀ l : List Nat, (l.filter (· ∉ [n])).filter (· ∉ L) = l.filter (· ∉ n :: L) := by
      intro l
      rw [List.filter_filter]
      congr 1
      funext a
      simp only [List.mem_cons, List.not_mem_nil, or_false, not_or, Bool.decide_and]
      rw [Bool.and_comm]
    -- the target occurs once
    have hDp := (i.target.1 p hp).1
    have hnd := ok1.kids_nodup hDp
    have hft : (h.kids p).filter (· ∉ n :: L) = A1.filter (· ∉ L) ++ t :: B1.filter (· ∉ L) := by
      rw [← hff, r2, List.filter_append, List.filter_cons, if_pos (by simpa using htL)]
    have hnd1 : t ∉ A1 ∧ t ∉ B1 := by
      rw [r3] at hnd
      split at hnd
      · rw [List.nodup_append] at hnd
        refine ⟨fun h2 => hnd.2.2 t h2 t (by simp) rfl, fun h2 => ?_⟩
        have := (List.nodup_cons.1 hnd.2.1).1
        exact this (by simp [h2])
      · rw [List.nodup_append] at hnd
        refine ⟨fun h2 => hnd.2.2 t h2 t (by simp) rfl, fun h2 => ?_⟩
        have := hnd.2.1
        rw [List.nodup_append] at this
        exact (List.nodup_cons.1 this.2.1).1 h2
    have hA1 : t ∉ A1.filter (· ∉ L) := fun h2 => hnd1.1 (List.mem_filter.1 h2).1
    have hAt : t ∉ A := by
      have hn1 : ((h1.kids p).filter (· ∉ L)).Nodup := hnd.filter _
      rw [s2, List.nodup_append] at hn1
      exact fun h2 => hn1.2.2 t h2 t (by simp) rfl
    refine ⟨h', A1.filter (· ∉ L), B1.filter (· ∉ L), by simp only [insertLoop, r1]; exact s1, hft, ?_,
      fun q hq hqp => by rw [s4 q hq hqp, r4 q hq hqp (.inr hk), hff], r6.trans s5, s6⟩
    have hfn : ([n] : List Nat).filter (· ∉ L) = [n] := by simp [hnL]
    rw [r3] at s2
    rw [s3]
    split
    · rename_i hpe
      rw [if_pos hpe, List.filter_append, List.filter_cons, if_pos (by simpa using htL), List.filter_append,
        hfn] at s2
      obtain ⟨a1, a2⟩ := append_cons_unique hA1 hAt s2
      rw [← a1, ← a2]
      simp
    · rename_i hpe
      rw [if_neg hpe, List.filter_append, List.filter_append, hfn, List.filter_cons, if_pos (by simpa using htL)] at s2
      rw [← List.append_assoc] at s2
      obtain ⟨a1, a2⟩ := append_cons_unique (by simp only [List.mem_append, List.mem_singleton, not_or]; exact ⟨hA1, htn⟩) hAt s2
      rw [← a1, ← a2]
      simp

theorem Insertable.reverse {t : Nat} {L : List Nat} (i : Insertable e h D t L) : Insertable e h D t L.reverse :=
  ⟨List.nodup_reverse.2 i.nodup, i.target, fun n hn => i.each n (List.mem_reverse.1 hn)⟩

theorem filter_reverse_mem (l L : List Nat) : l.filter (· ∉ L.reverse) = l.filter (· ∉ L) := by
  congr 1
  funext a
  simp

/-- C36, the part that holds: `prepend` puts the elements of the set at the start of the target, in the order of the set, and
`after` puts them immediately after it in the order of the set. Missing: `append` and `before` (`C36_fails`). -/
theorem C36_prepend_partial (ok : HeapOk h D) {t : Nat} {dest : List Nat} (i : Insertable e h D t dest)
    (hal : ∀ n ∈ dest, e.allow (h.tagNames t) n = true) :
    ∃ h', insertAll e .afterBegin dest h [t] = .ok h' ∧ h'.kids t = dest ++ (h.kids t).filter (· ∉ dest) ∧
      (∀ q, ¬ D q → q ≠ t → h'.kids q = (h.kids q).filter (· ∉ dest)) ∧ SameData h h' ∧ LinksRight h' D := by
  obtain ⟨h', s1, s2, s3, s4, s5⟩ := insertLoop_inside .afterBegin (.inl rfl) t dest.reverse h ok i.reverse
    (fun n hn => hal n (List.mem_reverse.1 hn))
  refine ⟨h', by simp only [insertAll, s1], ?_, fun q hq hqt => by rw [s3 q hq hqt, filter_reverse_mem], s4, s5.right⟩
  rw [s2, filter_reverse_mem]
  simp

theorem C36_after_partial (ok : HeapOk h D) {t p : Nat} {dest : List Nat} (i : Insertable e h D t dest) (hp : h.parent t = some p) :
    ∃ h' A B, insertAll e .afterEnd dest h [t] = .ok h' ∧ (h.kids p).filter (· ∉ dest) = A ++ t :: B ∧
      h'.kids p = A ++ t :: (dest ++ B) ∧
      (∀ q, ¬ D q → q ≠ p → h'.kids q = (h.kids q).filter (· ∉ dest)) ∧ SameData h h' ∧ LinksRight h' D := by
  obtain ⟨h', A, B, s1, s2, s3, s4, s5, s6⟩ := insertLoop_beside .afterEnd (.inr rfl) t p dest.reverse h ok i.reverse hp
  rw [filter_reverse_mem] at s2
  refine ⟨h', A, B, by simp only [insertAll, s1], s2, ?_, fun q hq hqt => by rw [s4 q hq hqt, filter_reverse_mem], s5, s6.right⟩
  rw [s3]
  simp

/-- What `append` and `before` do instead: the elements are next to each other at the right place, in reverse order. -/
theorem C36_append_reversed (ok : HeapOk h D) {t : Nat} {dest : List Nat} (i : Insertable e h D t dest)
    (hal : ∀ n ∈ dest, e.allow (h.tagNames t) n = true) :
    ∃ h', insertAll e .beforeEnd dest h [t] = .ok h' ∧ h'.kids t = (h.kids t).filter (· ∉ dest) ++ dest.reverse ∧
      (∀ q, ¬ D q → q ≠ t → h'.kids q = (h.kids q).filter (· ∉ dest)) ∧ SameData h h' ∧ LinksRight h' D := by
  obtain ⟨h', s1, s2, s3, s4, s5⟩ := insertLoop_inside .beforeEnd (.inr rfl) t dest.reverse h ok i.reverse
    (fun n hn => hal n (List.mem_reverse.1 hn))
  refine ⟨h', by simp only [insertAll, s1], ?_, fun q hq hqt => by rw [s3 q hq hqt, filter_reverse_mem], s4, s5.right⟩
  rw [s2, filter_reverse_mem]
  simp

theorem C36_before_reversed (ok : HeapOk h D) {t p : Nat} {dest : List Nat} (i : Insertable e h D t dest) (hp : h.parent t = some p) :
    ∃ h' A B, insertAll e .beforeBegin dest h [t] = .ok h' ∧ (h.kids p).filter (· ∉ dest) = A ++ t :: B ∧
      h'.kids p = A ++ (dest.reverse ++ t :: B) ∧
      (∀ q, ¬ D q → q ≠ p → h'.kids q = (h.kids q).filter (· ∉ dest)) ∧ SameData h h' ∧ LinksRight h' D := by
  obtain ⟨h', A, B, s1, s2, s3, s4, s5, s6⟩ := insertLoop_beside .beforeBegin (.inl rfl) t p dest.reverse h ok i.reverse hp
  rw [filter_reverse_mem] at s2
  refine ⟨h', A, B, by simp only [insertAll, s1], s2, ?_, fun q hq hqt => by rw [s4 q hq hqt, filter_reverse_mem], s5, s6.right⟩
  rw [s3]
  simp

/-- C36 for the methods with the roles exchanged: `prepend_to` puts the set at the start of the target and `insert_after` immediately
after it, in the order of the set; `append_to` and `insert_before` put it at the end and immediately before, in reverse order. -/
theorem C36_roles_partial (ok : HeapOk h D) {t p : Nat} {X : List Nat} (i : Insertable e h D t X)
    (hal : ∀ n ∈ X, e.allow (h.tagNames t) n = true) (hp : h.parent t = some p) :
    (∃ h', prependTo e X [t] h = .ok h' ∧ h'.kids t = X ++ (h.kids t).filter (· ∉ X)) ∧
    (∃ h', appendTo e X [t] h = .ok h' ∧ h'.kids t = (h.kids t).filter (· ∉ X) ++ X.reverse) ∧
    (∃ h' A B, insertAfter e X [t] h = .ok h' ∧ (h.kids p).filter (· ∉ X) = A ++ t :: B ∧ h'.kids p = A ++ t :: (X ++ B)) ∧
    (∃ h' A B, insertBefore e X [t] h = .ok h' ∧ (h.kids p).filter (· ∉ X) = A ++ t :: B ∧ h'.kids p = A ++ (X.reverse ++ t :: B)) := by
  obtain ⟨h1, a1, a2, _⟩ := C36_prepend_partial ok i hal
  obtain ⟨h2, b1, b2, _⟩ := C36_append_reversed ok i hal
  obtain ⟨h3, A, B, c1, c2, c3, _⟩ := C36_after_partial ok i hp
  obtain ⟨h4, A', B', d1, d2, d3, _⟩ := C36_before_reversed ok i hp
  exact ⟨⟨h1, a1, a2⟩, ⟨h2, b1, b2⟩, ⟨h3, A, B, c1, c2, c3⟩, ⟨h4, A', B', d1, d2, d3⟩⟩

/-- What one insertion of a node that cannot get lost keeps. -/
structure Kept (h h' : Heap) (D : Nat → Prop) : Prop where
  ok : HeapOk h' D
  size : h.size ≤ h'.size
  data : SameData h h'
  parent : ∀ y, h.parent y ≠ none → h'.parent y ≠ none
  attached : ∀ y, y < h.size → Attached h D y → Attached h' D y

theorem Kept.trans {h1 h2 : Heap} (a : Kept h h1 D) (b : Kept h1 h2 D) : Kept h h2 D :=
  ⟨b.ok, Nat.le_trans a.size b.size, a.data.trans b.data, fun y hy => b.parent y (a.parent y hy), fun y hb hy =>
    b.attached y (Nat.lt_of_lt_of_le hb a.size) (a.attached y hb hy)⟩

/-- The nodes of `dest` cannot get lost at the target `t`. -/
def Welcome (e : Ext) (h : Heap) (pos : InsertPosition) (t : Nat) (dest : List Nat) : Prop :=
  if pos = .afterBegin ∨ pos = .beforeEnd then ∀ n ∈ dest, e.allow (h.tagNames t) n = true else h.parent t ≠ none

theorem Welcome.kept {h' : Heap} {pos : InsertPosition} {t : Nat} {dest : List Nat} (w : Welcome e h pos t dest) (k : Kept h h' D) :
    Welcome e h' pos t dest := by
  unfold Welcome at *
  split at w
  · rename_i hp
    rw [if_pos hp, tagNames_same k.data]; exact w
  · rename_i hp
    rw [if_neg hp]; exact k.parent t w

theorem insert_kept (ok : HeapOk h D) {pos : InsertPosition} {t n : Nat} {dest : List Nat} (hn : n ∈ dest)
    (ht : Attached h D t ∧ t < h.size) (hnn : Attached h D n ∧ n < h.size ∧ (h.node n).kind ≠ .root)
    (w : Welcome e h pos t dest) : ∃ h', h.insertAdjacent e pos t n = .ok h' ∧ Kept h h' D := by
  by_cases ha : Accepted e h t n
  · have hm : moved h n = [n] := if_neg hnn.2.2
    have u : Usable e h D (.insert pos t n) := ⟨ht.1, hnn.1, fun hD => hnn.2.2 (ok.dead n hD).1, hnn.2.1, ht.2⟩
    obtain ⟨h1, st⟩ := insert_step ok u
    have hl : ∀ y, ¬ Lost e h y (.insert pos t n) := by
      rintro y ⟨_, hy, hl⟩
      rw [hm, List.mem_singleton] at hy
      subst hy
      unfold Welcome at w
      split at w
      · rename_i hp
        rw [if_pos hp, w y hn] at hl
        cases hl
      · rename_i hp
        rw [if_neg hp] at hl
        exact w hl
    have hU := used_single (e := e) (D := D) (pos := pos) (t := t) hnn.2.2
    have hok := st.ok
    have hat := st.attached
    rw [hU] at hok hat
    have hd : SameData h h1 ∧ ∃ (N : List Nat) (q : Nat), ∀ y, h1.parent y = if y ∈ N then some q else h.parent y := by
      by_cases hp : pos = .afterBegin ∨ pos = .beforeEnd
      · obtain ⟨h', r1, _, _, r4, r5⟩ := insert_inside ok u ha hp
        have := st.run
        simp only [Op.run, r1, Except.ok.injEq] at this
        subst this
        exact ⟨r5, _, _, r4⟩
      · unfold Welcome at w
        rw [if_neg hp] at w
        cases hpar : h.parent t with
        | none => exact absurd hpar w
        | some p =>
          obtain ⟨h', A, B, r1, _, _, _, r5, r6⟩ := insert_beside ok u ha hp hpar
          have := st.run
          simp only [Op.run, r1, Except.ok.injEq] at this
          subst this
          exact ⟨r6, _, _, r5⟩
    obtain ⟨hdata, N, q, hpar⟩ := hd
    refine ⟨h1, st.run, ⟨hok, st.size, hdata, fun y hy => ?_, fun y hb hy => hat y hb hy (hl y)⟩⟩
    rw [hpar]
    split
    · simp
    · exact hy
  · exact ⟨h, C37_refused ok pos ha, ⟨ok, Nat.le_refl _, .refl h, fun _ h1 => h1, fun _ _ h1 => h1⟩⟩

/-- C38, the part that holds: a set of elements that are in place, inserted into several targets, ends with every element at exactly
one position. Missing: fragments (`C38_fails`). -/
theorem C38_once_partial (ok : HeapOk h D) (pos : InsertPosition) (T dest : List Nat)
    (hT : ∀ t ∈ T, Attached h D t ∧ t < h.size ∧ Welcome e h pos t dest)
    (hd : ∀ n ∈ dest, Attached h D n ∧ n < h.size ∧ (h.node n).kind ≠ .root) :
    ∃ h', insertAll e pos dest h T = .ok h' ∧ LinksRight h' D ∧
      ∀ n ∈ dest, h.parent n ≠ none → ∃ p i : Nat, ¬ D p ∧ (h'.kids p)[i]? = some n ∧
        ∀ q j : Nat, ¬ D q → (h'.kids q)[j]? = some n → q = p ∧ j = i := by
  have loop : ∀ (t : Nat) (L : List Nat), (∀ n ∈ L, n ∈ dest) → ∀ h1, HeapOk h1 D →
      (Attached h1 D t ∧ t < h1.size) → (∀ n ∈ dest, Attached h1 D n ∧ n < h1.size ∧ (h1.node n).kind ≠ .root) →
      Welcome e h1 pos t dest → ∃ h2, insertLoop e pos t h1 L = .ok h2 ∧ Kept h1 h2 D := by
    intro t L
    induction L with
    | nil => intro _ h1 ok1 _ _ _; exact ⟨h1, rfl, ⟨ok1, Nat.le_refl _, .refl h1, fun _ h1 => h1, fun _ _ h1 => h1⟩⟩
    | cons n L ih =>
      intro hL h1 ok1 ht1 hd1 w1
      obtain ⟨h2, r, k⟩ := insert_kept ok1 (hL n (by simp)) ht1 (hd1 n (hL n (by simp))) w1
      obtain ⟨h3, r', k'⟩ := ih (fun m hm => hL m (by simp [hm])) h2 k.ok
        ⟨k.attached t ht1.2 ht1.1, Nat.lt_of_lt_of_le ht1.2 k.size⟩
        (fun m hm => ⟨k.attached m (hd1 m hm).2.1 (hd1 m hm).1, Nat.lt_of_lt_of_le (hd1 m hm).2.1 k.size, by
          rw [(k.data m).1]; exact (hd1 m hm).2.2⟩) (w1.kept k)
      exact ⟨h3, by simp only [insertLoop, r]; exact r', k.trans k'⟩
  have outer : ∀ (T : List Nat) (h1 : Heap), HeapOk h1 D → (∀ t ∈ T, Attached h1 D t ∧ t < h1.size ∧ Welcome e h1 pos t dest) →
      (∀ n ∈ dest, Attached h1 D n ∧ n < h1.size ∧ (h1.node n).kind ≠ .root) →
      ∃ h2, insertAll e pos dest h1 T = .ok h2 ∧ Kept h1 h2 D := by
    intro T
    induction T with
    | nil => intro h1 ok1 _ _; exact ⟨h1, rfl, ⟨ok1, Nat.le_refl _, .refl h1, fun _ h1 => h1, fun _ _ h1 => h1⟩⟩
    | cons t T ih =>
      intro h1 ok1 ht1 hd1
      obtain ⟨a1, a2, a3⟩ := ht1 t (by simp)
      obtain ⟨h2, r, k⟩ := loop t dest.reverse (fun n hn => List.mem_reverse.1 hn) h1 ok1 ⟨a1, a2⟩ hd1 a3
      obtain ⟨h3, r', k'⟩ := ih h2 k.ok
        (fun t' ht' => by
          obtain ⟨b1, b2, b3⟩ := ht1 t' (by simp [ht'])
          exact ⟨k.attached t' b2 b1, Nat.lt_of_lt_of_le b2 k.size, b3.kept k⟩)
        (fun m hm => ⟨k.attached m (hd1 m hm).2.1 (hd1 m hm).1, Nat.lt_of_lt_of_le (hd1 m hm).2.1 k.size, by
          rw [(k.data m).1]; exact (hd1 m hm).2.2⟩)
      exact ⟨h3, by simp only [insertAll, r]; exact r', k.trans k'⟩
  obtain ⟨h', r, k⟩ := outer T h ok hT hd
  refine ⟨h', r, k.ok.right, fun n hn hp => ?_⟩
  obtain ⟨a1, a2, _⟩ := hd n hn
  cases hp' : h'.parent n with
  | none => exact absurd hp' (k.parent n hp)
  | some p =>
    obtain ⟨b1, b2⟩ := k.attached n a2 a1 p hp'
    exact ⟨p, h'.index n, b1, b2, fun q j hq hj => k.ok.kid_index_unique hq b1 hj b2⟩

end

/-! ### Examples -/

theorem demo2_insertable {t : Nat} {L : List Nat} (h1 : L.Nodup) (h2 : (attachedB demo2 [] t && decide (t < demo2.size)) = true)
    (h3 : L.all (fun n => attachedB demo2 [] n && decide (n < demo2.size) && ((demo2.node n).kind != .root) &&
      (match demo2.validate ext0 t n with | .ok b => b | .error _ => false)) = true) : Insertable ext0 demo2 noneUsed t L := by
  simp only [Bool.and_eq_true, decide_eq_true_iff, List.all_eq_true, bne_iff_ne, ne_eq] at h2 h3
  rw [noneUsed_eq]
  refine ⟨h1, ⟨attachedB_sound h2.1, h2.2⟩, fun n hn => ?_⟩
  obtain ⟨⟨⟨a1, a2⟩, a3⟩, a4⟩ := h3 n hn
  refine ⟨attachedB_sound a1, a2, a3, ?_⟩
  cases hv : demo2.validate ext0 t n with
  | error x => rw [hv] at a4; cases a4
  | ok b => rw [hv] at a4; exact (validate_sound hv).1 a4

set_option maxRecDepth 100000 in
/-- `div(5).prepend([p(2), span(7), li(9)])`: from three lists, one of them that of the target. -/
example : ∃ h', insertAll ext0 .afterBegin [2, 7, 9] demo2 [5] = .ok h' ∧ h'.kids 5 = [2, 7, 9, 6] ∧ h'.kids 8 = [] := by
  obtain ⟨h', h1, h2, h3, _⟩ := C36_prepend_partial (e := ext0) (D := noneUsed) (t := 5) (dest := [2, 7, 9]) demo2_ok
    (demo2_insertable (by decide) (by decide) (by decide)) (by decide)
  exact ⟨h', h1, h2.trans (by decide), (h3 8 id (by decide)).trans (by decide)⟩

set_option maxRecDepth 100000 in
example : ∃ h' A B, insertAll ext0 .afterEnd [5, 9] demo2 [2] = .ok h' ∧ (demo2.kids 1).filter (· ∉ [5, 9]) = A ++ 2 :: B ∧
    h'.kids 1 = A ++ 2 :: ([5, 9] ++ B) := by
  obtain ⟨h', A, B, h1, h2, h3, _⟩ := C36_after_partial (e := ext0) (D := noneUsed) (t := 2) (dest := [5, 9]) demo2_ok
    (demo2_insertable (by decide) (by decide) (by decide)) (by decide : demo2.parent 2 = some 1)
  exact ⟨h', A, B, h1, h2, h3⟩

set_option maxRecDepth 100000 in
example : ∃ h', insertAll ext0 .beforeEnd [2, 7, 9] demo2 [5] = .ok h' ∧ h'.kids 5 = [6, 9, 7, 2] := by
  obtain ⟨h', h1, h2, h3, _⟩ := C36_append_reversed (e := ext0) (D := noneUsed) (t := 5) (dest := [2, 7, 9]) demo2_ok
    (demo2_insertable (by decide) (by decide) (by decide)) (by decide)
  exact ⟨h', h1, h2.trans (by decide)⟩

set_option maxRecDepth 100000 in
example : ∃ h' A B, insertAll ext0 .beforeBegin [5, 9] demo2 [2] = .ok h' ∧ (demo2.kids 1).filter (· ∉ [5, 9]) = A ++ 2 :: B ∧
    h'.kids 1 = A ++ ([9, 5] ++ 2 :: B) := by
  obtain ⟨h', A, B, h1, h2, h3, _⟩ := C36_before_reversed (e := ext0) (D := noneUsed) (t := 2) (dest := [5, 9]) demo2_ok
    (demo2_insertable (by decide) (by decide) (by decide)) (by decide : demo2.parent 2 = some 1)
  exact ⟨h', A, B, h1, h2, h3⟩

example : ∃ h', prependTo ext0 [5, 9] [2] demo2 = .ok h' ∧ h'.kids 2 = [5, 9, 3] := by
  obtain ⟨⟨h', h1, h2⟩, _⟩ := C36_roles_partial (e := ext0) (D := noneUsed) (t := 2) (p := 1) (X := [5, 9]) demo2_ok
    (demo2_insertable (by decide) (by decide) (by decide)) (by decide) rfl
  exact ⟨h', h1, h2.trans (by decide)⟩

/-- C36 does not hold in full: `ul.append([p, span])` gives `span, p`. -/
theorem C36_fails : ∃ h', insertAll ext0 .beforeEnd [6, 7] demo2 [8] = .ok h' ∧ demo2.kids 8 = [9] ∧ h'.kids 8 = [9, 7, 6] :=
  ⟨_, rfl, by decide, by decide⟩

set_option maxRecDepth 100000 in
/-- Three targets, one of them also inserted, one refused. -/
example : ∃ h', insertAll ext0 .beforeEnd [2, 5] demo2 [6, 5, 8] = .ok h' ∧ LinksRight h' noneUsed ∧
    ∀ n ∈ [2, 5], demo2.parent n ≠ none → ∃ p i : Nat, ¬ noneUsed p ∧ (h'.kids p)[i]? = some n ∧
      ∀ q j : Nat, ¬ noneUsed q → (h'.kids q)[j]? = some n → q = p ∧ j = i := by
  have h1 : [2, 5, 6, 8].all (attachedB demo2 []) = true := by decide
  have h2 : ∀ n ∈ [2, 5, 6, 8], Attached demo2 noneUsed n := fun n hn =>
    noneUsed_eq ▸ attachedB_sound (List.all_eq_true.1 h1 n hn)
  have h3 : ∀ t ∈ [6, 5, 8], t < demo2.size ∧ ∀ n ∈ [2, 5], ext0.allow (demo2.tagNames t) n = true := by decide
  have h4 : ∀ n ∈ [2, 5], n < demo2.size ∧ (demo2.node n).kind ≠ .root := by decide
  exact C38_once_partial demo2_ok .beforeEnd [6, 5, 8] [2, 5]
    (fun t ht => ⟨h2 t (by revert ht; simp; tauto), (h3 t ht).1, by
      unfold Welcome; rw [if_pos (.inr rfl)]; exact (h3 t ht).2⟩)
    (fun n hn => ⟨h2 n (by revert hn; simp; tauto), h4 n hn⟩)

/-- C38 does not hold in full: a fragment appended to two targets has its nodes in both. -/
theorem C38_fails : ∃ h', insertAll ext0 .beforeEnd [10] demo2 [8, 5] = .ok h' ∧ h'.kids 8 = [9, 11, 12] ∧ h'.kids 5 = [6, 7, 11, 12] :=
  ⟨_, rfl, by decide, by decide⟩

end Visdom
