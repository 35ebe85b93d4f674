import Verif.Spec.Commute
import Verif.Proofs.Deeds
import Verif.Props.BackHtml
import Verif.Props.Attr
/-!
# C81: calls about different things can be made in either order
-/
namespace Visdom
open Spec

section
variable {h g : Heap} {D : Nat → Prop} {e : Ext} {rd : Render}

theorem flatMap_away {f : Nat → List Nat} {l : List Nat} (hf : ∀ x ∈ l, f x = [x]) : l.flatMap f = l := by
  induction l with
  | nil => rfl
  | cons x l ih => rw [List.flatMap_cons, hf x (by simp), ih fun y hy => hf y (by simp [hy])]; rfl

theorem put_filter {pos : InsertPosition} {t n m q : Nat} (hn : n ≠ m) (ht : t ≠ m) (l : List Nat) :
    (put pos t n q l).filter (· ≠ m) = put pos t n q (l.filter (· ≠ m)) := by
  have key : ∀ f : Nat → List Nat, f m = [m] → (∀ x, x ≠ m → m ∉ f x) → (l.flatMap f).filter (· ≠ m) = (l.filter (· ≠ m)).flatMap f := by
    intro f f1 f2
    induction l with
    | nil => rfl
    | cons x l ih =>
      rw [List.flatMap_cons, List.filter_append, ih, List.filter_cons]
      by_cases hx : x = m
      · subst hx; rw [f1]; simp
      · rw [filter_ne_self (f2 x hx)]; simp [hx]
  cases pos with
  | beforeEnd => simp only [put]; split <;> simp [List.filter_cons, hn]
  | afterBegin => simp only [put]; split <;> simp [List.filter_cons, hn]
  | afterEnd =>
    refine key _ (if_neg fun h1 => ht h1.symm) fun x hx h1 => ?_
    split at h1 <;> simp at h1
    · rcases h1 with h1 | h1
      · exact ht h1.symm
      · exact hn h1.symm
    · exact hx h1.symm
  | beforeBegin =>
    refine key _ (if_neg fun h1 => ht h1.symm) fun x hx h1 => ?_
    split at h1 <;> simp at h1
    · rcases h1 with h1 | h1
      · exact hn h1.symm
      · exact ht h1.symm
    · exact hx h1.symm

/-- The parts of `put`. -/
theorem put_parts (pos : InsertPosition) (t n q : Nat) : ∃ (P S : List Nat) (f : Nat → List Nat), (∀ l, put pos t n q l = P ++ l.flatMap f ++ S) ∧
    (∀ x, x ≠ t → f x = [x]) ∧ (P = if pos = .afterBegin ∧ q = t then [n] else []) ∧ (S = if pos = .beforeEnd ∧ q = t then [n] else []) ∧
    (f t = if pos = .afterEnd then [t, n] else if pos = .beforeBegin then [n, t] else [t]) := by
  cases pos with
  | beforeEnd =>
    refine ⟨_, _, fun x => [x], fun l => ?_, fun _ _ => rfl, rfl, rfl, rfl⟩
    by_cases hq : q = t <;> simp [put, hq]
  | afterBegin =>
    refine ⟨_, _, fun x => [x], fun l => ?_, fun _ _ => rfl, rfl, rfl, rfl⟩
    by_cases hq : q = t <;> simp [put, hq]
  | afterEnd => exact ⟨[], [], fun x => if x = t then [t, n] else [x], fun l => by simp [put], fun x hx => by simp [hx], by simp, by simp, by simp⟩
  | beforeBegin => exact ⟨[], [], fun x => if x = t then [n, t] else [x], fun l => by simp [put], fun x hx => by simp [hx], by simp, by simp, by simp⟩

/-- Putting different nodes at different places. -/
theorem put_put {pos pos' : InsertPosition} {t t' n n' q : Nat} (h1 : t ≠ n') (h2 : t' ≠ n) (hp : ¬ (pos = pos' ∧ t = t')) (l : List Nat) :
    put pos t n q (put pos' t' n' q l) = put pos' t' n' q (put pos t n q l) := by
  obtain ⟨P, S, f, a1, a2, a3, a4, a5⟩ := put_parts pos t n q
  obtain ⟨P', S', f', b1, b2, b3, b4, b5⟩ := put_parts pos' t' n' q
  have hP : P'.flatMap f = P' := flatMap_away fun x hx => a2 x (by rw [b3] at hx; split at hx <;> simp at hx; rw [hx]; exact h1.symm)
  have hS : S'.flatMap f = S' := flatMap_away fun x hx => a2 x (by rw [b4] at hx; split at hx <;> simp at hx; rw [hx]; exact h1.symm)
  have hP' : P.flatMap f' = P := flatMap_away fun x hx => b2 x (by rw [a3] at hx; split at hx <;> simp at hx; rw [hx]; exact h2.symm)
  have hS' : S.flatMap f' = S := flatMap_away fun x hx => b2 x (by rw [a4] at hx; split at hx <;> simp at hx; rw [hx]; exact h2.symm)
  have hPP : P ++ P' = P' ++ P := by
    rw [a3, b3]
    split <;> split <;> simp
    rename_i c c'
    exact absurd ⟨c.1.trans c'.1.symm, c.2.symm.trans c'.2⟩ hp
  have hSS : S' ++ S = S ++ S' := by
    rw [a4, b4]
    split <;> split <;> simp
    rename_i c c'
    exact absurd ⟨c'.1.trans c.1.symm, c'.2.symm.trans c.2⟩ hp
  have hff : ∀ x, (f' x).flatMap f = (f x).flatMap f' := by
    intro x
    by_cases hx : x = t
    · subst hx
      by_cases hx' : x = t'
      · subst hx'
        have k1 : f n' = [n'] := a2 _ h1.symm
        have k2 : f' n = [n] := b2 _ h2.symm
        rw [a5, b5]
        cases pos <;> cases pos' <;> simp_all
      · rw [b2 x hx', a5]
        have k2 : f' n = [n] := b2 _ h2.symm
        have k3 : f' x = [x] := b2 _ hx'
        cases pos <;> simp_all
    · rw [a2 x hx]
      by_cases hx' : x = t'
      · subst hx'
        have k1 : f n' = [n'] := a2 _ h1.symm
        have k3 : f x = [x] := a2 _ hx
        rw [b5]
        cases pos' <;> simp_all
      · rw [b2 x hx']; simp [a2 x hx, b2 x hx']
  rw [b1, a1, a1, b1]
  simp only [List.flatMap_append, hP, hS, hP', hS', List.flatMap_assoc, hff, List.append_assoc]
  rw [← List.append_assoc P P', hPP]
  simp only [List.append_assoc, hSS]

/-! ### Insertions -/

/-- An insertion of one node that cannot get lost, as an equation between lists. -/
theorem insert_put (ok : HeapOk h D) {pos : InsertPosition} {t n : Nat} (u : Usable e h D (.insert pos t n)) (ha : Accepted e h t n)
    (hk : (h.node n).kind ≠ .root) (w : Welcome e h pos t [n]) : ∃ h', h.insertAdjacent e pos t n = .ok h' ∧ Kept h h' D ∧
      (∀ q, ¬ D q → h'.kids q = put pos t n q ((h.kids q).filter (· ≠ n))) ∧ (∀ y, y ≠ n → h'.parent y = h.parent y) ∧
      h'.parent n = if pos = .afterBegin ∨ pos = .beforeEnd then some t else h.parent t := by
  have hm : moved h n = [n] := if_neg hk
  obtain ⟨g1, r1, kept⟩ := insert_kept ok (pos := pos) (dest := [n]) (by simp) ⟨u.1, u.2.2.2.2⟩ ⟨u.2.1, u.2.2.2.1, hk⟩ w
  refine ⟨g1, r1, kept, ?_⟩
  by_cases hp : pos = .afterBegin ∨ pos = .beforeEnd
  · obtain ⟨h', r2, k1, k2, k3, -⟩ := insert_inside ok u ha hp
    rw [r1] at r2; cases r2
    have hal : e.allow (h.tagNames t) n = true := by
      unfold Welcome at w; rw [if_pos hp] at w; exact w n (by simp)
    simp only [hm, filter_notMem_single, List.filter_cons, hal, if_true, List.filter_nil, List.mem_singleton] at k1 k2 k3
    refine ⟨fun q hq => ?_, fun y hy => by rw [k3, if_neg hy], by rw [k3, if_pos rfl, if_pos hp]⟩
    by_cases hqt : q = t
    · subst hqt
      rcases hp with rfl | rfl <;> rw [k1] <;> simp [put]
    · rw [k2 q hq hqt (.inr hk)]
      rcases hp with rfl | rfl <;> simp [put, hqt]
  · have w' := w
    unfold Welcome at w'
    rw [if_neg hp] at w'
    obtain ⟨p, hpar⟩ := Option.ne_none_iff_exists'.1 w'
    obtain ⟨h', A, B, r2, k1, k2, k3, k4, -⟩ := insert_beside ok u ha hp hpar
    rw [r1] at r2; cases r2
    simp only [hm, filter_notMem_single, List.cons_append, List.nil_append, List.mem_singleton] at k1 k2 k3 k4
    refine ⟨fun q hq => ?_, fun y hy => by rw [k4, if_neg hy], by rw [k4, if_pos rfl, if_neg hp, hpar]⟩
    by_cases hqt : q = p
    · subst hqt
      rw [k1, k2]
      have hnd : ((h.kids q).filter (· ≠ n)).Nodup := (ok.kids_nodup hq).filter _
      rw [k1] at hnd
      have hA : t ∉ A := fun h8 => (List.nodup_append.1 hnd).2.2 t h8 t (by simp) rfl
      have hB : t ∉ B := (List.nodup_cons.1 (List.nodup_append.1 hnd).2.1).1
      have fA : ∀ x ∈ A, x ≠ t := fun x hx h1 => hA (h1 ▸ hx)
      have fB : ∀ x ∈ B, x ≠ t := fun x hx h1 => hB (h1 ▸ hx)
      cases pos with
      | afterBegin => simp at hp
      | beforeEnd => simp at hp
      | afterEnd =>
        simp only [put, List.flatMap_append, List.flatMap_cons]
        rw [flatMap_away fun x hx => if_neg (fA x hx), flatMap_away fun x hx => if_neg (fB x hx)]
        simp
      | beforeBegin =>
        simp only [put, List.flatMap_append, List.flatMap_cons]
        rw [flatMap_away fun x hx => if_neg (fA x hx), flatMap_away fun x hx => if_neg (fB x hx)]
        simp
    · rw [k3 q hq hqt (.inr hk)]
      have ht : ∀ x ∈ (h.kids q).filter (· ≠ n), x ≠ t := fun x hx h1 => by
        subst h1
        have := ok.kid_parent hq (List.mem_filter.1 hx).1
        rw [hpar] at this
        cases this
        exact hqt rfl
      cases pos with
      | afterBegin => simp at hp
      | beforeEnd => simp at hp
      | afterEnd => exact (flatMap_away fun x hx => if_neg (ht x hx)).symm
      | beforeBegin => exact (flatMap_away fun x hx => if_neg (ht x hx)).symm

/-- An insertion stays possible after another one that does not move its target. -/
theorem insert_still {h1 : Heap} {pos pos' : InsertPosition} {t t' n n' : Nat} (kept : Kept h h1 D) (he : h.insertAdjacent e pos t n = .ok h1)
    (hk : (h.node n).kind ≠ .root) (hpar : ∀ y, y ≠ n → h1.parent y = h.parent y) (u' : Usable e h D (.insert pos' t' n')) (ha' : Accepted e h t' n')
    (hk' : (h.node n').kind ≠ .root) (w' : Welcome e h pos' t' [n']) (h1' : t' ≠ n) (h2' : ¬ Above h n t') :
    Usable e h1 D (.insert pos' t' n') ∧ Accepted e h1 t' n' ∧ (h1.node n').kind ≠ .root ∧ Welcome e h1 pos' t' [n'] := by
  refine ⟨⟨kept.attached t' u'.2.2.2.2 u'.1, kept.attached n' u'.2.2.2.1 u'.2.1, u'.2.2.1, Nat.lt_of_lt_of_le u'.2.2.2.1 kept.size,
    Nat.lt_of_lt_of_le u'.2.2.2.2 kept.size⟩, ⟨(kept.data t').1.trans ha'.1, fun h3 => hk' ((kept.data n').1 ▸ h3.1), ha'.2.2.1, fun h3 => ?_⟩,
    by rw [(kept.data n').1]; exact hk', w'.kept kept⟩
  rcases insertAdjacent_parent he with rfl | ⟨-, N, q, hN, -, hp⟩
  · exact ha'.2.2.2 h3
  · have hN : ∀ m ∈ N, m = n := by
      rcases hN with ⟨-, h4⟩ | h4
      · exact absurd h4 hk
      · exact h4
    exact ha'.2.2.2 ((above_stays hp (fun h4 => h1' (hN t' h4)) (fun m hm => by rw [hN m hm]; exact h2') n').1 h3)

/-- C81, insertions: two different nodes that are inserted at two different places, neither of them at or below the other one's target, give the same
lists of children, the same links and the same HTML in either order. -/
theorem C81_inserts_partial (ok : HeapOk h D) {pos pos' : InsertPosition} {t t' n n' : Nat} (u : Usable e h D (.insert pos t n))
    (u' : Usable e h D (.insert pos' t' n')) (ha : Accepted e h t n) (ha' : Accepted e h t' n') (hk : (h.node n).kind ≠ .root)
    (hk' : (h.node n').kind ≠ .root) (w : Welcome e h pos t [n]) (w' : Welcome e h pos' t' [n']) (hn : n ≠ n') (hp : ¬ (pos = pos' ∧ t = t'))
    (f1 : t ≠ n' ∧ ¬ Above h n' t) (f2 : t' ≠ n ∧ ¬ Above h n t') :
    ∃ h1 h2 g1 g2, h.insertAdjacent e pos t n = .ok h1 ∧ h1.insertAdjacent e pos' t' n' = .ok h2 ∧
      h.insertAdjacent e pos' t' n' = .ok g1 ∧ g1.insertAdjacent e pos t n = .ok g2 ∧
      (∀ q, ¬ D q → h2.kids q = g2.kids q) ∧ (∀ y, h2.parent y = g2.parent y) ∧ SameData g2 h2 ∧ HeapOk h2 D ∧ HeapOk g2 D ∧
      ∀ q < h.size, ¬ D q → innerHtml rd e h2 q = innerHtml rd e g2 q ∧ outerHtml rd e h2 q = outerHtml rd e g2 q := by
  obtain ⟨h1, r1, kept1, l1, p1, pn1⟩ := insert_put ok u ha hk w
  obtain ⟨g1, s1, keptg1, m1, q1, qn1⟩ := insert_put ok u' ha' hk' w'
  obtain ⟨a1, a2, a3, a4⟩ := insert_still kept1 r1 hk p1 u' ha' hk' w' f2.1 f2.2
  obtain ⟨b1, b2, b3, b4⟩ := insert_still keptg1 s1 hk' q1 u ha hk w f1.1 f1.2
  obtain ⟨h2, r2, kept2, l2, p2, pn2⟩ := insert_put kept1.ok a1 a2 a3 a4
  obtain ⟨g2, s2, keptg2, m2, q2, qn2⟩ := insert_put keptg1.ok b1 b2 b3 b4
  have hkids : ∀ q, ¬ D q → h2.kids q = g2.kids q := fun q hq => by
    rw [l2 q hq, l1 q hq, m2 q hq, m1 q hq, put_filter hn f1.1, put_filter hn.symm f2.1, put_put f2.1 f1.1 (fun h3 => hp ⟨h3.1.symm, h3.2.symm⟩)]
    simp only [List.filter_filter]
    congr 3
    funext x
    exact Bool.and_comm ..
  have hdata : SameData g2 h2 := fun x => by
    have c1 := (kept1.data.trans kept2.data) x
    have c2 := (keptg1.data.trans keptg2.data) x
    exact ⟨c1.1.trans c2.1.symm, c1.2.1.trans c2.2.1.symm, c1.2.2.1.trans c2.2.2.1.symm, c1.2.2.2.1.trans c2.2.2.2.1.symm,
      c1.2.2.2.2.trans c2.2.2.2.2.symm⟩
  have hsz : h2.size = g2.size := by
    rw [(data_insertAdjacent r2).size, (data_insertAdjacent r1).size, (data_insertAdjacent s2).size, (data_insertAdjacent s1).size]
  refine ⟨h1, h2, g1, g2, r1, r2, s1, s2, hkids, fun y => ?_, hdata, kept2.ok, keptg2.ok, fun q hq hD => ?_⟩
  · by_cases hy : y = n
    · subst hy
      rw [p2 y hn, pn1, qn2, q1 t f1.1]
    · by_cases hy' : y = n'
      · subst hy'
        rw [pn2, p1 t' f2.1, q2 y hy, qn1]
      · rw [p2 y hy', p1 y hy, q2 y hy, q1 y hy']
  · refine html_restored keptg2.ok hsz hkids hdata ?_ hD
    rw [(data_insertAdjacent s2).size, (data_insertAdjacent s1).size]
    exact hq

/-! ### Removals -/

/-- C81, removals: the order in which elements are removed does not matter. -/
theorem C81_removals (ok : HeapOk h D) {X Y : List Nat} (hX : ∀ x ∈ X, Attached h D x) (hnd : X.Nodup) (hp : X.Perm Y) :
    ∃ h1 h2, removeAll h X = .ok h1 ∧ removeAll h Y = .ok h2 ∧ (∀ q, ¬ D q → h1.kids q = h2.kids q) ∧ SameData h2 h1 ∧ HeapOk h1 D ∧ HeapOk h2 D ∧
      ∀ q < h.size, ¬ D q → innerHtml rd e h1 q = innerHtml rd e h2 q ∧ outerHtml rd e h1 q = outerHtml rd e h2 q := by
  obtain ⟨h1, r1, k1, d1, ok1, z1⟩ := removeAll_ok X h ok hX hnd
  obtain ⟨h2, r2, k2, d2, ok2, z2⟩ := removeAll_ok Y h ok (fun y hy => hX y (hp.mem_iff.2 hy)) (hp.nodup_iff.1 hnd)
  have hkids : ∀ q, ¬ D q → h1.kids q = h2.kids q := fun q hq => by
    rw [k1 q hq, k2 q hq]
    exact List.filter_congr fun x _ => by simp [hp.mem_iff]
  have hdata : SameData h2 h1 := fun x => by
    have c1 := d1 x
    have c2 := d2 x
    exact ⟨c1.1.trans c2.1.symm, c1.2.1.trans c2.2.1.symm, c1.2.2.1.trans c2.2.2.1.symm, c1.2.2.2.1.trans c2.2.2.2.1.symm,
      c1.2.2.2.2.trans c2.2.2.2.2.symm⟩
  exact ⟨h1, h2, r1, r2, hkids, hdata, ok1, ok2, fun q hq hD => html_restored ok2 (by omega) hkids hdata (by omega) hD⟩

/-- C81, a removal and an insertion: the order does not matter, if neither the target nor the inserted node is removed. -/
theorem C81_remove_insert_partial (ok : HeapOk h D) {pos : InsertPosition} {t n x : Nat} (u : Usable e h D (.insert pos t n)) (ha : Accepted e h t n)
    (hk : (h.node n).kind ≠ .root) (w : Welcome e h pos t [n]) (hx : Attached h D x) (hb : x < h.size) (hxt : x ≠ t) (hxn : x ≠ n) :
    ∃ h1 h2 g1 g2, h.insertAdjacent e pos t n = .ok h1 ∧ removeAll h1 [x] = .ok h2 ∧ removeAll h [x] = .ok g1 ∧ g1.insertAdjacent e pos t n = .ok g2 ∧
      (∀ q, ¬ D q → h2.kids q = g2.kids q) ∧ (∀ y, h2.parent y = g2.parent y) ∧ SameData g2 h2 ∧ HeapOk h2 D ∧ HeapOk g2 D ∧
      ∀ q < h.size, ¬ D q → innerHtml rd e h2 q = innerHtml rd e g2 q ∧ outerHtml rd e h2 q = outerHtml rd e g2 q := by
  obtain ⟨h1, r1, kept1, l1, p1, pn1⟩ := insert_put ok u ha hk w
  obtain ⟨h2, r2, d2⟩ := detach_detached kept1.ok (kept1.attached x hb hx)
  obtain ⟨g1, s1, d1⟩ := detach_detached ok hx
  have u1 : Usable e g1 D (.insert pos t n) := ⟨d1.attached t (Ne.symm hxt) u.1, d1.attached n (Ne.symm hxn) u.2.1, u.2.2.1, by rw [d1.size]; exact u.2.2.2.1,
    by rw [d1.size]; exact u.2.2.2.2⟩
  have ab : ∀ a b, Above g1 a b → Above h a b := fun a b hab => by
    induction hab with
    | parent h3 => rw [d1.parent] at h3; exact .parent h3
    | step _ h3 ih => rw [d1.parent] at h3; exact .step ih h3
  have a1 : Accepted e g1 t n := ⟨(d1.data t).1.trans ha.1, fun h3 => hk ((d1.data n).1 ▸ h3.1), ha.2.2.1, fun h3 => ha.2.2.2 (ab _ _ h3)⟩
  have w1 : Welcome e g1 pos t [n] := by
    unfold Welcome at w ⊢
    split
    · rename_i hp; rw [if_pos hp] at w; rwa [tagNames_same d1.data]
    · rename_i hp; rw [if_neg hp] at w; rwa [d1.parent]
  obtain ⟨g2, s2, keptg, m2, q2, qn2⟩ := insert_put d1.ok u1 a1 (by rw [(d1.data n).1]; exact hk) w1
  have hkids : ∀ q, ¬ D q → h2.kids q = g2.kids q := fun q hq => by
    rw [d2.kids q hq, l1 q hq, m2 q hq, d1.kids q hq, put_filter (Ne.symm hxn) (Ne.symm hxt)]
    simp only [List.filter_filter]
    congr 2
    funext y
    exact Bool.and_comm ..
  have hdata : SameData g2 h2 := fun x => by
    have c1 := (kept1.data.trans d2.data) x
    have c2 := (d1.data.trans keptg.data) x
    exact ⟨c1.1.trans c2.1.symm, c1.2.1.trans c2.2.1.symm, c1.2.2.1.trans c2.2.2.1.symm, c1.2.2.2.1.trans c2.2.2.2.1.symm,
      c1.2.2.2.2.trans c2.2.2.2.2.symm⟩
  have hz : h1.size = h.size := (data_insertAdjacent r1).size
  have hz' : g2.size = g1.size := (data_insertAdjacent s2).size
  refine ⟨h1, h2, g1, g2, r1, by simp only [removeAll, r2], by simp only [removeAll, s1], s2, hkids, fun y => ?_, hdata, d2.ok, keptg.ok, fun q hq hD => ?_⟩
  · rw [d2.parent]
    by_cases hy : y = n
    · subst hy; rw [pn1, qn2, d1.parent]
    · rw [p1 y hy, q2 y hy, d1.parent]
  · exact html_restored keptg.ok (by rw [d2.size, hz, hz', d1.size]) hkids hdata (by rw [hz', d1.size]; exact hq) hD

/-! ### Attributes -/

/-- A change of attributes looks at the attributes of its nodes only. -/
theorem changeAll_like {reads : Bool} {f : Meta → R Meta} : ∀ (X : List Nat) (h g : Heap) {h1 : Heap},
    (∀ x ∈ X, g.isElem x = h.isElem x ∧ (g.node x).attrs = (h.node x).attrs) → Heap.changeAll reads f h X = .ok h1 →
    ∃ g1, Heap.changeAll reads f g X = .ok g1 ∧ ∀ x ∈ X, (g1.node x).attrs = (h1.node x).attrs
  | [], h, g, h1, _, _ => ⟨g, rfl, by simp⟩
  | x :: X, h, g, h1, hX, he => by
    simp only [Heap.changeAll] at he ⊢
    obtain ⟨e1, e2⟩ := hX x (by simp)
    cases hc : h.changeAttrs reads f x with
    | error q => rw [hc] at he; cases he
    | ok h' =>
      rw [hc] at he
      obtain ⟨g', hg, hm⟩ : ∃ g', g.changeAttrs reads f x = .ok g' ∧ (g'.node x).attrs = (h'.node x).attrs ∧ (∀ y, g'.isElem y = g.isElem y) ∧
          (∀ y, h'.isElem y = h.isElem y) ∧ (∀ y, y ≠ x → (g'.node y).attrs = (g.node y).attrs ∧ (h'.node y).attrs = (h.node y).attrs) := by
        unfold Heap.changeAttrs at hc ⊢
        rw [e1, e2]
        split at hc
        · rename_i hel
          rw [if_pos hel]
          split at hc
          · cases hc
          · rename_i m hm
            cases hc
            refine ⟨_, rfl, ?_, fun y => by rw [(onlyAttrs_upd x m).isElem], fun y => by rw [(onlyAttrs_upd x m).isElem], fun y hy => ?_⟩
            · rw [upd_node, upd_node, if_pos rfl, if_pos rfl]
            · rw [upd_node, upd_node, if_neg hy, if_neg hy]; exact ⟨rfl, rfl⟩
        · rename_i hel
          rw [if_neg hel]
          split at hc
          · cases hc
          · rename_i hr
            cases hc
            exact ⟨g, if_neg hr, e2, fun _ => rfl, fun _ => rfl, fun _ _ => ⟨rfl, rfl⟩⟩
      rw [hg]
      obtain ⟨m1, m2, m3, m4⟩ := hm
      have key : ∀ y ∈ x :: X, g'.isElem y = h'.isElem y ∧ (g'.node y).attrs = (h'.node y).attrs := fun y hy => by
        refine ⟨by rw [m2, m3]; exact (hX y hy).1, ?_⟩
        by_cases hyx : y = x
        · rw [hyx]; exact m1
        · rw [(m4 y hyx).1, (m4 y hyx).2]; exact (hX y hy).2
      obtain ⟨g1, r1, r2⟩ := changeAll_like X h' g' (fun y hy => key y (by simp [hy])) he
      refine ⟨g1, r1, fun y hy => ?_⟩
      by_cases hyX : y ∈ X
      · exact r2 y hyX
      · rw [(changeAll_only X g' r1).2.1 y hyX, (changeAll_only X h' he).2.1 y hyX]
        exact (key y hy).2

theorem attrCall_like {a : AttrExt} {c : AttrCall} {h1 : Heap} (hX : ∀ x ∈ c.nodes, g.isElem x = h.isElem x ∧ (g.node x).attrs = (h.node x).attrs)
    (he : c.run a h = .ok h1) : ∃ g1, c.run a g = .ok g1 ∧ ∀ x ∈ c.nodes, (g1.node x).attrs = (h1.node x).attrs := by
  have done : ∀ X : List Nat, (∀ x ∈ X, g.isElem x = h.isElem x ∧ (g.node x).attrs = (h.node x).attrs) → ∀ {h1 : Heap}, (.ok h : R Heap) = .ok h1 →
      ∃ g1, (.ok g : R Heap) = .ok g1 ∧ ∀ x ∈ X, (g1.node x).attrs = (h1.node x).attrs := fun X hX _ he => by
    cases he; exact ⟨g, rfl, fun x hx => (hX x hx).2⟩
  cases c with
  | setAttr X n v => exact changeAll_like X h g hX he
  | removeAttr X n => exact changeAll_like X h g hX he
  | addClass X s =>
    simp only [AttrCall.run, Heap.addClass, AttrCall.nodes] at he hX ⊢
    split at he
    · rename_i hc; rw [if_pos hc]; exact done X hX he
    · rename_i hc; rw [if_neg hc]; exact changeAll_like X h g hX he
  | removeClass X s =>
    simp only [AttrCall.run, Heap.removeClass, AttrCall.nodes] at he hX ⊢
    split at he
    · rename_i hc; rw [if_pos hc]; exact done X hX he
    · rename_i hc; rw [if_neg hc]; exact changeAll_like X h g hX he
  | toggleClass X s =>
    simp only [AttrCall.run, Heap.toggleClass, AttrCall.nodes] at he hX ⊢
    split at he
    · rename_i hc; rw [if_pos hc]; exact done X hX he
    · rename_i hc; rw [if_neg hc]; exact changeAll_like X h g hX he

/-- C81, attributes of different elements: attribute and class calls about sets without common members give the very same state in either order. -/
theorem C81_attrs_apart {a : AttrExt} {c c' : AttrCall} (hd : ∀ x ∈ c.nodes, x ∉ c'.nodes) {h1 h2 : Heap} (r1 : c.run a h = .ok h1)
    (r2 : c'.run a h1 = .ok h2) : ∃ g1, c'.run a h = .ok g1 ∧ c.run a g1 = .ok h2 := by
  obtain ⟨o1, n1, -⟩ := attrCall_only r1
  obtain ⟨o2, n2, -⟩ := attrCall_only r2
  have hd' : ∀ x ∈ c'.nodes, x ∉ c.nodes := fun x hx hx' => hd x hx' hx
  obtain ⟨g1, s1, t1⟩ := attrCall_like (g := h) (fun x hx => ⟨by rw [o1.isElem], by rw [n1 x (hd' x hx)]⟩) r2
  obtain ⟨p1, q1, -⟩ := attrCall_only s1
  obtain ⟨g2, s2, t2⟩ := attrCall_like (g := g1) (fun x hx => ⟨by rw [p1.isElem], by rw [q1 x (hd x hx)]⟩) r1
  obtain ⟨p2, q2, -⟩ := attrCall_only s2
  have : g2 = h2 := by
    have hn : g2.node = h2.node := funext fun x => by
      rw [(p1.trans p2).node x, (o1.trans o2).node x]
      congr 1
      by_cases hx : x ∈ c.nodes
      · rw [t2 x hx, n2 x (hd x hx)]
      · by_cases hx' : x ∈ c'.nodes
        · rw [q2 x hx, t1 x hx']
        · rw [q2 x hx, q1 x hx', n2 x hx', n1 x hx]
    have hs : g2.size = h2.size := by rw [p2.size, p1.size, o2.size, o1.size]
    cases g2; cases h2
    simp only at hn hs
    rw [hn, hs]
  exact ⟨g1, s1, by rw [s2, this]⟩

/-- The name that an attribute operation is about. -/
def Spec.AttrOp.about : AttrOp → List Char
  | .set n _ | .remove n => n

/-- C81, attributes of one element: writes and removals under different names can be exchanged; the same values are read afterwards under every
name. Partial for the values and names of C07. -/
theorem C81_attrs_partial (x : AttrExt) {m : Meta} (wf : MetaWF m) {o o' : AttrOp} (ho : OpOk o) (ho' : OpOk o')
    (hn : ¬ SameIgnoringCase o.about o'.about) : ∃ m1 m2, runAttrOps x m [o, o'] = .ok m1 ∧ runAttrOps x m [o', o] = .ok m2 ∧
      ∀ k, viewOf m1 k = viewOf m2 k := by
  obtain ⟨m1, h1, v1⟩ := C07_history_partial x m wf [o, o'] (by simp [ho, ho'])
  obtain ⟨m2, h2, v2⟩ := C07_history_partial x m wf [o', o] (by simp [ho, ho'])
  refine ⟨m1, m2, h1, h2, fun k => ?_⟩
  rw [v1, v2]
  have hk : SameIgnoringCase k o.about → ¬ SameIgnoringCase k o'.about := fun h3 h4 => hn (h3.symm.trans h4)
  have ap : ∀ (s : Store) (o : AttrOp), ¬ SameIgnoringCase k o.about → o.apply s k = s k := fun s o h3 => by
    cases o <;> simp only [AttrOp.about] at h3 <;> simp only [AttrOp.apply, if_neg h3]
  have ap2 : ∀ (s s' : Store) (o : AttrOp), SameIgnoringCase k o.about → o.apply s k = o.apply s' k := fun s s' o h3 => by
    cases o <;> simp only [AttrOp.about] at h3 <;> simp only [AttrOp.apply, if_pos h3]
  simp only [runStore, List.foldl]
  by_cases h3 : SameIgnoringCase k o.about
  · rw [ap _ o' (hk h3)]; exact ap2 _ _ o h3
  · rw [ap (AttrOp.apply (viewOf m) o') o h3]
    by_cases h4 : SameIgnoringCase k o'.about
    · exact ap2 _ _ o' h4
    · rw [ap _ o' h4, ap _ o' h4, ap _ o h3]

/-- C81, an attribute or class call and an insertion: the order does not matter, even if the call is about the inserted node or the target. -/
theorem C81_attr_insert_partial (ok : HeapOk h D) {a : AttrExt} {c : AttrCall} {pos : InsertPosition} {t n : Nat} (u : Usable e h D (.insert pos t n))
    (ha : Accepted e h t n) (hk : (h.node n).kind ≠ .root) (w : Welcome e h pos t [n]) {h1 : Heap} (r1 : c.run a h = .ok h1) :
    ∃ h2 g1 g2, h1.insertAdjacent e pos t n = .ok h2 ∧ h.insertAdjacent e pos t n = .ok g1 ∧ c.run a g1 = .ok g2 ∧
      (∀ q, ¬ D q → h2.kids q = g2.kids q) ∧ (∀ y, h2.parent y = g2.parent y) ∧ SameData g2 h2 ∧ HeapOk h2 D ∧ HeapOk g2 D ∧
      ∀ q < h.size, ¬ D q → innerHtml rd e h2 q = innerHtml rd e g2 q ∧ outerHtml rd e h2 q = outerHtml rd e g2 q := by
  obtain ⟨o1, n1, -⟩ := attrCall_only r1
  have hi : ∀ x, h1.index x = h.index x := fun x => by rw [Heap.index, Heap.index, o1.node x]
  have at1 : ∀ x, Attached h D x → Attached h1 D x := fun x hx p hp => by
    rw [o1.parent] at hp; rw [o1.kids, hi]; exact hx p hp
  have ab : ∀ x y, Above h1 x y → Above h x y := fun x y hab => by
    induction hab with
    | parent h3 => rw [o1.parent] at h3; exact .parent h3
    | step _ h3 ih => rw [o1.parent] at h3; exact .step ih h3
  have hk1 : (h1.node n).kind ≠ .root := by rw [(o1.fields n).1]; exact hk
  have u1 : Usable e h1 D (.insert pos t n) := ⟨at1 t u.1, at1 n u.2.1, u.2.2.1, by rw [o1.size]; exact u.2.2.2.1, by rw [o1.size]; exact u.2.2.2.2⟩
  have a1 : Accepted e h1 t n := ⟨(o1.fields t).1.trans ha.1, fun h3 => hk1 h3.1, ha.2.2.1, fun h3 => ha.2.2.2 (ab _ _ h3)⟩
  have w1 : Welcome e h1 pos t [n] := by
    have htn : h1.tagNames t = h.tagNames t := by
      unfold Heap.tagNames; rw [o1.isElem, (o1.fields t).2.1]
    unfold Welcome at w ⊢
    split
    · rename_i hp; rw [if_pos hp] at w; rwa [htn]
    · rename_i hp; rw [if_neg hp] at w; rwa [o1.parent]
  obtain ⟨h2, s2, kept2, l2, p2, pn2⟩ := insert_put (o1.heapOk ok) u1 a1 hk1 w1
  obtain ⟨g1, s1, keptg, m1, q1, qn1⟩ := insert_put ok u ha hk w
  have el : ∀ x, g1.isElem x = h.isElem x := fun x => by unfold Heap.isElem; rw [(keptg.data x).1]
  obtain ⟨g2, t2, v2⟩ := attrCall_like (g := g1) (fun x _ => ⟨el x, (keptg.data x).2.2.1⟩) r1
  obtain ⟨o2, n2, -⟩ := attrCall_only t2
  have hkids : ∀ q, ¬ D q → h2.kids q = g2.kids q := fun q hq => by rw [l2 q hq, o2.kids, m1 q hq, o1.kids]
  have hdata : SameData g2 h2 := fun x => by
    have f2 : (g2.node x).kind = (g1.node x).kind ∧ (g2.node x).name = (g1.node x).name ∧ (g2.node x).content = (g1.node x).content ∧
      (g2.node x).root = (g1.node x).root := by rw [o2.node x]; exact ⟨rfl, rfl, rfl, rfl⟩
    have f1 : (h1.node x).kind = (h.node x).kind ∧ (h1.node x).name = (h.node x).name ∧ (h1.node x).content = (h.node x).content ∧
      (h1.node x).root = (h.node x).root := by rw [o1.node x]; exact ⟨rfl, rfl, rfl, rfl⟩
    obtain ⟨c1, c2, c3, c4, c5⟩ := kept2.data x
    obtain ⟨d1, d2, d3, d4, d5⟩ := keptg.data x
    refine ⟨by rw [c1, f1.1, f2.1, d1], by rw [c2, f1.2.1, f2.2.1, d2], ?_, by rw [c4, f1.2.2.1, f2.2.2.1, d4], by rw [c5, f1.2.2.2, f2.2.2.2, d5]⟩
    rw [c3]
    by_cases hx : x ∈ c.nodes
    · rw [v2 x hx]
    · rw [n2 x hx, d3, n1 x hx]
  have z2 : h2.size = h1.size := (data_insertAdjacent s2).size
  have z1 : g1.size = h.size := (data_insertAdjacent s1).size
  refine ⟨h2, g1, g2, s2, s1, t2, hkids, fun y => ?_, hdata, kept2.ok, o2.heapOk keptg.ok, fun q hq hD => ?_⟩
  · by_cases hy : y = n
    · subst hy; rw [pn2, o2.parent, qn1, o1.parent]
    · rw [p2 y hy, o2.parent, q1 y hy, o1.parent]
  · exact html_restored (o2.heapOk keptg.ok) (by rw [z2, o1.size, o2.size, z1]) hkids hdata (by rw [o2.size, z1]; exact hq) hD

/-- C81, an attribute or class call and a removal: the order does not matter, even if the call is about the removed node. -/
theorem C81_attr_remove (ok : HeapOk h D) {a : AttrExt} {c : AttrCall} {x : Nat} (hx : Attached h D x) {h1 : Heap} (r1 : c.run a h = .ok h1) :
    ∃ h2 g1 g2, removeAll h1 [x] = .ok h2 ∧ removeAll h [x] = .ok g1 ∧ c.run a g1 = .ok g2 ∧
      (∀ q, ¬ D q → h2.kids q = g2.kids q) ∧ (∀ y, h2.parent y = g2.parent y) ∧ SameData g2 h2 ∧ HeapOk h2 D ∧ HeapOk g2 D ∧
      ∀ q < h.size, ¬ D q → innerHtml rd e h2 q = innerHtml rd e g2 q ∧ outerHtml rd e h2 q = outerHtml rd e g2 q := by
  obtain ⟨o1, n1, -⟩ := attrCall_only r1
  have hi : ∀ x, h1.index x = h.index x := fun x => by rw [Heap.index, Heap.index, o1.node x]
  have at1 : Attached h1 D x := fun p hp => by
    rw [o1.parent] at hp; rw [o1.kids, hi]; exact hx p hp
  obtain ⟨h2, r2, d2⟩ := detach_detached (o1.heapOk ok) at1
  obtain ⟨g1, s1, d1⟩ := detach_detached ok hx
  have el : ∀ x, g1.isElem x = h.isElem x := fun x => by unfold Heap.isElem; rw [(d1.data x).1]
  obtain ⟨g2, t2, v2⟩ := attrCall_like (g := g1) (fun x _ => ⟨el x, (d1.data x).2.2.1⟩) r1
  obtain ⟨o2, n2, -⟩ := attrCall_only t2
  have hkids : ∀ q, ¬ D q → h2.kids q = g2.kids q := fun q hq => by rw [d2.kids q hq, o2.kids, d1.kids q hq, o1.kids]
  have hdata : SameData g2 h2 := fun x => by
    have f2 : (g2.node x).kind = (g1.node x).kind ∧ (g2.node x).name = (g1.node x).name ∧ (g2.node x).content = (g1.node x).content ∧
      (g2.node x).root = (g1.node x).root := by rw [o2.node x]; exact ⟨rfl, rfl, rfl, rfl⟩
    have f1 : (h1.node x).kind = (h.node x).kind ∧ (h1.node x).name = (h.node x).name ∧ (h1.node x).content = (h.node x).content ∧
      (h1.node x).root = (h.node x).root := by rw [o1.node x]; exact ⟨rfl, rfl, rfl, rfl⟩
    obtain ⟨c1, c2, c3, c4, c5⟩ := d2.data x
    obtain ⟨e1, e2, e3, e4, e5⟩ := d1.data x
    refine ⟨by rw [c1, f1.1, f2.1, e1], by rw [c2, f1.2.1, f2.2.1, e2], ?_, by rw [c4, f1.2.2.1, f2.2.2.1, e4], by rw [c5, f1.2.2.2, f2.2.2.2, e5]⟩
    rw [c3]
    by_cases hx : x ∈ c.nodes
    · rw [v2 x hx]
    · rw [n2 x hx, e3, n1 x hx]
  refine ⟨h2, g1, g2, by simp only [removeAll, r2], by simp only [removeAll, s1], t2, hkids, fun y => ?_, hdata, d2.ok, o2.heapOk d1.ok, fun q hq hD => ?_⟩
  · rw [d2.parent, o2.parent, o1.parent, d1.parent]
  · exact html_restored (o2.heapOk d1.ok) (by rw [d2.size, o1.size, o2.size, d1.size]) hkids hdata (by rw [o2.size, d1.size]; exact hq) hD

end

/-- The paragraph into the new element, and the `i` before the `b`; the `i` and the `b` removed in either order; the `b` removed and the paragraph put behind the `i`. -/
example : (∃ h1 h2 g1 g2, spare.insertAdjacent ext0 .beforeEnd 5 2 = .ok h1 ∧ h1.insertAdjacent ext0 .beforeBegin 3 4 = .ok h2 ∧
      spare.insertAdjacent ext0 .beforeBegin 3 4 = .ok g1 ∧ g1.insertAdjacent ext0 .beforeEnd 5 2 = .ok g2 ∧
      outerHtml rd0 ext0 h2 1 = outerHtml rd0 ext0 g2 1) ∧
    (∃ h1 h2, removeAll spare [3, 4] = .ok h1 ∧ removeAll spare [4, 3] = .ok h2 ∧ outerHtml rd0 ext0 h1 1 = outerHtml rd0 ext0 h2 1) ∧
    ∃ h1 h2 g1 g2, spare.insertAdjacent ext0 .afterEnd 4 2 = .ok h1 ∧ removeAll h1 [3] = .ok h2 ∧ removeAll spare [3] = .ok g1 ∧
      g1.insertAdjacent ext0 .afterEnd 4 2 = .ok g2 ∧ outerHtml rd0 ext0 h2 1 = outerHtml rd0 ext0 g2 1 := by
  have noAbove : ∀ a b, a ≠ 1 → a ≠ 0 → ¬ Above spare a b := fun a b h1 h0 hab => by
    induction hab with
    | parent hp =>
      rename_i x
      have : x = 0 ∨ x = 1 ∨ x = 2 ∨ x = 3 ∨ x = 4 ∨ x = 5 ∨ 6 ≤ x := by omega
      rcases this with rfl | rfl | rfl | rfl | rfl | rfl | hx
      · cases hp
      · cases hp; exact h0 rfl
      · cases hp; exact h1 rfl
      · cases hp; exact h1 rfl
      · cases hp; exact h1 rfl
      · cases hp
      · have : spare.node x = {} := by
          simp only [spare, heapOf, List.getD_eq_getElem?_getD]
          rw [List.getElem?_eq_none (show spareNodes.length ≤ x from hx)]; rfl
        rw [Heap.parent, this] at hp; cases hp
    | step _ _ ih => exact ih
  refine ⟨?_, ?_, ?_⟩
  · obtain ⟨h1, h2, g1, g2, r1, r2, s1, s2, -, -, -, -, -, t⟩ := C81_inserts_partial (rd := rd0) (e := ext0) spare_ok (pos := .beforeEnd) (pos' := .beforeBegin)
      (t := 5) (t' := 3) (n := 2) (n' := 4) (spare_usable (by decide)) (spare_usable (by decide)) (spare_accepted (by decide)) (spare_accepted (by decide))
      (by decide) (by decide) (by unfold Welcome; decide) (by unfold Welcome; decide) (by decide) (by decide) ⟨by decide, noAbove _ _ (by decide) (by decide)⟩
      ⟨by decide, noAbove _ _ (by decide) (by decide)⟩
    exact ⟨h1, h2, g1, g2, r1, r2, s1, s2, (t 1 (by decide) id).2⟩
  · obtain ⟨h1, h2, r1, r2, -, -, -, -, t⟩ := C81_removals (rd := rd0) (e := ext0) spare_ok (X := [3, 4]) (Y := [4, 3])
      (fun x hx => spare_attached (by revert x; decide)) (by decide) (List.Perm.swap ..)
    exact ⟨h1, h2, r1, r2, (t 1 (by decide) id).2⟩
  · obtain ⟨h1, h2, g1, g2, r1, r2, s1, s2, -, -, -, -, -, t⟩ := C81_remove_insert_partial (rd := rd0) (e := ext0) spare_ok (pos := .afterEnd) (t := 4) (n := 2)
      (x := 3) (spare_usable (by decide)) (spare_accepted (by decide)) (by decide) (by unfold Welcome; decide) (spare_attached (by decide)) (by decide)
      (by decide) (by decide)
    exact ⟨h1, h2, g1, g2, r1, r2, s1, s2, (t 1 (by decide) id).2⟩

/-- A class for the `b`, and an attribute of the paragraph and the `i`; a class for the paragraph, which is moved, or removed. -/
example : (∃ h1 h2 g1, (AttrCall.addClass [3] "on".toList).run quoteEnc spare = .ok h1 ∧
      (AttrCall.setAttr [2, 4] "id".toList (some "k".toList)).run quoteEnc h1 = .ok h2 ∧
      (AttrCall.setAttr [2, 4] "id".toList (some "k".toList)).run quoteEnc spare = .ok g1 ∧ (AttrCall.addClass [3] "on".toList).run quoteEnc g1 = .ok h2) ∧
    (∃ h1 h2 g1 g2, (AttrCall.addClass [2] "on".toList).run quoteEnc spare = .ok h1 ∧ h1.insertAdjacent ext0 .afterEnd 4 2 = .ok h2 ∧
      spare.insertAdjacent ext0 .afterEnd 4 2 = .ok g1 ∧ (AttrCall.addClass [2] "on".toList).run quoteEnc g1 = .ok g2 ∧
      outerHtml rd0 ext0 h2 1 = outerHtml rd0 ext0 g2 1) ∧
    ∃ h1 h2 g1 g2, (AttrCall.addClass [2] "on".toList).run quoteEnc spare = .ok h1 ∧ removeAll h1 [2] = .ok h2 ∧
      removeAll spare [2] = .ok g1 ∧ (AttrCall.addClass [2] "on".toList).run quoteEnc g1 = .ok g2 ∧
      outerHtml rd0 ext0 h2 2 = outerHtml rd0 ext0 g2 2 := by
  refine ⟨?_, ?_, ?_⟩
  · obtain ⟨g1, s1, s2⟩ := C81_attrs_apart (a := quoteEnc) (h := spare) (c := .addClass [3] "on".toList)
      (c' := .setAttr [2, 4] "id".toList (some "k".toList)) (by unfold AttrCall.nodes; decide) rfl rfl
    exact ⟨_, _, g1, rfl, rfl, s1, s2⟩
  · obtain ⟨h2, g1, g2, r2, s1, s2, -, -, -, -, -, t⟩ := C81_attr_insert_partial (rd := rd0) (e := ext0) spare_ok (a := quoteEnc) (c := .addClass [2] "on".toList)
      (pos := .afterEnd) (t := 4) (n := 2) (spare_usable (by decide)) (spare_accepted (by decide)) (by decide) (by unfold Welcome; decide) rfl
    exact ⟨_, h2, g1, g2, rfl, r2, s1, s2, (t 1 (by decide) id).2⟩
  · obtain ⟨h2, g1, g2, r2, s1, s2, -, -, -, -, -, t⟩ := C81_attr_remove (rd := rd0) (e := ext0) spare_ok (a := quoteEnc) (c := .addClass [2] "on".toList)
      (x := 2) (spare_attached (by decide)) rfl
    exact ⟨_, h2, g1, g2, rfl, r2, s1, s2, (t 2 (by decide) id).2⟩

/-- The `id` is written and the class removed, in either order. -/
example : ∃ m1 m2, runAttrOps quoteEnc (classMeta "a b") [.set "ID".toList (some "k".toList), .remove "class".toList] = .ok m1 ∧
    runAttrOps quoteEnc (classMeta "a b") [.remove "class".toList, .set "ID".toList (some "k".toList)] = .ok m2 ∧ ∀ k, viewOf m1 k = viewOf m2 k :=
  C81_attrs_partial quoteEnc (classMeta_wf "a b") (by intro h; revert h; decide) (by show NoCapital _; unfold NoCapital; decide) (by decide)

/-- **C81 needs the different names**: of two writes under one name, in different letter cases, the later one is read. -/
theorem C81_fails_one_name : ∃ m1 m2, runAttrOps quoteEnc {} [.set "id".toList (some "a".toList), .set "ID".toList (some "b".toList)] = .ok m1 ∧
    runAttrOps quoteEnc {} [.set "ID".toList (some "b".toList), .set "id".toList (some "a".toList)] = .ok m2 ∧
    viewOf m1 "id".toList ≠ viewOf m2 "id".toList := ⟨_, _, rfl, rfl, by decide⟩

/-- **C81 needs the different places, and targets that are not below the moved nodes**: two nodes appended to one element stand in the order of the
calls; of two elements that are put into each other the first one to move is moved, and the second call is refused. -/
theorem C81_fails_one_place : (∃ h1 h2 g1 g2, spare.insertAdjacent ext0 .beforeEnd 5 2 = .ok h1 ∧ h1.insertAdjacent ext0 .beforeEnd 5 3 = .ok h2 ∧
      spare.insertAdjacent ext0 .beforeEnd 5 3 = .ok g1 ∧ g1.insertAdjacent ext0 .beforeEnd 5 2 = .ok g2 ∧ h2.kids 5 = [2, 3] ∧ g2.kids 5 = [3, 2]) ∧
    ∃ h1 h2 g1 g2, spare.insertAdjacent ext0 .beforeEnd 5 2 = .ok h1 ∧ h1.insertAdjacent ext0 .beforeEnd 2 5 = .ok h2 ∧
      spare.insertAdjacent ext0 .beforeEnd 2 5 = .ok g1 ∧ g1.insertAdjacent ext0 .beforeEnd 5 2 = .ok g2 ∧ h2.parent 2 = some 5 ∧ g2.parent 2 = some 1 :=
  ⟨⟨_, _, _, _, rfl, rfl, rfl, rfl, by decide, by decide⟩, _, _, _, _, rfl, rfl, rfl, rfl, by decide, by decide⟩

end Visdom
