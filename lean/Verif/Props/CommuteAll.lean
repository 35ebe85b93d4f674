import Verif.Props.Exchange
import Verif.Props.Commute
import Verif.Props.MutExact
/-!
# C81: insertions of elements and fragments in either order
-/
namespace Visdom
open Spec

/-- The children `l` of `q` after the nodes `N` have been put at `t`. -/
def Spec.putAll (pos : InsertPosition) (t : Nat) (N : List Nat) (q : Nat) (l : List Nat) : List Nat :=
  match pos with
  | .beforeEnd => if q = t then l ++ N else l
  | .afterBegin => if q = t then N ++ l else l
  | .afterEnd => l.flatMap fun x => if x = t then t :: N else [x]
  | .beforeBegin => l.flatMap fun x => if x = t then N ++ [t] else [x]

/-- Whether the root `n` is a document depends on its own list of children only. -/
def Spec.DocStays (e : Ext) (h : Heap) (n : Nat) : Prop := ∀ g, SameData h g → g.kids n = h.kids n → e.isDoc g n = e.isDoc h n

section
variable {h g : Heap} {D : Nat → Prop} {e : Ext} {rd : Render}

theorem filter_notMem_disjoint {l N : List Nat} (hd : ∀ x ∈ l, x ∉ N) : l.filter (· ∉ N) = l :=
  List.filter_eq_self.2 fun x hx => by simp only [decide_eq_true_eq]; exact hd x hx

theorem putAll_parts (pos : InsertPosition) (t : Nat) (N : List Nat) (q : Nat) : ∃ (P S : List Nat) (f : Nat → List Nat), (∀ l, putAll pos t N q l = P ++ l.flatMap f ++ S) ∧
    (∀ x, x ≠ t → f x = [x]) ∧ (P = if pos = .afterBegin ∧ q = t then N else []) ∧ (S = if pos = .beforeEnd ∧ q = t then N else []) ∧
    (f t = if pos = .afterEnd then t :: N else if pos = .beforeBegin then N ++ [t] else [t]) := by
  cases pos with
  | beforeEnd =>
    refine ⟨_, _, fun x => [x], fun l => ?_, fun _ _ => rfl, rfl, rfl, rfl⟩
    by_cases hq : q = t <;> simp [putAll, hq]
  | afterBegin =>
    refine ⟨_, _, fun x => [x], fun l => ?_, fun _ _ => rfl, rfl, rfl, rfl⟩
    by_cases hq : q = t <;> simp [putAll, hq]
  | afterEnd => exact ⟨[], [], fun x => if x = t then t :: N else [x], fun l => by simp [putAll], fun x hx => by simp [hx], by simp, by simp, by simp⟩
  | beforeBegin => exact ⟨[], [], fun x => if x = t then N ++ [t] else [x], fun l => by simp [putAll], fun x hx => by simp [hx], by simp, by simp, by simp⟩

theorem putAll_filter {pos : InsertPosition} {t q : Nat} {N M : List Nat} (hd : ∀ x ∈ N, x ∉ M) (ht : t ∉ M) (l : List Nat) :
    (putAll pos t N q l).filter (· ∉ M) = putAll pos t N q (l.filter (· ∉ M)) := by
  obtain ⟨P, S, f, a1, a2, a3, a4, a5⟩ := putAll_parts pos t N q
  have hP : P.filter (· ∉ M) = P := filter_notMem_disjoint fun x hx => hd x (by rw [a3] at hx; split at hx <;> simp_all)
  have hS : S.filter (· ∉ M) = S := filter_notMem_disjoint fun x hx => hd x (by rw [a4] at hx; split at hx <;> simp_all)
  have hft : (f t).filter (· ∉ M) = f t := filter_notMem_disjoint fun x hx => by
    rw [a5] at hx
    have hN : x = t ∨ x ∈ N := by
      split at hx
      · simpa using hx
      · split at hx
        · rw [List.mem_append] at hx
          exact hx.elim .inr fun h1 => .inl (by simpa using h1)
        · exact .inl (by simpa using hx)
    rcases hN with rfl | h1
    · exact ht
    · exact hd x h1
  have hl : (l.flatMap f).filter (· ∉ M) = (l.filter (· ∉ M)).flatMap f := by
    induction l with
    | nil => rfl
    | cons x l ih =>
      rw [List.flatMap_cons, List.filter_append, ih, List.filter_cons]
      by_cases hx : x = t
      · subst hx; rw [hft]; simp [ht]
      · rw [a2 x hx]
        by_cases hm : x ∈ M
        · simp [hm]
        · simp [hm, a2 x hx]
  rw [a1, a1, List.filter_append, List.filter_append, hP, hS, hl]

theorem putAll_putAll {pos pos' : InsertPosition} {t t' q : Nat} {N N' : List Nat} (h1 : t ∉ N') (h2 : t' ∉ N) (hp : ¬ (pos = pos' ∧ t = t')) (l : List Nat) :
    putAll pos t N q (putAll pos' t' N' q l) = putAll pos' t' N' q (putAll pos t N q l) := by
  obtain ⟨P, S, f, a1, a2, a3, a4, a5⟩ := putAll_parts pos t N q
  obtain ⟨P', S', f', b1, b2, b3, b4, b5⟩ := putAll_parts pos' t' N' q
  have kN' : N'.flatMap f = N' := flatMap_away fun x hx => a2 x (by rintro rfl; exact h1 hx)
  have kN : N.flatMap f' = N := flatMap_away fun x hx => b2 x (by rintro rfl; exact h2 hx)
  have hP : P'.flatMap f = P' := by rw [b3]; split <;> simp [kN']
  have hS : S'.flatMap f = S' := by rw [b4]; split <;> simp [kN']
  have hP' : P.flatMap f' = P := by rw [a3]; split <;> simp [kN]
  have hS' : S.flatMap f' = S := by rw [a4]; split <;> simp [kN]
  have hPP : P ++ P' = P' ++ P := by
    rw [a3, b3]
    split <;> split
    · rename_i c c'
      exact absurd ⟨c.1.trans c'.1.symm, c.2.symm.trans c'.2⟩ hp
    all_goals simp
  have hSS : S' ++ S = S ++ S' := by
    rw [a4, b4]
    split <;> split
    · rename_i c c'
      exact absurd ⟨c'.1.trans c.1.symm, c'.2.symm.trans c.2⟩ hp
    all_goals simp
  have hff : ∀ x, (f' x).flatMap f = (f x).flatMap f' := by
    intro x
    by_cases hx : x = t
    · subst hx
      by_cases hx' : x = t'
      · subst hx'
        rw [a5, b5]
        cases pos <;> cases pos' <;> simp_all
      · rw [b2 x hx', a5]
        have k3 : f' x = [x] := b2 _ hx'
        cases pos <;> simp_all
    · rw [a2 x hx]
      by_cases hx' : x = t'
      · subst hx'
        have k3 : f x = [x] := a2 _ hx
        rw [b5]
        cases pos' <;> simp_all
      · rw [b2 x hx']; simp [a2 x hx, b2 x hx']
  rw [b1, a1, a1, b1]
  simp only [List.flatMap_append, hP, hS, hP', hS', List.flatMap_assoc, hff, List.append_assoc]
  rw [← List.append_assoc P P', hPP]
  simp only [List.append_assoc, hSS]

/-- `putAll` of a list without the target. -/
theorem putAll_away {pos : InsertPosition} {t q : Nat} {N l : List Nat} (hq : q ≠ t) (hl : t ∉ l) : putAll pos t N q l = l := by
  cases pos with
  | beforeEnd => simp [putAll, hq]
  | afterBegin => simp [putAll, hq]
  | afterEnd => exact flatMap_away fun x hx => if_neg (by rintro rfl; exact hl hx)
  | beforeBegin => exact flatMap_away fun x hx => if_neg (by rintro rfl; exact hl hx)

/-- The used fragments after the insertion of `n`. -/
def Spec.With (D : Nat → Prop) (h : Heap) (n : Nat) : Nat → Prop := fun x => D x ∨ (x = n ∧ (h.node n).kind = .root)

/-- An insertion of a node or a fragment none of whose nodes gets lost, as an equation between lists. -/
theorem insert_putAll (ok : HeapOk h D) {pos : InsertPosition} {t n : Nat} (u : Usable e h D (.insert pos t n)) (ha : Accepted e h t n)
    (w : Welcome e h pos t (moved h n)) : ∃ h', h.insertAdjacent e pos t n = .ok h' ∧ HeapOk h' (With D h n) ∧ h'.size = h.size ∧ SameData h h' ∧
      (∀ y < h.size, Attached h D y → Attached h' (With D h n) y) ∧
      (∀ q, ¬ With D h n q → h'.kids q = putAll pos t (moved h n) q ((h.kids q).filter (· ∉ moved h n))) ∧
      ∃ v, (∀ y, h'.parent y = if y ∈ moved h n then some v else h.parent y) ∧ some v = if pos = .afterBegin ∨ pos = .beforeEnd then some t else h.parent t := by
  obtain ⟨g1, st⟩ := insert_step (e := e) ok u
  have r1 : h.insertAdjacent e pos t n = .ok g1 := st.run
  have hU : (fun x => Used e h D x (.insert pos t n)) = With D h n := by
    funext x; simp [Used, With, ha]
  have hl : ∀ y, ¬ Lost e h y (.insert pos t n) := by
    rintro y ⟨_, hy, hl⟩
    unfold Welcome at w
    split at w
    · rename_i hp
      rw [if_pos hp, w y hy] at hl; cases hl
    · rename_i hp
      rw [if_neg hp] at hl; exact w hl
  have hok := st.ok
  rw [hU] at hok
  have hatt : ∀ y < h.size, Attached h D y → Attached g1 (With D h n) y := fun y hb hy => by
    have := st.attached y hb hy (hl y)
    rwa [hU] at this
  have hside : ∀ q, ¬ With D h n q → ¬ D q ∧ (q ≠ n ∨ (h.node n).kind ≠ .root) := fun q hq =>
    ⟨fun h1 => hq (.inl h1), by
      by_contra hc
      rw [not_or, not_not, not_not] at hc
      exact hq (.inr hc)⟩
  by_cases hp : pos = .afterBegin ∨ pos = .beforeEnd
  · obtain ⟨h', r2, k1, k2, k3, k4⟩ := insert_inside ok u ha hp
    rw [r1] at r2; cases r2
    have hal : (moved h n).filter (e.allow (h.tagNames t)) = moved h n := List.filter_eq_self.2 fun m hm => by
      unfold Welcome at w; rw [if_pos hp] at w; exact w m hm
    rw [hal] at k1 k3
    refine ⟨g1, r1, hok, (data_insertAdjacent r1).size, k4, hatt, fun q hq => ?_, t, k3, by rw [if_pos hp]⟩
    obtain ⟨q1, q2⟩ := hside q hq
    by_cases hqt : q = t
    · subst hqt
      rcases hp with rfl | rfl <;> rw [k1] <;> simp [putAll]
    · rw [k2 q q1 hqt q2]
      rcases hp with rfl | rfl <;> simp [putAll, hqt]
  · have w' := w
    unfold Welcome at w'
    rw [if_neg hp] at w'
    obtain ⟨p, hpar⟩ := Option.ne_none_iff_exists'.1 w'
    obtain ⟨h', A, B, r2, k1, k2, k3, k4, k5⟩ := insert_beside ok u ha hp hpar
    rw [r1] at r2; cases r2
    refine ⟨g1, r1, hok, (data_insertAdjacent r1).size, k5, hatt, fun q hq => ?_, p, k4, by rw [if_neg hp, hpar]⟩
    obtain ⟨q1, q2⟩ := hside q hq
    by_cases hqt : q = p
    · subst hqt
      rw [k1, k2]
      have hnd : ((h.kids q).filter (· ∉ moved h n)).Nodup := (ok.kids_nodup q1).filter _
      rw [k1] at hnd
      have hA : t ∉ A := fun h8 => (List.nodup_append.1 hnd).2.2 t h8 t (by simp) rfl
      have hB : t ∉ B := (List.nodup_cons.1 (List.nodup_append.1 hnd).2.1).1
      have fA : ∀ x ∈ A, x ≠ t := fun x hx h1 => hA (h1 ▸ hx)
      have fB : ∀ x ∈ B, x ≠ t := fun x hx h1 => hB (h1 ▸ hx)
      cases pos with
      | afterBegin => simp at hp
      | beforeEnd => simp at hp
      | afterEnd =>
        simp only [putAll, List.flatMap_append, List.flatMap_cons]
        rw [flatMap_away fun x hx => if_neg (fA x hx), flatMap_away fun x hx => if_neg (fB x hx)]
        simp
      | beforeBegin =>
        simp only [putAll, List.flatMap_append, List.flatMap_cons]
        rw [flatMap_away fun x hx => if_neg (fA x hx), flatMap_away fun x hx => if_neg (fB x hx)]
        simp
    · rw [k3 q q1 hqt q2]
      have ht : ∀ x ∈ (h.kids q).filter (· ∉ moved h n), x ≠ t := fun x hx h1 => by
        subst h1
        have := ok.kid_parent q1 (List.mem_filter.1 hx).1
        rw [hpar] at this
        cases this
        exact hqt rfl
      cases pos with
      | afterBegin => simp at hp
      | beforeEnd => simp at hp
      | afterEnd => exact (flatMap_away fun x hx => if_neg (ht x hx)).symm
      | beforeBegin => exact (flatMap_away fun x hx => if_neg (ht x hx)).symm

/-- An insertion stays possible after another one that moves neither its target nor what it moves. -/
theorem insert_still_all {h1 : Heap} {pos pos' : InsertPosition} {t t' n n' v : Nat} (hok : HeapOk h1 (With D h n)) (hsz : h1.size = h.size) (hsd : SameData h h1)
    (hatt : ∀ y < h.size, Attached h D y → Attached h1 (With D h n) y)
    (hkids : ∀ q, ¬ With D h n q → h1.kids q = putAll pos t (moved h n) q ((h.kids q).filter (· ∉ moved h n)))
    (hpar : ∀ y, h1.parent y = if y ∈ moved h n then some v else h.parent y) (ha : Accepted e h t n)
    (u' : Usable e h D (.insert pos' t' n')) (ha' : Accepted e h t' n') (w' : Welcome e h pos' t' (moved h n')) (hdoc : DocStays e h n')
    (hn : n ≠ n') (hdj : ∀ m ∈ moved h n', m ∉ moved h n) (f1 : t ∉ moved h n') (f2 : ∀ m ∈ moved h n, m ≠ t' ∧ ¬ Above h m t') :
    Usable e h1 (With D h n) (.insert pos' t' n') ∧ Accepted e h1 t' n' ∧ moved h1 n' = moved h n' ∧ Welcome e h1 pos' t' (moved h n') := by
  have hD1 : ¬ With D h n n' := by
    rintro (h3 | ⟨h3, -⟩)
    · exact u'.2.2.1 h3
    · exact hn h3.symm
  have ht' : t' ∉ moved h n := fun h3 => (f2 t' h3).1 rfl
  have hm : (h.node n').kind = .root → h1.kids n' = h.kids n' := fun hr => by
    have hmv : moved h n' = h.kids n' := if_pos hr
    rw [hmv] at hdj f1
    rw [hkids n' hD1, filter_notMem_disjoint hdj]
    exact putAll_away (by rintro rfl; rw [ha.1] at hr; cases hr) f1
  refine ⟨⟨hatt t' u'.2.2.2.2 u'.1, hatt n' u'.2.2.2.1 u'.2.1, hD1, by rw [hsz]; exact u'.2.2.2.1, by rw [hsz]; exact u'.2.2.2.2⟩,
    ⟨(hsd t').1.trans ha'.1, fun h3 => ?_, ha'.2.2.1, fun h3 => ?_⟩, ?_, ?_⟩
  · have hr : (h.node n').kind = .root := (hsd n').1 ▸ h3.1
    exact ha'.2.1 ⟨hr, by rw [← hdoc h1 hsd (hm hr)]; exact h3.2⟩
  · exact ha'.2.2.2 ((above_stays hpar ht' (fun m hm => (f2 m hm).2) n').1 h3)
  · unfold moved
    rw [(hsd n').1]
    split
    · rename_i hr
      exact hm hr
    · rfl
  · unfold Welcome at w' ⊢
    split at w'
    · rename_i hp
      rw [if_pos hp, tagNames_same hsd]; exact w'
    · rename_i hp
      rw [if_neg hp, hpar, if_neg ht']; exact w'

/-- **C81, insertions of nodes and fragments**: two insertions of different nodes or fragments at different places, where neither moves the target of the other or what the other
moves, give the same lists of children, the same links and the same HTML in either order. -/
theorem C81_inserts_all_partial (ok : HeapOk h D) {pos pos' : InsertPosition} {t t' n n' : Nat} (u : Usable e h D (.insert pos t n))
    (u' : Usable e h D (.insert pos' t' n')) (ha : Accepted e h t n) (ha' : Accepted e h t' n') (w : Welcome e h pos t (moved h n)) (w' : Welcome e h pos' t' (moved h n'))
    (hdoc : DocStays e h n) (hdoc' : DocStays e h n') (hn : n ≠ n') (hdj : ∀ m ∈ moved h n, m ∉ moved h n') (hp : ¬ (pos = pos' ∧ t = t'))
    (f1 : ∀ m ∈ moved h n', m ≠ t ∧ ¬ Above h m t) (f2 : ∀ m ∈ moved h n, m ≠ t' ∧ ¬ Above h m t') :
    ∃ h1 h2 g1 g2, h.insertAdjacent e pos t n = .ok h1 ∧ h1.insertAdjacent e pos' t' n' = .ok h2 ∧
      h.insertAdjacent e pos' t' n' = .ok g1 ∧ g1.insertAdjacent e pos t n = .ok g2 ∧
      (∀ q, ¬ With (With D h n) h n' q → h2.kids q = g2.kids q) ∧ (∀ y, h2.parent y = g2.parent y) ∧ SameData g2 h2 ∧
      HeapOk h2 (With (With D h n) h n') ∧ HeapOk g2 (With (With D h n) h n') ∧
      ∀ q < h.size, ¬ With (With D h n) h n' q → innerHtml rd e h2 q = innerHtml rd e g2 q ∧ outerHtml rd e h2 q = outerHtml rd e g2 q := by
  have ht : t ∉ moved h n' := fun h3 => (f1 t h3).1 rfl
  have ht' : t' ∉ moved h n := fun h3 => (f2 t' h3).1 rfl
  have hdj' : ∀ m ∈ moved h n', m ∉ moved h n := fun m h1 h2 => hdj m h2 h1
  obtain ⟨h1, r1, ok1, z1, d1, at1, l1, v, p1, e1⟩ := insert_putAll ok u ha w
  obtain ⟨g1, s1, okg1, zg1, dg1, atg1, m1, v', q1, e1'⟩ := insert_putAll ok u' ha' w'
  obtain ⟨a1, a2, a3, a4⟩ := insert_still_all ok1 z1 d1 at1 l1 p1 ha u' ha' w' hdoc' hn hdj' ht f2
  obtain ⟨b1, b2, b3, b4⟩ := insert_still_all okg1 zg1 dg1 atg1 m1 q1 ha' u ha w hdoc hn.symm hdj ht' f1
  obtain ⟨h2, r2, ok2, z2, d2, -, l2, x, p2, e2⟩ := insert_putAll ok1 a1 a2 (by rw [a3]; exact a4)
  obtain ⟨g2, s2, okg2, zg2, dg2, -, m2, x', q2, e2'⟩ := insert_putAll okg1 b1 b2 (by rw [b3]; exact b4)
  rw [a3] at l2 p2
  rw [b3] at m2 q2
  have hD : With (With D h n) h1 n' = With (With D h n) h n' := by
    funext y; simp only [With, (d1 n').1]
  have hDg : With (With D h n') g1 n = With (With D h n) h n' := by
    funext y; simp only [With, (dg1 n).1, eq_iff_iff]; tauto
  rw [hD] at ok2 l2
  rw [hDg] at okg2 m2
  have hkids : ∀ q, ¬ With (With D h n) h n' q → h2.kids q = g2.kids q := fun q hq => by
    have hq1 : ¬ With D h n q := fun h3 => hq (.inl h3)
    have hq2 : ¬ With D h n' q := fun h3 => hq (h3.elim (fun h4 => .inl (.inl h4)) .inr)
    rw [l2 q hq, l1 q hq1, m2 q hq, m1 q hq2, putAll_filter hdj ht, putAll_filter hdj' ht', putAll_putAll ht' ht (fun h3 => hp ⟨h3.1.symm, h3.2.symm⟩)]
    simp only [List.filter_filter]
    congr 3
    funext y
    exact Bool.and_comm ..
  have hdata : SameData g2 h2 := fun y => by
    have c1 := (d1.trans d2) y
    have c2 := (dg1.trans dg2) y
    exact ⟨c1.1.trans c2.1.symm, c1.2.1.trans c2.2.1.symm, c1.2.2.1.trans c2.2.2.1.symm, c1.2.2.2.1.trans c2.2.2.2.1.symm,
      c1.2.2.2.2.trans c2.2.2.2.2.symm⟩
  rw [p1 t', if_neg ht'] at e2
  rw [q1 t, if_neg ht] at e2'
  have ex : some x = some v' := e2.trans e1'.symm
  have ex' : some x' = some v := e2'.trans e1.symm
  cases ex
  cases ex'
  refine ⟨h1, h2, g1, g2, r1, r2, s1, s2, hkids, fun y => ?_, hdata, ok2, okg2, fun q hq hqD => ?_⟩
  · rw [p2, p1, q2, q1]
    by_cases hy : y ∈ moved h n
    · simp [hy, hdj y hy]
    · simp [hy]
  · exact html_restored okg2 (by omega) hkids hdata (by omega) hqD

end

/-! ## The hypotheses are satisfiable -/

set_option maxRecDepth 100000 in
/-- The fragment 10 of the sample is appended to `ul(8)` and the element 6 is put before 2, in either order. -/
example : ∃ h1 h2 g1 g2, demo2.insertAdjacent ext0 .beforeEnd 8 10 = .ok h1 ∧ h1.insertAdjacent ext0 .beforeBegin 2 6 = .ok h2 ∧
    demo2.insertAdjacent ext0 .beforeBegin 2 6 = .ok g1 ∧ g1.insertAdjacent ext0 .beforeEnd 8 10 = .ok g2 ∧ h2.kids 8 = g2.kids 8 ∧ h2.kids 1 = g2.kids 1 ∧
    outerHtml rd0 ext0 h2 1 = outerHtml rd0 ext0 g2 1 := by
  have hm : moved demo2 10 = [11, 12] := by decide
  have hm' : moved demo2 6 = [6] := by decide
  have up8 : ∀ m, m ∉ [0] → ¬ Above demo2 m 8 := fun m hm => above_way [0] 8 (by decide) (by decide) hm
  have up2 : ∀ m, m ∉ [1, 0] → ¬ Above demo2 m 2 := fun m hm => above_way [1, 0] 2 (by decide) (by decide) hm
  obtain ⟨h1, h2, g1, g2, r1, r2, s1, s2, k, -, -, -, -, t⟩ := C81_inserts_all_partial (rd := rd0) (e := ext0) (D := noneUsed) demo2_ok (pos := .beforeEnd)
    (pos' := .beforeBegin) (t := 8) (t' := 2) (n := 10) (n' := 6) (noneUsed_eq ▸ usableB_sound (by decide)) (noneUsed_eq ▸ usableB_sound (by decide))
    (demo2_accepted (by decide)) (demo2_accepted (by decide)) (by unfold Welcome; decide) (by unfold Welcome; decide) (fun g _ _ => rfl) (fun g _ _ => rfl)
    (by decide) (by decide) (by decide)
    (fun m hx => by rw [hm'] at hx; simp only [List.mem_singleton] at hx; subst hx; exact ⟨by decide, up8 6 (by decide)⟩)
    (fun m hx => by
      rw [hm] at hx
      simp only [List.mem_cons, List.not_mem_nil, or_false] at hx
      rcases hx with rfl | rfl
      · exact ⟨by decide, up2 _ (by decide)⟩
      · exact ⟨by decide, up2 _ (by decide)⟩)
  have live : ∀ q, q ≠ 10 → ¬ With (With noneUsed demo2 10) demo2 6 q := by
    rintro q hq ((h3 | h3) | h3)
    · exact h3
    · exact hq h3.1
    · exact absurd h3.2 (by decide)
  exact ⟨h1, h2, g1, g2, r1, r2, s1, s2, k 8 (live 8 (by decide)), k 1 (live 1 (by decide)), (t 1 (by decide) (live 1 (by decide))).2⟩

end Visdom
