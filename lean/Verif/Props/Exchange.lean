import Verif.Props.Wrap
/-!
# C99: two elements change places
-/
namespace Visdom
open Spec

/-- `a` for `b` and `b` for `a`. -/
def Spec.other (a b y : Nat) : Nat := if y = a then b else if y = b then a else y

section
variable {rd : Render} {e : Ext} {h h1 h2 h3 : Heap} {D : Nat → Prop}

theorem other_other (a b y : Nat) : other a b (other a b y) = y := by
  unfold other; split_ifs <;> simp_all

theorem other_comm (a b y : Nat) : other a b y = other b a y := by
  unfold other; split_ifs <;> simp_all

theorem map_other_self {a b : Nat} {l : List Nat} (ha : a ∉ l) (hb : b ∉ l) : l.map (other a b) = l := by
  refine (List.map_congr_left fun y hy => ?_).trans (List.map_id l)
  unfold other
  rw [if_neg (by rintro rfl; exact ha hy), if_neg (by rintro rfl; exact hb hy)]
  rfl

theorem above_iff {m x p : Nat} (hp : h.parent x = some p) : Above h m x ↔ m = p ∨ Above h m p :=
  ⟨fun h1 => above_cases h1 hp, fun h1 => h1.elim (fun h2 => h2 ▸ .parent hp) fun h2 => .step h2 hp⟩

theorem attached_kid (ok : HeapOk h D) {x p : Nat} (hD : ¬ D p) (hx : x ∈ h.kids p) : Attached h D x := by
  intro q hq
  rw [ok.kid_parent hD hx, Option.some.injEq] at hq
  subst hq
  obtain ⟨i, hi⟩ := List.mem_iff_getElem?.1 hx
  rw [(ok.link p i x hD hi).2]
  exact ⟨hD, hi⟩

/-- One node put before another one, for all lists at once. -/
theorem before_lists (ok : HeapOk h D) {t n p : Nat} (u : Usable e h D (.insert .beforeBegin t n)) (ha : Accepted e h t n) (hn : (h.node n).kind ≠ .root)
    (hD : ¬ D p) (hpar : h.parent t = some p) :
    ∃ h', insertAll e .beforeBegin [n] h [t] = .ok h' ∧ (∀ q, ¬ D q → h'.kids q = ((h.kids q).filter (· ≠ n)).flatMap fun y => if y = t then [n, t] else [y]) ∧
      (∀ y, h'.parent y = if y ∈ [n] then some p else h.parent y) ∧ SameData h h' ∧ Kept h h' D ∧ h'.size = h.size := by
  obtain ⟨h', A, B, r1, k1, k2, k3, k4, k5⟩ := insert_beside ok u ha (by simp) hpar
  obtain ⟨g, r1', kept⟩ := insert_kept ok (pos := .beforeBegin) (dest := [n]) (by simp) ⟨u.1, u.2.2.2.2⟩ ⟨u.2.1, u.2.2.2.1, hn⟩
    (show Welcome e h .beforeBegin t [n] by unfold Welcome; rw [if_neg (by simp), hpar]; simp)
  rw [r1] at r1'; cases r1'
  have hm : moved h n = [n] := if_neg hn
  simp only [hm, filter_notMem_single] at k1 k2 k3 k4
  have none : ∀ l : List Nat, t ∉ l → (l.flatMap fun y => if y = t then [n, t] else [y]) = l := by
    intro l hl
    induction l with
    | nil => rfl
    | cons c l ih =>
      simp only [List.mem_cons, not_or] at hl
      rw [List.flatMap_cons, if_neg (fun h3 => hl.1 h3.symm), ih hl.2]; rfl
  refine ⟨h', by simp only [insertAll, insertLoop, List.reverse_singleton, r1], fun q hq => ?_, k4, k5, kept, (data_insertAdjacent r1).size⟩
  by_cases hqp : q = p
  · subst hqp
    have hnd : (A ++ t :: B).Nodup := k1 ▸ (ok.kids_nodup hD).filter _
    have hA : t ∉ A := fun h2 => (List.nodup_append.1 hnd).2.2 t h2 t (by simp) rfl
    have hB : t ∉ B := (List.nodup_cons.1 (List.nodup_append.1 hnd).2.1).1
    rw [k2, k1, if_neg (by simp), List.flatMap_append, List.flatMap_cons, none A hA, none B hB, if_pos rfl]
    simp
  · rw [k3 q hq hqp (.inr hn), none]
    intro h2
    exact hqp (by have := ok.kid_parent hq (List.mem_filter.1 h2).1; rw [hpar, Option.some.injEq] at this; exact this.symm)

/-- One node put in the place of another one, for all lists at once. -/
theorem replace_lists (ok : HeapOk h D) {t n p : Nat} (u : Usable e h D (.replace t n)) (hn : (h.node n).kind ≠ .root) (hD : ¬ D p) (hpar : h.parent t = some p) :
    ∃ h', replaceAll e [n] h [t] = .ok (h', [n]) ∧ (∀ q, ¬ D q → h'.kids q = ((h.kids q).filter (· ≠ n)).map fun y => if y = t then n else y) ∧
      (∀ y, h'.parent y = if y ∈ [n] then some p else h.parent y) ∧ SameData h h' ∧ HeapOk h' D ∧ h'.size = h.size := by
  have hm : moved h n = [n] := if_neg hn
  obtain ⟨h', A, B, r1, k1, k2, k3, k4, k5⟩ := replace_one ok u hpar (by rw [hm]; simp)
  obtain ⟨g, st⟩ := replace_step ok u
  have hg : g = h' := by
    have := st.run
    simp only [Op.run, r1, Except.map, Except.ok.injEq] at this
    exact this.symm
  subst hg
  have ok3 : HeapOk g D := by
    have hU : (fun y => Used e h D y (.replace t n)) = D := by
      funext y; simp only [Used, hn, and_false, or_false]
    exact hU ▸ st.ok
  simp only [hm, filter_notMem_single] at r1 k1 k2 k3 k4
  have none : ∀ l : List Nat, t ∉ l → (l.map fun y => if y = t then n else y) = l := by
    intro l hl
    induction l with
    | nil => rfl
    | cons c l ih =>
      simp only [List.mem_cons, not_or] at hl
      rw [List.map_cons, if_neg (fun h3 => hl.1 h3.symm), ih hl.2]
  refine ⟨g, by simp [replaceAll, replaceLoop, r1], fun q hq => ?_, k4, k5, ok3, (data_replaceWith r1).size⟩
  by_cases hqp : q = p
  · subst hqp
    have hnd : (A ++ t :: B).Nodup := k1 ▸ (ok.kids_nodup hD).filter _
    have hA : t ∉ A := fun h2 => (List.nodup_append.1 hnd).2.2 t h2 t (by simp) rfl
    have hB : t ∉ B := (List.nodup_cons.1 (List.nodup_append.1 hnd).2.1).1
    rw [k2, k1, List.map_append, List.map_cons, none A hA, none B hB, if_pos rfl]
    simp
  · rw [k3 q hq hqp (.inr hn), none]
    intro h2
    exact hqp (by have := ok.kid_parent hq (List.mem_filter.1 h2).1; rw [hpar, Option.some.injEq] at this; exact this.symm)

/-- The three steps on one list. -/
theorem exchange_list {a b w : Nat} (hab : a ≠ b) (haw : a ≠ w) (hbw : b ≠ w) {l : List Nat} (hl : w ∉ l) :
    ((((((l.filter (· ≠ w)).flatMap fun y => if y = a then [w, a] else [y]).filter (· ≠ a)).flatMap fun y => if y = b then [a, b] else [y]).filter (· ≠ b)).map
      fun y => if y = w then b else y) = l.map (other a b) := by
  induction l with
  | nil => rfl
  | cons y l ih =>
    simp only [List.mem_cons, not_or] at hl
    have hy : y ≠ w := fun h1 => hl.1 h1.symm
    rw [List.map_cons, ← ih hl.2]
    by_cases ya : y = a
    · subst ya
      simp [other, hy, hab, haw, hbw, hab.symm, haw.symm, hbw.symm]
    · by_cases yb : y = b
      · subst yb
        simp [other, hy, ya, hab, haw, hbw]
      · simp [other, hy, ya, yb]

/-- Two elements `a` (in `p`) and `b` (in `q`), neither in the other, and a new element `w` to mark a place. -/
structure Exchangeable (h : Heap) (D : Nat → Prop) (a p b q w : Nat) : Prop where
  ne : a ≠ b
  first : ¬ D p ∧ a ∈ h.kids p ∧ (h.node a).kind = .tag
  second : ¬ D q ∧ b ∈ h.kids q ∧ (h.node b).kind = .tag
  apart : ¬ Above h a b ∧ ¬ Above h b a
  mark : (h.node w).kind = .tag ∧ w < h.size ∧ h.parent w = none ∧ w ≠ a ∧ w ≠ b ∧ ¬ Above h w a ∧ ¬ Above h w b

theorem swap_core (ok : HeapOk h D) {a p b q w : Nat} (x : Exchangeable h D a p b q w) :
    ∃ h1 h2 h3, insertAll e .beforeBegin [w] h [a] = .ok h1 ∧ insertAll e .beforeBegin [a] h1 [b] = .ok h2 ∧ replaceAll e [b] h2 [w] = .ok (h3, [b]) ∧
      (∀ y, ¬ D y → h3.kids y = (h.kids y).map (other a b)) ∧ h3.parent a = some q ∧ h3.parent b = some p ∧
      (∀ y, y ≠ a → y ≠ b → y ≠ w → h3.parent y = h.parent y) ∧ (∀ m, (Above h3 m a ↔ Above h m b) ∧ (Above h3 m b ↔ Above h m a)) ∧
      SameData h h3 ∧ HeapOk h3 D ∧ h3.size = h.size ∧
      HeapOk h2 D ∧ Usable e h2 D (.replace w b) ∧ h2.parent w = some p ∧ (h2.node b).kind ≠ .root := by
  obtain ⟨hab, ⟨hDp, hap, hka⟩, ⟨hDq, hbq, hkb⟩, ⟨nab, nba⟩, hkw, hbw, hpw, hwa, hwb, nwa, nwb⟩ := x
  have hpa := ok.kid_parent hDp hap
  have hpb := ok.kid_parent hDq hbq
  have hba := (ok.bound _ _ hpa).1
  have hbb := (ok.bound _ _ hpb).1
  have haa := attached_kid ok hDp hap
  have hbat := attached_kid ok hDq hbq
  have haw : Attached h D w := by intro r hr; rw [hpw] at hr; cases hr
  have hDa := tag_live ok hka
  have hDb := tag_live ok hkb
  have hDw := tag_live ok hkw
  have hra : (h.node a).kind ≠ .root := by rw [hka]; simp
  have hrb : (h.node b).kind ≠ .root := by rw [hkb]; simp
  have hrw : (h.node w).kind ≠ .root := by rw [hkw]; simp
  -- the first step
  obtain ⟨h1, r1, l1, p1, d1, kp1, z1⟩ := before_lists (e := e) ok (t := a) (n := w) ⟨haa, haw, hDw, hbw, hba⟩ ⟨hka, fun h3 => hrw h3.1, hwa.symm, nwa⟩ hrw hDp hpa
  have st1 : ∀ t, t ≠ w → ¬ Above h w t → ∀ m, Above h1 m t ↔ Above h m t := fun t ht hat m =>
    above_stays p1 (by simpa using ht) (by simpa using hat) m
  have p1' : ∀ y, y ≠ w → h1.parent y = h.parent y := fun y hy => by rw [p1, if_neg (by simpa using hy)]
  -- the second step
  have hab1 : ¬ Above h1 a b := fun h3 => nab ((st1 b hwb.symm nwb a).1 h3)
  have hra1 : (h1.node a).kind ≠ .root := by rw [(d1 a).1]; exact hra
  obtain ⟨h2, r2, l2, p2, d2, kp2, z2⟩ := before_lists (e := e) kp1.ok (t := b) (n := a) (p := q)
    ⟨kp1.attached b hbb hbat, kp1.attached a hba haa, hDa, by rw [z1]; exact hba, by rw [z1]; exact hbb⟩
    ⟨by rw [(d1 b).1, hkb], fun h3 => hra1 h3.1, hab.symm, hab1⟩ hra1 hDq (by rw [p1' b hwb.symm, hpb])
  have st2 : ∀ t, t ≠ a → ¬ Above h1 a t → ∀ m, Above h2 m t ↔ Above h1 m t := fun t ht hat m =>
    above_stays p2 (by simpa using ht) (by simpa using hat) m
  have p2' : ∀ y, y ≠ a → h2.parent y = h1.parent y := fun y hy => by rw [p2, if_neg (by simpa using hy)]
  -- the nodes above `p` and `q`
  have hpw' : p ≠ w := by rintro rfl; exact nwa (.parent hpa)
  have hqw' : q ≠ w := by rintro rfl; exact nwb (.parent hpb)
  have hpa' : p ≠ a := (ok.parent_ne hpa).symm
  have hqa' : q ≠ a := by rintro rfl; exact nab (.parent hpb)
  have hpb' : p ≠ b := by rintro rfl; exact nba (.parent hpa)
  have hqb' : q ≠ b := (ok.parent_ne hpb).symm
  have up1 : ∀ m, Above h1 m p ↔ Above h m p := st1 p hpw' fun h3 => nwa (.step h3 hpa)
  have uq1 : ∀ m, Above h1 m q ↔ Above h m q := st1 q hqw' fun h3 => nwb (.step h3 hpb)
  have up2 : ∀ m, Above h2 m p ↔ Above h m p := fun m =>
    (st2 p hpa' (fun h3 => ok.not_above_self a (.step ((up1 a).1 h3) hpa)) m).trans (up1 m)
  have uq2 : ∀ m, Above h2 m q ↔ Above h m q := fun m => (st2 q hqa' (fun h3 => nab (.step ((uq1 a).1 h3) hpb)) m).trans (uq1 m)
  -- the third step
  have hpw2 : h2.parent w = some p := by rw [p2' w hwa, p1, if_pos (by simp)]
  have hrb2 : (h2.node b).kind ≠ .root := by rw [(d2 b).1, (d1 b).1]; exact hrb
  have hbw2 : ¬ Above h2 b w := by
    intro h3
    rcases above_cases h3 hpw2 with h4 | h4
    · exact hpb' h4.symm
    · exact nba (.step ((up2 b).1 h4) hpa)
  have u3 : Usable e h2 D (.replace w b) := ⟨kp2.attached w (by rw [z1]; exact hbw) (kp1.attached w hbw haw), kp2.attached b (by rw [z1]; exact hbb) (kp1.attached b hbb hbat), hDb, by rw [z2, z1]; exact hbb,
      fun h4 => hrb2 h4.1, hwb, hbw2⟩
  obtain ⟨h3, r3, l3, p3, d3, ok3, z3⟩ := replace_lists (e := e) kp2.ok (t := w) (n := b) (p := p) u3 hrb2 hDp hpw2
  have st3 : ∀ t, t ≠ b → ¬ Above h2 b t → ∀ m, Above h3 m t ↔ Above h2 m t := fun t ht hat m =>
    above_stays p3 (by simpa using ht) (by simpa using hat) m
  have up3 : ∀ m, Above h3 m p ↔ Above h m p := fun m => (st3 p hpb' (fun h4 => nba (.step ((up2 b).1 h4) hpa)) m).trans (up2 m)
  have uq3 : ∀ m, Above h3 m q ↔ Above h m q := fun m =>
    (st3 q hqb' (fun h4 => ok.not_above_self b (.step ((uq2 b).1 h4) hpb)) m).trans (uq2 m)
  have hpb3 : h3.parent b = some p := by rw [p3, if_pos (by simp)]
  have hpa3 : h3.parent a = some q := by rw [p3, if_neg (by simpa using hab), p2, if_pos (by simp)]
  refine ⟨h1, h2, h3, r1, r2, r3, fun y hy => ?_, hpa3, hpb3, fun y hya hyb hyw => ?_, fun m => ⟨?_, ?_⟩, (d1.trans d2).trans d3, ok3, by rw [z3, z2, z1], kp2.ok, u3, hpw2, hrb2⟩
  · rw [l3 y hy, l2 y hy, l1 y hy]
    exact exchange_list hab hwa.symm hwb.symm (free_of_parent_none ok hpw hy)
  · rw [p3, if_neg (by simpa using hyb), p2' y hya, p1' y hyw]
  · rw [above_iff hpa3, above_iff hpb, uq3]
  · rw [above_iff hpb3, above_iff hpa, up3]

/-- **C99**: a new element `w` is put before `a`, `a` is put before `b`, and `w` is replaced with `b`. In all lists of children `a` stands then where `b` stood and the
other way round, and nothing else has changed. -/
theorem C99_exchange (ok : HeapOk h D) {a p b q w : Nat} (x : Exchangeable h D a p b q w) :
    ∃ h1 h2 h3, insertAll e .beforeBegin [w] h [a] = .ok h1 ∧ insertAll e .beforeBegin [a] h1 [b] = .ok h2 ∧ replaceAll e [b] h2 [w] = .ok (h3, [b]) ∧
      (∀ y, ¬ D y → h3.kids y = (h.kids y).map (other a b)) ∧ h3.parent a = some q ∧ h3.parent b = some p ∧
      (∀ y, y ≠ a → y ≠ b → y ≠ w → h3.parent y = h.parent y) ∧ (∀ m, (Above h3 m a ↔ Above h m b) ∧ (Above h3 m b ↔ Above h m a)) ∧
      SameData h h3 ∧ HeapOk h3 D ∧ h3.size = h.size := by
  obtain ⟨h1, h2, h3, r1, r2, r3, k, pa, pb, po, ab, d, ok3, z, -⟩ := swap_core (e := e) ok x
  exact ⟨h1, h2, h3, r1, r2, r3, k, pa, pb, po, ab, d, ok3, z⟩

/-- **C99, the places**: each has the position that the other one had. -/
theorem C99_index (ok : HeapOk h D) {a p b q w : Nat} (x : Exchangeable h D a p b q w) :
    ∃ h1 h2 h3, insertAll e .beforeBegin [w] h [a] = .ok h1 ∧ insertAll e .beforeBegin [a] h1 [b] = .ok h2 ∧ replaceAll e [b] h2 [w] = .ok (h3, [b]) ∧
      h3.index a = h.index b ∧ h3.index b = h.index a ∧ ∀ y r, ¬ D r → y ∈ h.kids r → y ≠ a → y ≠ b → h3.index y = h.index y := by
  obtain ⟨h1, h2, h3, r1, r2, r3, k, -, -, -, -, -, ok3, -⟩ := C99_exchange (e := e) ok x
  have key : ∀ y r, ¬ D r → y ∈ h.kids r → h3.index (other a b y) = h.index y := by
    intro y r hr hy
    obtain ⟨i, hi⟩ := List.mem_iff_getElem?.1 hy
    rw [(ok.link r i y hr hi).2, (ok3.link r i _ hr (by rw [k r hr, List.getElem?_map, hi]; rfl)).2]
  refine ⟨h1, h2, h3, r1, r2, r3, ?_, ?_, fun y r hr hy hya hyb => ?_⟩
  · have := key b q x.second.1 x.second.2.1
    rwa [other, if_neg x.ne.symm, if_pos rfl] at this
  · have := key a p x.first.1 x.first.2.1
    rwa [other, if_pos rfl] at this
  · have := key y r hr hy
    rwa [other, if_neg hya, if_neg hyb] at this

/-- **C99, back again, the part that holds**: with a second new element `v` the same three calls put everything back. Missing: the first new element cannot be used
again (`C99_fails_mark`). -/
theorem C99_back_partial (ok : HeapOk h D) {a p b q w v : Nat} (x : Exchangeable h D a p b q w) (y : Exchangeable h D a p b q v) (hv : v ≠ w) :
    ∃ h1 h2 h3 h4 h5 h6, insertAll e .beforeBegin [w] h [a] = .ok h1 ∧ insertAll e .beforeBegin [a] h1 [b] = .ok h2 ∧ replaceAll e [b] h2 [w] = .ok (h3, [b]) ∧
      insertAll e .beforeBegin [v] h3 [a] = .ok h4 ∧ insertAll e .beforeBegin [a] h4 [b] = .ok h5 ∧ replaceAll e [b] h5 [v] = .ok (h6, [b]) ∧
      (∀ y, ¬ D y → h6.kids y = h.kids y) ∧ SameData h h6 ∧ HeapOk h6 D ∧
      ∀ y < h.size, ¬ D y → innerHtml rd e h6 y = innerHtml rd e h y ∧ outerHtml rd e h6 y = outerHtml rd e h y := by
  obtain ⟨h1, h2, h3, r1, r2, r3, k, pa, pb, po, ab, d, ok3, z⟩ := C99_exchange (e := e) ok x
  have x3 : Exchangeable h3 D a q b p v := by
    refine ⟨x.ne, ⟨x.second.1, ?_, by rw [(d a).1]; exact x.first.2.2⟩, ⟨x.first.1, ?_, by rw [(d b).1]; exact x.second.2.2⟩,
      ⟨fun h4 => ok.not_above_self a (((ab a).2).1 h4), fun h4 => ok.not_above_self b (((ab b).1).1 h4)⟩, by rw [(d v).1]; exact y.mark.1, by rw [z]; exact y.mark.2.1, ?_,
      y.mark.2.2.2.1, y.mark.2.2.2.2.1, fun h4 => y.mark.2.2.2.2.2.2 ((ab v).1.1 h4), fun h4 => y.mark.2.2.2.2.2.1 ((ab v).2.1 h4)⟩
    · rw [k q x.second.1]
      exact List.mem_map.2 ⟨b, x.second.2.1, by rw [other, if_neg x.ne.symm, if_pos rfl]⟩
    · rw [k p x.first.1]
      exact List.mem_map.2 ⟨a, x.first.2.1, by rw [other, if_pos rfl]⟩
    · rw [po v y.mark.2.2.2.1 y.mark.2.2.2.2.1 hv]; exact y.mark.2.2.1
  obtain ⟨h4, h5, h6, s1, s2, s3, k6, -, -, -, -, d6, ok6, z6⟩ := C99_exchange (e := e) ok3 x3
  have hall : ∀ y, ¬ D y → h6.kids y = h.kids y := fun y hy => by
    rw [k6 y hy, k y hy, List.map_map]
    exact (List.map_congr_left fun c _ => other_other a b c).trans (List.map_id _)
  exact ⟨h1, h2, h3, h4, h5, h6, r1, r2, r3, s1, s2, s3, hall, d.trans d6, ok6, fun y hy hD => html_restored ok (z6.trans z) hall (d.trans d6) hy hD⟩

/-- C75 fails for replaced elements: an element `t` that has been replaced with a node `n` still counts as the child that it was. Wherever it is inserted again, `n` is
taken out of its place. -/
theorem C75_replaced_again (ok : HeapOk h D) {t n p : Nat} (u : Usable e h D (.replace t n)) (hn : (h.node n).kind ≠ .root) (hpar : h.parent t = some p) :
    ∃ h1, replaceAll e [n] h [t] = .ok (h1, [n]) ∧
      ∀ pos s, Accepted e h1 s t → ∀ h2, h1.insertAdjacent e pos s t = .ok h2 → ∀ q, ¬ D q → n ∉ h2.kids q := by
  have ok0 := ok
  obtain ⟨g, st⟩ := replace_step ok u
  obtain ⟨ht, hna, hDn, hbn, hd, htn, hab⟩ := u
  obtain ⟨h0, N, k1, rfl, k3, k4, k5, k6, k7, k8, k9, k10, k11, k12, k13⟩ := takeNodes_step (e := e) ok hna hDn hbn hd
  have hm : moved h n = [n] := if_neg hn
  have hU : (fun x => D x ∨ (x = n ∧ (h.node n).kind = .root)) = D := by funext x; simp [hn]
  have k11 := k11 t htn hab
  have htN : t ∉ moved h n := fun h2 => (k11 t h2).1 rfl
  have hpar0 : h0.parent t = some p := (k6 t).trans hpar
  have hDp := (ht p hpar).1
  obtain ⟨h1, t', r1, r2⟩ := replaceWith_taken k1 k3 (k12 t htN ht) k8 k9 k10 k11 k7
  obtain ⟨hDp0, hi⟩ := k12 t htN ht p hpar0
  have hkt : (h.node t).kind ≠ .root := fun h2 => by rw [ok.top t h2] at hpar; cases hpar
  rw [replaceWith_handle hd r1] at r1
  have hg : g = h1 := by
    have := st.run
    simp only [Op.run, r1, Except.map, Except.ok.injEq] at this
    exact this.symm
  subst hg
  rcases r2 with ⟨r2, _⟩ | ⟨r2, _⟩ | ⟨p', _, r3, _, _, s⟩
  · rw [hm] at r2; cases r2
  · rw [hpar0] at r2; cases r2
  rw [hpar0] at r3; cases r3
  rw [hU] at k3
  have hnd := k3.kids_nodup hDp
  obtain ⟨hold, hlt⟩ := split_at hi
  generalize hA : (h0.kids p).take (h0.index t) = A at s hold
  generalize hB : (h0.kids p).drop (h0.index t + 1) = B at s hold
  have hlen : A.length = h0.index t := by rw [← hA, List.length_take]; omega
  simp only [List.append_assoc, List.singleton_append] at hold
  rw [hold] at hnd
  simp only [hm] at r1 s k8
  have hnt : t ≠ n := htn
  have htA : t ∉ A := fun h2 => (List.nodup_append.1 hnd).2.2 t h2 t (by simp) rfl
  have htB : t ∉ B := (List.nodup_cons.1 (List.nodup_append.1 hnd).2.1).1
  have hpB : p ∉ B := fun h2 => k3.parent_ne (k3.kid_parent hDp (c := p) (by rw [hold]; simp [h2])) rfl
  have htp : t ≠ p := ok.parent_ne hpar
  have hkg : g.kids p = A ++ n :: B := by rw [s.new]; simp
  have hc1 : (g.node p).childs = some (A ++ n :: B) := by
    rw [childs_of_kid (h := g) (p := p) (i := A.length) (c := n) (by rw [hkg]; simp), hkg]
  have ht1 : g.index t = A.length := by rw [s.indexOther t (by simp [htA, htB, hnt]), hlen]
  have hpt1 : g.parent t = some p := by rw [s.parent, if_neg (by simpa using hnt), hpar0]
  refine ⟨g, by simp [replaceAll, replaceLoop, r1], fun pos s' ha h2 he q hq hnq => ?_⟩
  obtain ⟨f, g1, g2, g3⟩ : ∃ f, g.detach t = .ok f ∧ f.kids p = A ++ B ∧ ∀ q, q ≠ p → f.kids q = g.kids q := by
    have her : (A ++ n :: B).eraseIdx A.length = A ++ B := by
      rw [List.eraseIdx_append_of_length_le (Nat.le_refl _)]; simp
    have hdr : (A ++ n :: B).drop (A.length + 1) = B := by simp
    simp only [Heap.detach, hpt1, Heap.removeChild, if_true, hc1, ht1, her, hdr]
    rw [if_neg (by simp [htp.symm, hpB]), if_neg (by simp)]
    split
    · exact ⟨_, rfl, by rw [setChilds_kids, if_pos rfl]; rfl, fun q hq => by rw [setChilds_kids, if_neg hq]⟩
    · rw [if_neg (by simp)]
      obtain ⟨f1, f2, f3, f4, f5, f6⟩ := resetIndex_fields B g A.length
      refine ⟨_, rfl, by rw [setChilds_kids, if_pos rfl]; rfl, fun q hq => ?_⟩
      rw [setChilds_kids, if_neg hq]; exact kids_of_childs (f2 q)
  have hf : g.isFragment e t = false := by simp [Heap.isFragment, Heap.isRoot, (s.data t).1, (k5 t).1, hkt]
  have hrun : g.insertAdjacent e pos s' t = f.placeNodes e pos s' [t] := by
    simp only [Heap.insertAdjacent, (Accepted.validate (e := e) st.ok).1 ha, Heap.takeNodes, hf, g1]
    rfl
  have hfree : ∀ q, ¬ D q → n ∉ h0.kids q := fun q hq => k8 n (by simp) q (by simpa [hn] using hq)
  rw [hrun] at he
  rcases placeNodes_mem he hnq with h3 | h3
  · by_cases hqp : q = p
    · subst hqp
      rw [g2] at h3
      refine hfree q hq ?_
      rw [hold]
      rcases List.mem_append.1 h3 with h4 | h4 <;> simp [h4]
    · rw [g3 q hqp, s.other q hqp] at h3
      exact hfree q hq h3
  · exact hnt (List.mem_singleton.1 h3).symm

/-- C99 fails for every exchange when the mark is used again: wherever `w` is inserted after the exchange, `b` is taken out of the document. -/
theorem C99_mark_again (ok : HeapOk h D) {a p b q w : Nat} (x : Exchangeable h D a p b q w) :
    ∃ h1 h2 h3, insertAll e .beforeBegin [w] h [a] = .ok h1 ∧ insertAll e .beforeBegin [a] h1 [b] = .ok h2 ∧ replaceAll e [b] h2 [w] = .ok (h3, [b]) ∧
      ∀ pos s, Accepted e h3 s w → ∀ h4, h3.insertAdjacent e pos s w = .ok h4 → ∀ y, ¬ D y → b ∉ h4.kids y := by
  obtain ⟨h1, h2, h3, r1, r2, r3, -, -, -, -, -, -, -, -, ok2, u, hpw, hk⟩ := swap_core (e := e) ok x
  obtain ⟨g, g1, g2⟩ := C75_replaced_again ok2 u hk hpw
  rw [r3, Except.ok.injEq, Prod.mk.injEq] at g1
  obtain ⟨rfl, -⟩ := g1
  exact ⟨h1, h2, h3, r1, r2, r3, g2⟩

/-- **C99, the html**: when `a` and `b` are children of one node, their html is exchanged in everything this node stands in; what is written between them stays. -/
theorem C99_html (ok : HeapOk h D) {a p b w r : Nat} (x : Exchangeable h D a p b p w) {A M B : List Nat} (hkp : h.kids p = A ++ a :: (M ++ b :: B))
    (hpl : PlainIn e h p) (hrD : ¬ D r) (hr : Within h r p) :
    ∃ h1 h2 h3 s o m u t, insertAll e .beforeBegin [w] h [a] = .ok h1 ∧ insertAll e .beforeBegin [a] h1 [b] = .ok h2 ∧ replaceAll e [b] h2 [w] = .ok (h3, [b]) ∧
      outerHtml rd e h a = .ok o ∧ outerHtml rd e h b = .ok u ∧ outerHtml rd e h3 a = .ok o ∧ outerHtml rd e h3 b = .ok u ∧
      innerHtml rd e h r = .ok (s ++ (o ++ (m ++ u)) ++ t) ∧ innerHtml rd e h3 r = .ok (s ++ (u ++ (m ++ o)) ++ t) := by
  obtain ⟨h1, h2, h3, r1, r2, r3, k, pa, pb, -, -, d, ok3, z⟩ := C99_exchange (e := e) ok x
  have hD := x.first.1
  have hpar := ok.kid_parent hD x.first.2.1
  obtain ⟨hba, hbp⟩ := ok.bound _ _ hpar
  have hbb := (ok.bound _ _ (ok.kid_parent hD x.second.2.1)).1
  have hDa := tag_live ok x.first.2.2
  have hDb := tag_live ok x.second.2.2
  have hrb := within_bound ok hrD hbp hr
  have hnd := ok.kids_nodup hD
  rw [hkp] at hnd
  have hsame : ∀ y, ¬ D y → y ≠ p → h3.kids y = h.kids y := fun y hy hyp => by
    rw [k y hy]
    exact map_other_self (fun h4 => hyp (ok.kid_unique hy hD h4 x.first.2.1)) (fun h4 => hyp (ok.kid_unique hy hD h4 x.second.2.1))
  have hkp3 : h3.kids p = A ++ b :: (M ++ a :: B) := by
    obtain ⟨nA, n1, dA⟩ := List.nodup_append.1 hnd
    obtain ⟨na, n2⟩ := List.nodup_cons.1 n1
    obtain ⟨nM, n3, dM⟩ := List.nodup_append.1 n2
    obtain ⟨nb, nB⟩ := List.nodup_cons.1 n3
    simp only [List.mem_append, List.mem_cons, not_or] at na
    rw [k p hD, hkp, List.map_append, List.map_cons, List.map_append, List.map_cons,
      map_other_self (fun h4 => dA a h4 a (by simp) rfl) (fun h4 => dA b h4 b (by simp) rfl),
      map_other_self na.1 (fun h4 => dM b h4 b (by simp) rfl), map_other_self na.2.2 nb]
    simp [other, x.ne.symm]
  have hfin : ∀ c ∈ h.kids p, FiniteTree h c := fun c hc =>
    heapOk_finite_of ok (ok.bound _ _ (ok.kid_parent hD hc)).1 fun hd => ok.kid _ _ hD hc (ok.dead _ hd).1
  have hkeep : ∀ c ∈ h.kids p, SameTree h h3 c c := fun c hc => sameTree_of fun y hy =>
    ⟨SameData.text d y, hsame y (within_live ok hrD (hr.trans (hy.head hc))) (by rintro rfl; exact not_within_parent ok hD hc hy)⟩
  obtain ⟨o, ho⟩ := outer_total (rd := rd) (e := e) (hfin a x.first.2.1)
  obtain ⟨u, hu⟩ := outer_total (rd := rd) (e := e) (hfin b x.second.2.1)
  obtain ⟨la, _, hla⟩ := pieces_full (rd := rd) (e := e) (l := A) (fun c hc => hfin c (by rw [hkp]; simp [hc])) false
  obtain ⟨lm, _, hlm⟩ := pieces_full (rd := rd) (e := e) (l := M) (fun c hc => hfin c (by rw [hkp]; simp [hc])) false
  obtain ⟨lb, _, hlb⟩ := pieces_full (rd := rd) (e := e) (l := B) (fun c hc => hfin c (by rw [hkp]; simp [hc])) false
  have w1 : HtmlsOf rd e h false (h.kids p) (la ++ (o ++ (lm ++ (u ++ lb)))) := by
    rw [hkp]
    exact htmlsOf_append hla (.cons ho (htmlsOf_append hlm (.cons hu hlb)))
  have mA : ∀ c ∈ A, c ∈ h.kids p := fun c hc => by rw [hkp]; simp [hc]
  have mM : ∀ c ∈ M, c ∈ h.kids p := fun c hc => by rw [hkp]; simp [hc]
  have mB : ∀ c ∈ B, c ∈ h.kids p := fun c hc => by rw [hkp]; simp [hc]
  have ho3 : HtmlOf rd e h3 false a o := htmlOf_same ho a (hkeep a x.first.2.1)
  have hu3 : HtmlOf rd e h3 false b u := htmlOf_same hu b (hkeep b x.second.2.1)
  have w2 : HtmlsOf rd e h3 false (h3.kids p) (la ++ (u ++ (lm ++ (o ++ lb)))) := by
    rw [hkp3]
    exact htmlsOf_append (htmlsOf_kept hla fun c hc => hkeep c (mA c hc)) (.cons hu3 (htmlsOf_append (htmlsOf_kept hlm fun c hc => hkeep c (mM c hc))
      (.cons ho3 (htmlsOf_kept hlb fun c hc => hkeep c (mB c hc)))))
  rw [← hpl.flag] at w1 w2
  obtain ⟨s, t, i1, i2⟩ := html_context (rd := rd) (e := e) ok hrb hrD hr hpl.kind (SameData.text d p)
    (fun y hy hny => ⟨SameData.text d y, hsame y (within_live ok hrD hy) (by rintro rfl; exact hny .self)⟩) w1 w2
  have hkr : (h.node r).kind = .root ∨ (h.node r).kind = .tag := by
    by_contra hc
    have hl := ok.leaf r (fun h1 => hc (.inl h1)) fun h1 => hc (.inr h1)
    rcases within_cases hr with rfl | ⟨c, hcq, _⟩
    · exact hc hpl.kind
    · rw [hl] at hcq; cases hcq
  refine ⟨h1, h2, h3, s ++ la, o, lm, u, lb ++ t, r1, r2, r3, (outerHtml_iff (hfin a x.first.2.1) o).2 ho, (outerHtml_iff (hfin b x.second.2.1) u).2 hu,
    (outerHtml_iff (heapOk_finite_of ok3 (by rw [z]; exact hba) hDa) _).2 ho3, (outerHtml_iff (heapOk_finite_of ok3 (by rw [z]; exact hbb) hDb) _).2 hu3, ?_, ?_⟩
  · refine (innerHtml_iff (heapOk_finite_of ok hrb hrD) hkr _).2 ?_
    simpa [List.append_assoc] using i1
  · refine (innerHtml_iff (heapOk_finite_of ok3 (by rw [z]; exact hrb) hrD) (by rw [(d r).1]; exact hkr) _).2 ?_
    simpa [List.append_assoc] using i2

end

/-! ## The hypotheses are satisfiable -/

/-- A `div` with a `p`, a text and a list of two items, and two new elements. -/
def placesNodes : List Node :=
  [ rootN [1], el "div" 0 0 [2, 3, 4], el "p" 1 0, txt "x" 1 1, el "ul" 1 2 [5, 6], el "li" 4 0, el "li" 4 1,
    { kind := .tag, name := "u".toList, childs := some [] }, { kind := .tag, name := "u".toList, childs := some [] } ]

/-- The heap of `placesNodes`. -/
def places : Heap := heapOf placesNodes

theorem places_ok : HeapOk places noneUsed := okCheck_sound (by decide)

theorem above_none {h : Heap} {m x : Nat} (hp : h.parent x = none) : ¬ Above h m x := by
  rintro (h1 | ⟨_, h1⟩) <;> rw [hp] at h1 <;> cases h1

/-- The nodes above `x`, found on a given way up. -/
theorem above_way {h : Heap} {m : Nat} : ∀ (l : List Nat) (x : Nat), List.IsChain (fun x p => h.parent x = some p) (x :: l) →
    h.parent ((x :: l).getLast (by simp)) = none → m ∉ l → ¬ Above h m x := by
  intro l
  induction l with
  | nil => intro x _ hn _; exact above_none hn
  | cons p l ih =>
    intro x hc hn hm
    rw [List.isChain_cons_cons] at hc
    simp only [List.mem_cons, not_or] at hm
    rw [above_iff hc.1]
    rintro (h1 | h1)
    · exact hm.1 h1
    · exact ih p hc.2 (by simpa using hn) hm.2 h1

/-- The `p` and the second `li`, in different parents. -/
theorem places_exchangeable {w : Nat} (hw : w = 7 ∨ w = 8) : Exchangeable places noneUsed 2 1 6 4 w := by
  refine ⟨by decide, ⟨id, by decide, by decide⟩, ⟨id, by decide, by decide⟩, ⟨above_way [4, 1, 0] 6 (by decide) (by decide) (by decide),
    above_way [1, 0] 2 (by decide) (by decide) (by decide)⟩, ?_⟩
  rcases hw with rfl | rfl <;>
    exact ⟨by decide, by decide, by decide, by decide, by decide, above_way [1, 0] 2 (by decide) (by decide) (by decide),
      above_way [4, 1, 0] 6 (by decide) (by decide) (by decide)⟩

/-- The `p` and the `ul`, in one parent with a text between them. -/
theorem places_siblings : Exchangeable places noneUsed 2 1 4 1 7 := by
  refine ⟨by decide, ⟨id, by decide, by decide⟩, ⟨id, by decide, by decide⟩, ⟨above_way [1, 0] 4 (by decide) (by decide) (by decide),
    above_way [1, 0] 2 (by decide) (by decide) (by decide)⟩, by decide, by decide, by decide, by decide, by decide, above_way [1, 0] 2 (by decide) (by decide) (by decide),
    above_way [1, 0] 4 (by decide) (by decide) (by decide)⟩

example : ∃ h1 h2 h3, insertAll ext0 .beforeBegin [7] places [2] = .ok h1 ∧ insertAll ext0 .beforeBegin [2] h1 [6] = .ok h2 ∧
    replaceAll ext0 [6] h2 [7] = .ok (h3, [6]) ∧ h3.kids 1 = [6, 3, 4] ∧ h3.kids 4 = [5, 2] := by
  obtain ⟨h1, h2, h3, r1, r2, r3, k, -⟩ := C99_exchange (e := ext0) places_ok (places_exchangeable (.inl rfl))
  exact ⟨h1, h2, h3, r1, r2, r3, (k 1 id).trans (by decide), (k 4 id).trans (by decide)⟩

example : ∃ h1 h2 h3, insertAll ext0 .beforeBegin [7] places [2] = .ok h1 ∧ insertAll ext0 .beforeBegin [2] h1 [6] = .ok h2 ∧
    replaceAll ext0 [6] h2 [7] = .ok (h3, [6]) ∧ h3.index 2 = 1 ∧ h3.index 6 = 0 := by
  obtain ⟨h1, h2, h3, r1, r2, r3, k1, k2, -⟩ := C99_index (e := ext0) places_ok (places_exchangeable (.inl rfl))
  exact ⟨h1, h2, h3, r1, r2, r3, k1.trans (by decide), k2.trans (by decide)⟩

example : ∃ h3 h4 h5 h6, insertAll ext0 .beforeBegin [8] h3 [2] = .ok h4 ∧ insertAll ext0 .beforeBegin [2] h4 [6] = .ok h5 ∧
    replaceAll ext0 [6] h5 [8] = .ok (h6, [6]) ∧ h3.kids 4 = [5, 2] ∧ h6.kids 4 = [5, 6] := by
  obtain ⟨h1, h2, h3, h4, h5, h6, r1, r2, r3, s1, s2, s3, k, -⟩ := C99_back_partial (rd := rd0) (e := ext0) places_ok (places_exchangeable (.inl rfl))
    (places_exchangeable (.inr rfl)) (by decide)
  obtain ⟨g1, g2, g3, t1, t2, t3, l, -⟩ := C99_exchange (e := ext0) places_ok (places_exchangeable (.inl rfl))
  rw [r1, Except.ok.injEq] at t1; subst t1
  rw [r2, Except.ok.injEq] at t2; subst t2
  rw [r3, Except.ok.injEq, Prod.mk.injEq] at t3; obtain ⟨rfl, -⟩ := t3
  exact ⟨h3, h4, h5, h6, s1, s2, s3, (l 4 id).trans (by decide), (k 4 id).trans (by decide)⟩

set_option maxRecDepth 100000 in
/-- `<p></p>`, a text, and `<ul><li></li><li></li></ul>`. -/
example : ∃ h1 h2 h3 s m t, insertAll ext0 .beforeBegin [7] places [2] = .ok h1 ∧ insertAll ext0 .beforeBegin [2] h1 [4] = .ok h2 ∧
    replaceAll ext0 [4] h2 [7] = .ok (h3, [4]) ∧
    innerHtml rd0 ext0 places 0 = .ok (s ++ ("<p></p>".toList ++ (m ++ "<ul><li></li><li></li></ul>".toList)) ++ t) ∧
    innerHtml rd0 ext0 h3 0 = .ok (s ++ ("<ul><li></li><li></li></ul>".toList ++ (m ++ "<p></p>".toList)) ++ t) := by
  obtain ⟨h1, h2, h3, s, o, m, u, t, r1, r2, r3, k1, k2, -, -, k3, k4⟩ := C99_html (rd := rd0) (e := ext0) places_ok places_siblings (A := []) (M := [3]) (B := []) (r := 0)
    (by decide) (.inr ⟨by decide, by decide⟩) id (.step .self (by decide))
  have e2 : outerHtml rd0 ext0 places 2 = .ok "<p></p>".toList := by decide
  have e3 : outerHtml rd0 ext0 places 4 = .ok "<ul><li></li><li></li></ul>".toList := by decide
  rw [e2, Except.ok.injEq] at k1
  rw [e3, Except.ok.injEq] at k2
  subst k1 k2
  exact ⟨h1, h2, h3, s, m, t, r1, r2, r3, k3, k4⟩

/-- The `p` is replaced with the second `li`; no insertion of the `p` leaves the `li` in the document. -/
example : ∃ h1, replaceAll ext0 [6] places [2] = .ok (h1, [6]) ∧ ∀ h2, h1.insertAdjacent ext0 .beforeEnd 4 2 = .ok h2 → ∀ q, 6 ∉ h2.kids q := by
  have hb := above_way (h := places) (m := 6) [1, 0] 2 (by decide) (by decide) (by decide)
  obtain ⟨h1, r1, r2⟩ := C75_replaced_again (e := ext0) (t := 2) (n := 6) (p := 1) places_ok ⟨attached_kid places_ok (p := 1) id (by decide),
    attached_kid places_ok (p := 4) id (by decide), id, by decide, fun h3 => absurd h3.1 (by decide), by decide, hb⟩ (by decide) (by decide)
  refine ⟨h1, r1, fun h2 he q => r2 _ _ ?_ h2 he q id⟩
  obtain ⟨g, g1, -, p1, d1, -⟩ := replace_lists (e := ext0) (t := 2) (n := 6) (p := 1) places_ok ⟨attached_kid places_ok (p := 1) id (by decide),
    attached_kid places_ok (p := 4) id (by decide), id, by decide, fun h3 => absurd h3.1 (by decide), by decide, hb⟩ (by decide) id (by decide)
  rw [r1, Except.ok.injEq, Prod.mk.injEq] at g1
  obtain ⟨rfl, -⟩ := g1
  have hk : (h1.node 2).kind = .tag := (d1 2).1
  refine ⟨(d1 4).1, fun h3 => absurd (hk.symm.trans h3.1) (by decide), by decide, above_way [1, 0] 4 ?_ ?_ (by decide)⟩
  · simp only [List.isChain_cons_cons, List.isChain_singleton, and_true]
    exact ⟨(p1 4).trans (by decide), (p1 1).trans (by decide)⟩
  · exact (p1 0).trans (by decide)

example : ∃ h1 h2 h3, insertAll ext0 .beforeBegin [7] places [2] = .ok h1 ∧ insertAll ext0 .beforeBegin [2] h1 [6] = .ok h2 ∧
    replaceAll ext0 [6] h2 [7] = .ok (h3, [6]) ∧ ∀ pos s, Accepted ext0 h3 s 7 → ∀ h4, h3.insertAdjacent ext0 pos s 7 = .ok h4 → ∀ y, 6 ∉ h4.kids y := by
  obtain ⟨h1, h2, h3, r1, r2, r3, k⟩ := C99_mark_again (e := ext0) places_ok (places_exchangeable (.inl rfl))
  exact ⟨h1, h2, h3, r1, r2, r3, fun pos s ha h4 he y => k pos s ha h4 he y id⟩

set_option maxRecDepth 100000 in
/-- C99 does not hold in full: `w` cannot be used again. It still counts as the child of the `div` that it was, and when it is inserted the second time the element in
that position is taken out of the document. -/
theorem C99_fails_mark : ∃ h1 h2 h3 h4, insertAll ext0 .beforeBegin [7] places [2] = .ok h1 ∧ insertAll ext0 .beforeBegin [2] h1 [6] = .ok h2 ∧
    replaceAll ext0 [6] h2 [7] = .ok (h3, [6]) ∧ insertAll ext0 .beforeBegin [7] h3 [2] = .ok h4 ∧ h3.kids 1 = [6, 3, 4] ∧ h4.kids 1 = [3, 4] ∧
    ∀ q < places.size, 6 ∉ h4.kids q :=
  ⟨_, _, _, _, rfl, rfl, rfl, rfl, by decide, by decide, by decide⟩

end Visdom
