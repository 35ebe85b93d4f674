import Verif.Spec.Mutate
import Verif.Proofs.Mutate
/-!
# One call keeps the forest well formed
-/
namespace Visdom
open Spec

section
variable {h h' : Heap} {D : Nat → Prop} {e : Ext}

theorem Spec.HeapOk.splice_self (ok : HeapOk h D) {p : Nat} (hp : ¬ D p) {A B : List Nat} (hk : h.kids p = A ++ B) :
    Spliced h h p A [] [] B := by
  refine ⟨rfl, by simpa using hk, by simpa using hk, fun _ _ => rfl, fun y => by simp, fun i c hc => ?_, fun _ _ => rfl, .refl h⟩
  refine (ok.link p i c hp ?_).2
  rw [hk]
  simpa using hc

/-- What `placeNodes` does inside. -/
theorem placeNodes_inside (ok : HeapOk h D) {t : Nat} {N : List Nat} (ht : ¬ D t) (hN : Placeable h D t N) (hnd : N.Nodup)
    (pos : InsertPosition) (hpos : pos = .afterBegin ∨ pos = .beforeEnd) : ∃ h', h.placeNodes e pos t N = .ok h' ∧
      (if pos = .beforeEnd then Spliced h h' t (h.kids t) [] (N.filter (e.allow (h.tagNames t))) []
       else Spliced h h' t [] [] (N.filter (e.allow (h.tagNames t))) (h.kids t)) := by
  obtain ⟨b, hb, _⟩ := removeNotAllowed_eq (e.allow (h.tagNames t)) N
  unfold Heap.placeNodes
  simp only [hpos, if_true, hb, Except.map]
  split
  · rename_i hemp
    rw [List.isEmpty_iff] at hemp
    rw [hemp]
    refine ⟨h, rfl, ?_⟩
    split
    · exact ok.splice_self ht (by simp)
    · exact ok.splice_self ht (by simp)
  · obtain ⟨h', h1, h2⟩ := insertInside_spliced ok ht (hN.filter (e.allow (h.tagNames t))) (hnd.filter _) (decide (pos = .beforeEnd))
    refine ⟨h', h1, ?_⟩
    simpa using h2

theorem drop_of_getElem? {l : List Nat} {i x : Nat} (hi : l[i]? = some x) : l.drop i = x :: l.drop (i + 1) := by
  obtain ⟨hlt, rfl⟩ := List.getElem?_eq_some_iff.1 hi
  exact List.drop_eq_getElem_cons hlt

theorem take_of_getElem? {l : List Nat} {i x : Nat} (hi : l[i]? = some x) : l.take (i + 1) = l.take i ++ [x] := by
  rw [List.take_add_one, hi]
  rfl

/-- What `placeNodes` does beside. -/
theorem placeNodes_beside (ok : HeapOk h D) {p t : Nat} {N : List Nat} (hpar : h.parent t = some p) (ht : Attached h D t)
    (hN : Placeable h D p N) (hnd : N.Nodup) (pos : InsertPosition) (hpos : ¬ (pos = .afterBegin ∨ pos = .beforeEnd)) :
    ∃ h', h.placeNodes e pos t N = .ok h' ∧
      (if pos = .afterEnd then Spliced h h' p ((h.kids p).take (h.index t) ++ [t]) [] N ((h.kids p).drop (h.index t + 1))
       else Spliced h h' p ((h.kids p).take (h.index t)) [] N (t :: (h.kids p).drop (h.index t + 1))) := by
  obtain ⟨hp, hi⟩ := ht p hpar
  unfold Heap.placeNodes
  simp only [hpos, if_false]
  have hsplit := (split_at hi).1
  split
  · rename_i hemp
    rw [List.isEmpty_iff] at hemp
    subst hemp
    refine ⟨h, rfl, ?_⟩
    split
    · exact ok.splice_self hp hsplit
    · exact ok.splice_self hp (by simpa using hsplit)
  · obtain ⟨h', h1, h2⟩ := insertBeside_spliced ok hpar ht hN hnd (decide (pos = .afterEnd))
    refine ⟨h', h1, ?_⟩
    split
    · rename_i e1
      rw [decide_eq_true e1] at h2
      simp only [if_true] at h2
      rwa [take_of_getElem? hi] at h2
    · rename_i e1
      rw [decide_eq_false e1] at h2
      simp only [Bool.false_eq_true, if_false] at h2
      rwa [drop_of_getElem? hi] at h2

/-- Beside a node without parent the nodes are lost. -/
theorem placeNodes_lost {t : Nat} {N : List Nat} (hpar : h.parent t = none) (pos : InsertPosition)
    (hpos : ¬ (pos = .afterBegin ∨ pos = .beforeEnd)) : ∃ i, h.placeNodes e pos t N = .ok (h.resetIndex i N) := by
  unfold Heap.placeNodes
  simp only [hpos, if_false]
  split
  · rename_i hemp
    rw [List.isEmpty_iff] at hemp
    subst hemp
    exact ⟨0, rfl⟩
  · unfold Heap.insertBeside
    simp only []
    rw [(resetIndex_fields _ _ _).2.2.1, hpar]
    exact ⟨_, rfl⟩

/-- Renumbering nodes that are in no list changes nothing that counts. -/
theorem resetIndex_free (ok : HeapOk h D) {N : List Nat} (hN : ∀ n ∈ N, ∀ q, ¬ D q → n ∉ h.kids q) (i : Nat) :
    HeapOk (h.resetIndex i N) D ∧ ∀ y, y ∉ N → Attached h D y → Attached (h.resetIndex i N) D y := by
  obtain ⟨f1, f2, f3, f4, f5, f6⟩ := resetIndex_fields N h i
  have hk : ∀ q, (h.resetIndex i N).kids q = h.kids q := fun q => kids_of_childs (f2 q)
  refine ⟨⟨fun p j c hp hc => ?_, fun p c hp hc => ?_, fun x hx => ?_, fun x h1 h2 => ?_, fun x p hp => ?_, ?_, fun x hx => ?_⟩, fun y hy ha p hp => ?_⟩
  · rw [hk] at hc
    rw [f3, f5 c (fun h1 => hN c h1 p hp (List.mem_of_getElem? hc))]
    exact ok.link p j c hp hc
  · rw [hk] at hc; rw [(f4 c).1]; exact ok.kid p c hp hc
  · rw [(f4 x).1] at hx; rw [f3]; exact ok.top x hx
  · rw [(f4 x).1] at h1 h2; rw [hk]; exact ok.leaf x h1 h2
  · rw [f3] at hp; rw [f1]; exact ok.bound x p hp
  · have : (fun p x => (h.resetIndex i N).parent x = some p) = fun p x => h.parent x = some p := by
      funext p x; rw [f3]
    rw [this]; exact ok.ground
  · rw [(f4 x).1, f1]; exact ok.dead x hx
  · rw [f3] at hp
    rw [hk, f5 y hy]
    exact ha p hp

theorem tag_live (ok : HeapOk h D) {t : Nat} (ht : (h.node t).kind = .tag) : ¬ D t := fun h1 => by
  rw [(ok.dead t h1).1] at ht; cases ht

/-- `placeNodes` in all cases: no panic, and everything placed is in place. -/
theorem placeNodes_step (ok : HeapOk h D) {t : Nat} {N : List Nat} (hk : (h.node t).kind = .tag) (hb : t < h.size)
    (ht : Attached h D t)
    (hfree : ∀ n ∈ N, ∀ q, ¬ D q → n ∉ h.kids q) (hkind : ∀ n ∈ N, (h.node n).kind ≠ .root) (hbound : ∀ n ∈ N, n < h.size)
    (habove : ∀ n ∈ N, n ≠ t ∧ ¬ Above h n t) (hnd : N.Nodup) (pos : InsertPosition) :
    ∃ h', h.placeNodes e pos t N = .ok h' ∧ HeapOk h' D ∧ h'.size = h.size ∧
      (∀ y, Attached h D y → y ∉ N → Attached h' D y) ∧
      (∀ y ∈ N, ¬ (if pos = .afterBegin ∨ pos = .beforeEnd then e.allow (h.tagNames t) y = false else h.parent t = none) →
        Attached h' D y) := by
  have hD := tag_live ok hk
  by_cases hpos : pos = .afterBegin ∨ pos = .beforeEnd
  · have hN : Placeable h D t N := ⟨hfree, hkind, hbound, habove⟩
    obtain ⟨h', h1, h2⟩ := placeNodes_inside (e := e) ok hD hN hnd pos hpos
    refine ⟨h', h1, ?_⟩
    have key : ∀ A B, Spliced h h' t A [] (N.filter (e.allow (h.tagNames t))) B → HeapOk h' D ∧ h'.size = h.size ∧
      (∀ y, Attached h D y → y ∉ N → Attached h' D y) ∧
      (∀ y ∈ N, ¬ (if pos = .afterBegin ∨ pos = .beforeEnd then e.allow (h.tagNames t) y = false else h.parent t = none) →
        Attached h' D y) := by
      intro A B s
      refine ⟨s.ok ok hD hb (.inr hk) (hN.filter _), s.size, fun y hy _ => s.attached_old ok hD hy (by simp) (hN.filter _), fun y hy h3 => ?_⟩
      rw [if_pos hpos] at h3
      exact s.attached_new hD (List.mem_filter.2 ⟨hy, by simpa using h3⟩)
    split at h2
    · exact key _ _ h2
    · exact key _ _ h2
  · cases hpar : h.parent t with
    | none =>
      obtain ⟨i, hi⟩ := placeNodes_lost (e := e) (N := N) hpar pos hpos
      obtain ⟨h1, h2⟩ := resetIndex_free ok hfree i
      refine ⟨_, hi, h1, (resetIndex_fields _ _ _).1, fun y hy hyN => h2 y hyN hy, fun y hy h3 => ?_⟩
      rw [if_neg hpos] at h3
      simp at h3
    | some p =>
      obtain ⟨hp, hi⟩ := ht p hpar
      have hN : Placeable h D p N := ⟨hfree, hkind, hbound, fun n hn => ⟨?_, fun h1 => ?_⟩⟩
      · obtain ⟨h', h1, h2⟩ := placeNodes_beside (e := e) ok hpar ht hN hnd pos hpos
        refine ⟨h', h1, ?_⟩
        have key : ∀ A B, Spliced h h' p A [] N B → HeapOk h' D ∧ h'.size = h.size ∧
          (∀ y, Attached h D y → y ∉ N → Attached h' D y) ∧ (∀ y ∈ N,
            ¬ (if pos = .afterBegin ∨ pos = .beforeEnd then e.allow (h.tagNames t) y = false else some p = none) →
            Attached h' D y) := by
          intro A B s
          exact ⟨s.ok ok hp (ok.bound t p hpar).2 (ok.kid_kind (List.mem_of_getElem? hi)) hN, s.size,
            fun y hy _ => s.attached_old ok hp hy (by simp) hN, fun y hy _ => s.attached_new hp hy⟩
        split at h2
        · exact key _ _ h2
        · exact key _ _ h2
      · rintro rfl
        exact (habove n hn).2 (.parent hpar)
      · exact (habove n hn).2 (.step h1 hpar)

theorem Attached.consume {f y : Nat} (hy : Attached h D y) (hne : h.parent y ≠ some f) :
    Attached h (fun x => D x ∨ x = f) y := by
  intro p hp
  obtain ⟨h1, h2⟩ := hy p hp
  refine ⟨?_, h2⟩
  rintro (h3 | rfl)
  · exact h1 h3
  · exact hne hp

theorem moved_fragment {n : Nat} (hk : (h.node n).kind = .root) (hd : e.isDoc h n = false) :
    h.takeNodes e n = .ok (h, moved h n) := by
  unfold Heap.takeNodes moved Heap.isFragment Heap.isRoot
  simp [hk, hd]

theorem moved_single {n : Nat} (hk : (h.node n).kind ≠ .root) :
    h.takeNodes e n = (h.detach n).map (·, moved h n) := by
  unfold Heap.takeNodes moved Heap.isFragment Heap.isRoot
  simp [hk]

/-- Taking the nodes: they are in no list any more. -/
theorem takeNodes_step (ok : HeapOk h D) {n : Nat} (hn : Attached h D n) (hDn : ¬ D n) (hb : n < h.size) (hdoc : ¬ IsDoc e h n) :
    ∃ h1 N, h.takeNodes e n = .ok (h1, moved h n) ∧ N = moved h n ∧
      HeapOk h1 (fun x => D x ∨ (x = n ∧ (h.node n).kind = .root)) ∧ h1.size = h.size ∧ SameData h h1 ∧
      (∀ y, h1.parent y = h.parent y) ∧ N.Nodup ∧
      (∀ m ∈ N, ∀ q, ¬ (D q ∨ (q = n ∧ (h.node n).kind = .root)) → m ∉ h1.kids q) ∧
      (∀ m ∈ N, (h1.node m).kind ≠ .root) ∧ (∀ m ∈ N, m < h1.size) ∧
      (∀ t, t ≠ n → ¬ Above h n t → ∀ m ∈ N, m ≠ t ∧ ¬ Above h1 m t) ∧
      (∀ y, y ∉ N → Attached h D y → Attached h1 (fun x => D x ∨ (x = n ∧ (h.node n).kind = .root)) y) ∧
      (∀ q, ¬ D q → q ≠ n ∨ (h.node n).kind ≠ .root → h1.kids q = (h.kids q).filter (· ∉ N)) := by
  by_cases hk : (h.node n).kind = .root
  · have hd : e.isDoc h n = false := by
      cases hd : e.isDoc h n with
      | false => rfl
      | true => exact absurd ⟨hk, hd⟩ hdoc
    have hm : moved h n = h.kids n := if_pos hk
    have hD' : (fun x => D x ∨ (x = n ∧ (h.node n).kind = .root)) = fun x => D x ∨ x = n := by
      funext x; simp [hk]
    have pl := fun t hne hab => placeable_fragment ok (p := t) hDn hne hab
    refine ⟨h, moved h n, moved_fragment hk hd, rfl, ?_, rfl, .refl h, fun _ => rfl, ?_, ?_, ?_, ?_, ?_, ?_, ?_⟩
    · rw [hD']; exact ok.consume hk hb
    · rw [hm]; exact ok.kids_nodup hDn
    · rw [hm]
      intro m hm' q hq h1
      simp only [hk, and_true, not_or] at hq
      exact hq.2 (ok.kid_unique hq.1 hDn h1 hm')
    · rw [hm]; exact fun m hm' => ok.kid n m hDn hm'
    · rw [hm]; exact fun m hm' => (ok.bound m n (ok.kid_parent hDn hm')).1
    · rw [hm]; exact fun t hne hab => (pl t (Ne.symm hne) hab).above
    · rw [hm, hD']
      intro y hy ha
      refine Attached.consume ha fun h1 => hy ?_
      exact List.mem_of_getElem? (ha n h1).2
    · intro q hq hqn
      rw [hm]
      have hqn : q ≠ n := hqn.elim id (fun h1 => absurd hk h1)
      symm
      rw [List.filter_eq_self]
      intro c hc
      simp only [decide_eq_true_iff]
      exact fun h1 => hqn (ok.kid_unique hq hDn hc h1)
  · have hm : moved h n = [n] := if_neg hk
    have hD' : (fun x => D x ∨ (x = n ∧ (h.node n).kind = .root)) = D := by
      funext x; simp [hk]
    obtain ⟨h1, he, d⟩ := detach_detached ok hn
    refine ⟨h1, moved h n, ?_, rfl, ?_, d.size, d.data, d.parent, ?_, ?_, ?_, ?_, ?_, ?_, ?_⟩
    · rw [moved_single hk, he]; rfl
    · rw [hD']; exact d.ok
    · rw [hm]; simp
    · rw [hm]
      simp only [List.mem_singleton, forall_eq, hk, and_false, or_false]
      intro q hq
      rw [d.kids q hq]
      simp
    · rw [hm]
      simp only [List.mem_singleton, forall_eq]
      rw [(d.data n).1]; exact hk
    · rw [hm]
      simp only [List.mem_singleton, forall_eq]
      rw [d.size]; exact hb
    · rw [hm]
      simp only [List.mem_singleton, forall_eq]
      exact fun t hne hab => ⟨Ne.symm hne, fun h2 => hab ((above_congr d.parent).1 h2)⟩
    · rw [hm, hD']
      simp only [List.mem_singleton]
      exact fun y hy ha => d.attached y hy ha
    · intro q hq _
      rw [d.kids q hq, hm]
      simp

theorem Spec.Accepted.validate (ok : HeapOk h D) {t n : Nat} : (Accepted e h t n → h.validate e t n = .ok true) ∧
    (¬ Accepted e h t n → h.validate e t n = .ok false) := by
  obtain ⟨b, h1, h2⟩ := validate_eq ok e t n
  rw [h1]
  constructor
  · intro h3
    rw [h2.2 h3]
  · intro h3
    cases b with
    | false => rfl
    | true => exact absurd (h2.1 rfl) h3

/-! ## The steps -/

/-- The conclusion of a step. -/
structure Step (e : Ext) (h : Heap) (D : Nat → Prop) (op : Op) (h' : Heap) : Prop where
  run : op.run e h = .ok h'
  ok : HeapOk h' (fun x => Used e h D x op)
  size : h.size ≤ h'.size
  attached : ∀ y, y < h.size → Attached h D y → ¬ Lost e h y op → Attached h' (fun x => Used e h D x op) y

theorem insert_step (ok : HeapOk h D) {pos : InsertPosition} {t n : Nat} (u : Usable e h D (.insert pos t n)) :
    ∃ h', Step e h D (.insert pos t n) h' := by
  obtain ⟨ht, hn, hDn, hbn, hbt⟩ := u
  obtain ⟨v1, v2⟩ := Accepted.validate (e := e) ok (t := t) (n := n)
  by_cases ha : Accepted e h t n
  · have hU : (fun x => Used e h D x (.insert pos t n)) = fun x => D x ∨ (x = n ∧ (h.node n).kind = .root) := by
      funext x; simp [Used, ha]
    obtain ⟨h1, N, k1, k2, k3, k4, k5, k6, k7, k8, k9, k10, k11, k12, _⟩ := takeNodes_step (e := e) ok hn hDn hbn ha.2.1
    have k11 := k11 t ha.2.2.1 ha.2.2.2
    have htN : t ∉ N := fun h2 => (k11 t h2).1 rfl
    obtain ⟨h', p1, p2, p3, p4, p5⟩ := placeNodes_step (e := e) k3 (t := t) (N := N) ((k5 t).1.trans ha.1) (k4 ▸ hbt) (k12 t htN ht) k8 k9
      k10 k11 k7 pos
    refine ⟨h', ⟨?_, ?_, ?_, fun y _ hy hl => ?_⟩⟩
    · simp only [Op.run, Heap.insertAdjacent, v1 ha, k1]
      rw [← k2]; exact p1
    · rw [hU]; exact p2
    · rw [p3, k4]
    · rw [hU]
      by_cases hyN : y ∈ N
      · refine p5 y hyN fun h2 => hl ⟨ha, k2 ▸ hyN, ?_⟩
        have htn : h1.tagNames t = h.tagNames t := by
          unfold Heap.tagNames Heap.isElem
          rw [(k5 t).1, (k5 t).2.1]
        rwa [htn, k6] at h2
      · exact p4 y (k12 y hyN hy) hyN
  · have hU : (fun x => Used e h D x (.insert pos t n)) = D := by
      funext x; simp [Used, ha]
    refine ⟨h, ⟨?_, by rw [hU]; exact ok, Nat.le_refl _, fun y _ hy _ => by rw [hU]; exact hy⟩⟩
    simp only [Op.run, Heap.insertAdjacent, v2 ha]

theorem remove_step (ok : HeapOk h D) {x : Nat} (u : Usable e h D (.remove x)) : ∃ h', Step e h D (.remove x) h' := by
  obtain ⟨h', he, d⟩ := detach_detached ok u
  exact ⟨h', ⟨he, d.ok, d.size ▸ Nat.le_refl _, fun y _ hy hl => d.attached y hl hy⟩⟩

theorem removeText_eq (ok : HeapOk h D) {x : Nat} (u : Attached h D x) : ∃ h', h.removeText x = .ok h' ∧
    ((h.parent x = none ∧ h' = h) ∨ ∃ p, h.parent x = some p ∧ ¬ D p ∧
      Spliced h h' p ((h.kids p).take (h.index x)) [x] [] ((h.kids p).drop (h.index x + 1))) := by
  unfold Heap.removeText
  cases hpar : h.parent x with
  | none => exact ⟨h, rfl, .inl ⟨rfl, rfl⟩⟩
  | some p =>
    obtain ⟨hp, hi⟩ := u p hpar
    have hcs := childs_of_kid hi
    obtain ⟨hold, hlt⟩ := split_at hi
    have hknd := ok.kids_nodup hp
    have hAlen : ((h.kids p).take (h.index x)).length = h.index x := by rw [List.length_take]; omega
    have herase : (h.kids p).eraseIdx (h.index x) = (h.kids p).take (h.index x) ++ (h.kids p).drop (h.index x + 1) :=
      List.eraseIdx_eq_take_drop_succ ..
    have hdrop : ((h.kids p).eraseIdx (h.index x)).drop (h.index x) = (h.kids p).drop (h.index x + 1) := by
      rw [herase, List.drop_append, List.drop_eq_nil_of_le (by omega), hAlen]
      simp
    have hxB : x ∉ (h.kids p).drop (h.index x + 1) := by
      intro h1
      rw [hold, List.append_assoc, List.nodup_append] at hknd
      have := hknd.2.1
      simp only [List.cons_append, List.nil_append, List.nodup_cons] at this
      exact this.1 h1
    have hBnd : ((h.kids p).drop (h.index x + 1)).Nodup := hknd.sublist (List.drop_sublist _ _)
    have hpB : p ∉ (h.kids p).drop (h.index x + 1) := fun h1 => ok.parent_ne (ok.kid_parent hp (List.mem_of_mem_drop h1)) rfl
    simp only [hcs]
    rw [if_neg (ok.parent_ne hpar), if_neg (by omega), hdrop, if_neg (not_or.2 ⟨hxB, hpB⟩)]
    obtain ⟨f1, f2, f3, f4, f5, f6⟩ := resetIndex_fields ((h.kids p).drop (h.index x + 1))
      (h.setChilds p (some ((h.kids p).eraseIdx (h.index x)))) (h.index x)
    refine ⟨_, rfl, .inr ⟨p, rfl, hp, f1, hold, ?_, fun q hq => ?_, fun y => ?_, ?_, fun y hy => ?_,
      (setChilds_data _ _ _).trans f4⟩⟩
    · rw [kids_of_childs (f2 p), setChilds_kids, if_pos rfl]
      simpa using herase
    · rw [kids_of_childs (f2 q), setChilds_kids, if_neg hq]
    · simp [f3]
    · refine index_pieces (M := [x]) ok hp hold (fun y _ hy => ?_) (fun i y hy => by simp at hy) (fun i y hy => ?_) (by simp)
      · rw [f5 y hy, setChilds_index]
      · rw [f6 hBnd i y hy, hAlen]; simp
    · simp only [List.append_nil, List.mem_append, not_or] at hy
      rw [f5 y hy.2, setChilds_index]

theorem removeText_step (ok : HeapOk h D) {x : Nat} (u : Usable e h D (.removeText x)) :
    ∃ h', Step e h D (.removeText x) h' := by
  obtain ⟨h', he, h1 | ⟨p, hpar, hp, s⟩⟩ := removeText_eq ok u
  · obtain ⟨_, rfl⟩ := h1
    exact ⟨h', ⟨he, ok, Nat.le_refl _, fun y _ hy _ => hy⟩⟩
  · have hpl : Placeable h D p [] := ⟨by simp, by simp, by simp, by simp⟩
    have hx : x ∈ h.kids p := by rw [s.old]; simp
    exact ⟨h', ⟨he, s.ok ok hp (ok.bound x p hpar).2 (ok.kid_kind hx) hpl, s.size ▸ Nat.le_refl _, fun y _ hy hl =>
      s.attached_old ok hp hy (by rw [List.mem_singleton]; exact hl) hpl⟩⟩

/-- What `replace_with` does after the nodes have been taken. -/
theorem replaceWith_taken {h1 : Heap} {N : List Nat} {t n : Nat} {D1 : Nat → Prop} (htake : h.takeNodes e n = .ok (h1, N))
    (ok : HeapOk h1 D1) (ht : Attached h1 D1 t) (hfree : ∀ m ∈ N, ∀ q, ¬ D1 q → m ∉ h1.kids q)
    (hkind : ∀ m ∈ N, (h1.node m).kind ≠ .root) (hbound : ∀ m ∈ N, m < h1.size)
    (habove : ∀ m ∈ N, m ≠ t ∧ ¬ Above h1 m t) (hnd : N.Nodup) :
    ∃ h' t', h.replaceWith e t n = .ok (h', t') ∧
      ((N = [] ∧ h' = h1) ∨ (h1.parent t = none ∧ h' = h1) ∨ ∃ p, N ≠ [] ∧ h1.parent t = some p ∧ ¬ D1 p ∧ Placeable h1 D1 p N ∧
        Spliced h1 h' p ((h1.kids p).take (h1.index t)) [t] N ((h1.kids p).drop (h1.index t + 1))) := by
  unfold Heap.replaceWith
  simp only [htake]
  split
  · rename_i hemp
    rw [List.isEmpty_iff] at hemp
    exact ⟨h1, t, rfl, .inl ⟨hemp, rfl⟩⟩
  · rename_i hemp
    rw [List.isEmpty_iff] at hemp
    cases hpar : h1.parent t with
    | none => exact ⟨h1, _, rfl, .inr (.inl ⟨rfl, rfl⟩)⟩
    | some p =>
      obtain ⟨hp, hi⟩ := ht p hpar
      have hN : Placeable h1 D1 p N := ⟨hfree, hkind, hbound, fun m hm => ⟨by
        rintro rfl; exact (habove m hm).2 (.parent hpar), fun h2 => (habove m hm).2 (.step h2 hpar)⟩⟩
      obtain ⟨r1, r2, r3, r4, r5, r6⟩ := replace_spliced ok hpar ht hN hnd
      have hnl : ¬ (h1.kids p).length < h1.index t + 1 := by omega
      have hpB : p ∉ (h1.kids p).drop (h1.index t + 1) := fun h1 => ok.parent_ne (ok.kid_parent hp (List.mem_of_mem_drop h1)) rfl
      simp only [ok.parent_ne hpar, r3, r1, r2, or_self, if_false, r5, hpB, and_false, hnl]
      exact ⟨_, _, rfl, .inr (.inr ⟨p, hemp, rfl, hp, hN, r6⟩)⟩

theorem replace_step (ok : HeapOk h D) {t n : Nat} (u : Usable e h D (.replace t n)) : ∃ h', Step e h D (.replace t n) h' := by
  obtain ⟨ht, hn, hDn, hbn, hdoc, hne, hab⟩ := u
  obtain ⟨h1, N, k1, k2, k3, k4, k5, k6, k7, k8, k9, k10, k11, k12, _⟩ := takeNodes_step (e := e) ok hn hDn hbn hdoc
  have k11 := k11 t hne hab
  have htN : t ∉ N := fun h2 => (k11 t h2).1 rfl
  rw [← k2] at k1
  obtain ⟨h', t', r1, r2⟩ := replaceWith_taken k1 k3 (k12 t htN ht) k8 k9 k10 k11 k7
  have hlost : ∀ y, ¬ Lost e h y (.replace t n) → y ≠ t ∧ ¬ (y ∈ N ∧ h.parent t = none) := by
    intro y hl
    simp only [Lost, not_or] at hl
    rw [k2]
    exact hl
  refine ⟨h', ⟨by simp only [Op.run, r1]; rfl, ?_, ?_, ?_⟩⟩
  · rcases r2 with ⟨hN, rfl⟩ | ⟨hpar, rfl⟩ | ⟨p, _, hpar, hp, hN, s⟩
    · exact k3
    · exact k3
    · have htm : t ∈ h1.kids p := by rw [s.old]; simp
      exact s.ok k3 hp (k3.bound t p hpar).2 (k3.kid_kind htm) hN
  · rcases r2 with ⟨hN, rfl⟩ | ⟨hpar, rfl⟩ | ⟨p, _, hpar, hp, hN, s⟩
    · omega
    · omega
    · rw [s.size]; omega
  · intro y _ hy hl
    obtain ⟨l1, l2⟩ := hlost y hl
    rcases r2 with ⟨hN, rfl⟩ | ⟨hpar, rfl⟩ | ⟨p, _, hpar, hp, hN, s⟩
    · exact k12 y (by simp [hN]) hy
    · rw [k6] at hpar
      exact k12 y (fun h2 => l2 ⟨h2, hpar⟩) hy
    · by_cases hyN : y ∈ N
      · exact s.attached_new hp hyN
      · exact s.attached_old k3 hp (k12 y hyN hy) (by simpa using l1) hN

/-! ### Text -/

theorem upd_content_fields (x : Nat) (c : Option (List Char)) (h : Heap) :
    (∀ y, (h.upd x fun n => { n with content := c }).kids y = h.kids y) ∧
    (∀ y, (h.upd x fun n => { n with content := c }).parent y = h.parent y) ∧
    (∀ y, (h.upd x fun n => { n with content := c }).index y = h.index y) ∧
    (∀ y, ((h.upd x fun n => { n with content := c }).node y).kind = (h.node y).kind) := by
  refine ⟨fun y => ?_, fun y => ?_, fun y => ?_, fun y => ?_⟩ <;>
    simp only [Heap.kids, Heap.parent, Heap.index, upd_node] <;> split <;> rfl

/-- Only the links count. -/
theorem ok_of_links (ok : HeapOk h D) (hs : h'.size = h.size) (hk : ∀ y, h'.kids y = h.kids y) (hp : ∀ y, h'.parent y = h.parent y)
    (hi : ∀ y, h'.index y = h.index y) (hkind : ∀ y, (h'.node y).kind = (h.node y).kind) :
    HeapOk h' D ∧ ∀ y, Attached h D y → Attached h' D y := by
  refine ⟨⟨fun p j c => ?_, fun p c => ?_, fun x => ?_, fun x => ?_, fun x p => ?_, ?_, fun x => ?_⟩, fun y ha p => ?_⟩
  · rw [hk, hp, hi]; exact ok.link p j c
  · rw [hk, hkind]; exact ok.kid p c
  · rw [hp, hkind]; exact ok.top x
  · rw [hk, hkind]; exact ok.leaf x
  · rw [hp, hs]; exact ok.bound x p
  · have : (fun p x => h'.parent x = some p) = fun p x => h.parent x = some p := by
      funext p x; rw [hp]
    rw [this]; exact ok.ground
  · rw [hkind, hs]; exact ok.dead x
  · rw [hp, hk, hi]; exact ha p

theorem content_step (ok : HeapOk h D) (x : Nat) (c : Option (List Char)) {op : Op} (hU : ∀ y, Used e h D y op ↔ D y)
    (hrun : op.run e h = .ok (h.upd x fun n => { n with content := c })) : ∃ h', Step e h D op h' := by
  obtain ⟨a1, a2, a3, a4⟩ := upd_content_fields x c h
  obtain ⟨b1, b2⟩ := ok_of_links (h' := h.upd x fun n => { n with content := c }) ok rfl a1 a2 a3 a4
  have hD : (fun y => Used e h D y op) = D := funext fun y => propext (hU y)
  exact ⟨_, ⟨hrun, hD.symm ▸ b1, Nat.le_refl _, fun y _ hy _ => hD.symm ▸ b2 y hy⟩⟩

/-- A new node whose parent link goes to `x`, in no list yet. -/
theorem alloc_ok (ok : HeapOk h D) {x : Nat} (hx : x < h.size) (nd : Node) (hch : nd.childs = none) (hpar : nd.parent = some x)
    (hkind : nd.kind ≠ .root) : HeapOk (h.alloc nd).1 D ∧ (∀ y, y < h.size → Attached h D y → Attached (h.alloc nd).1 D y) ∧
      (∀ y, (h.alloc nd).1.kids y = h.kids y) ∧ (h.alloc nd).1.size = h.size + 1 ∧
      (∀ y, y < h.size → (h.alloc nd).1.node y = h.node y) ∧ (h.alloc nd).1.node h.size = nd ∧
      (∀ q, ¬ D q → h.size ∉ h.kids q) ∧ ¬ Above (h.alloc nd).1 h.size x := by
  have hnode : ∀ y, (h.alloc nd).1.node y = if y = h.size then nd else h.node y := fun y => rfl
  have hself : (h.alloc nd).1.node h.size = nd := by rw [hnode, if_pos rfl]
  have hold : ∀ y, y ≠ h.size → (h.alloc nd).1.node y = h.node y := fun y hy => by rw [hnode, if_neg hy]
  have hD : ∀ q, D q → q ≠ h.size := fun q hq => by have := (ok.dead q hq).2; omega
  have hks : h.kids h.size = [] := by
    rw [List.eq_nil_iff_forall_not_mem]
    intro c hc
    have := (ok.bound c h.size (ok.kid_parent (fun h1 => hD _ h1 rfl) hc)).2
    omega
  have hkids : ∀ y, (h.alloc nd).1.kids y = h.kids y := by
    intro y
    by_cases e1 : y = h.size
    · subst e1
      rw [hks]
      unfold Heap.kids
      rw [hself, hch]; rfl
    · unfold Heap.kids
      rw [hold y e1]
  have hparO : ∀ y, y ≠ h.size → (h.alloc nd).1.parent y = h.parent y := fun y hy => by
    unfold Heap.parent; rw [hold y hy]
  have hparS : (h.alloc nd).1.parent h.size = some x := by
    unfold Heap.parent; rw [hself, hpar]
  have hfree : ∀ q, ¬ D q → h.size ∉ h.kids q := fun q hq h1 => by
    have := (ok.bound _ q (ok.kid_parent hq h1)).1
    omega
  have hparent : ∀ y, (h.alloc nd).1.parent y = if y ∈ [h.size] then some x else h.parent y := by
    intro y
    by_cases e1 : y = h.size
    · subst e1; simp [hparS]
    · simp [e1, hparO y e1]
  have hnab : ∀ y, ¬ Above h h.size y := by
    intro y hy
    cases hy with
    | parent h1 => have := (ok.bound _ _ h1).2; omega
    | step h1 h2 =>
      clear h2
      rename_i p
      induction h1 with
      | parent h1 => have := (ok.bound _ _ h1).2; omega
      | step _ _ ih => exact ih
  refine ⟨⟨fun p j c hp hc => ?_, fun p c hp hc => ?_, fun y hy => ?_, fun y h1 h2 => ?_, fun y p hp => ?_, ?_, fun y hy => ?_⟩,
    fun y hb ha p hp => ?_, hkids, rfl, fun y hy => hold y (by omega), hself, hfree, ?_⟩
  · rw [hkids] at hc
    have hne : c ≠ h.size := by rintro rfl; exact hfree p hp (List.mem_of_getElem? hc)
    have := ok.link p j c hp hc
    refine ⟨(hparO c hne).trans this.1, ?_⟩
    unfold Heap.index
    rw [hold c hne]; exact this.2
  · rw [hkids] at hc
    have hne : c ≠ h.size := by rintro rfl; exact hfree p hp hc
    rw [hold c hne]; exact ok.kid p c hp hc
  · by_cases e1 : y = h.size
    · subst e1; rw [hself] at hy; exact absurd hy hkind
    · rw [hold y e1] at hy; rw [hparO y e1]; exact ok.top y hy
  · rw [hkids]
    by_cases e1 : y = h.size
    · subst e1; exact hks
    · rw [hold y e1] at h1 h2; exact ok.leaf y h1 h2
  · show y < h.size + 1 ∧ p < h.size + 1
    by_cases e1 : y = h.size
    · subst e1; rw [hparS] at hp; cases hp; omega
    · rw [hparO y e1] at hp
      have := ok.bound y p hp
      omega
  · refine ground_reparent ok.ground hparent ?_
    simp only [List.mem_singleton, forall_eq]
    exact ⟨by omega, hnab x⟩
  · have hne := hD y hy
    rw [hold y hne]
    have := ok.dead y hy
    refine ⟨this.1, ?_⟩
    show y < h.size + 1
    omega
  · have hne : y ≠ h.size := by omega
    rw [hparO y hne] at hp
    rw [hkids]
    unfold Heap.index
    rw [hold y hne]
    exact ha p hp
  · intro hab
    have hup : ∀ y, y < h.size → ¬ Above (h.alloc nd).1 h.size y := by
      intro y hy h1
      induction h1 with
      | parent h2 =>
        rw [hparO _ (by omega)] at h2
        have := (ok.bound _ _ h2).2
        omega
      | step _ h2 ih =>
        rw [hparO _ (by omega)] at h2
        exact ih (ok.bound _ _ h2).2
    exact hup x hx hab

/-- Emptying the list of children of an element or fragment. -/
theorem setChilds_spliced (p : Nat) (cs : Option (List Nat)) (hcs : cs.getD [] = []) :
    Spliced h (h.setChilds p cs) p [] (h.kids p) [] [] := by
  refine ⟨rfl, by simp, by rw [setChilds_kids, if_pos rfl, hcs]; rfl, fun q hq => by rw [setChilds_kids, if_neg hq], fun y => by simp,
    fun i c hc => by simp at hc, fun y _ => by simp, setChilds_data _ _ _⟩

/-- What `set_text` does to an element that is not a content tag. -/
theorem setText_spliced (ok : HeapOk h D) {x : Nat} (hx : x < h.size) (hk : (h.node x).kind = .tag)
    (hct : e.contentTag (h.tagNames x) = false) {s : List Char} (hs : s ≠ []) :
    ∃ h1, h1 = (h.alloc { kind := .text, content := some (e.encode s), parent := some x }).1 ∧
      Spliced h1 (h.setText e x s) x [] (h.kids x) [h.size] [] ∧ Placeable h1 D x [h.size] := by
  obtain ⟨a1, a2, a3, a4, a5, a6, a7, a8⟩ :=
    alloc_ok ok hx { kind := .text, content := some (e.encode s), parent := some x } rfl rfl (by simp)
  refine ⟨_, rfl, ?_, ?_⟩
  · have he : h.setText e x s = (h.alloc { kind := .text, content := some (e.encode s), parent := some x }).1.setChilds x
        (some [h.size]) := by
      unfold Heap.setText
      rw [hk]
      simp only [hct, Bool.false_eq_true, if_false]
      rw [if_neg (by simpa using hs)]
      rfl
    rw [he]
    refine ⟨rfl, by rw [a3]; simp, by rw [setChilds_kids, if_pos rfl]; rfl, fun q hq => by rw [setChilds_kids, if_neg hq],
      fun y => ?_, fun i c hc => ?_, fun y _ => by simp, setChilds_data _ _ _⟩
    · rw [setChilds_parent]
      split
      · rename_i hy
        rw [List.mem_singleton] at hy
        subst hy
        unfold Heap.parent
        rw [a6]
      · rfl
    · rw [setChilds_index]
      simp only [List.nil_append, List.append_nil] at hc
      cases i with
      | zero =>
        simp only [List.getElem?_cons_zero, Option.some.injEq] at hc
        subst hc
        unfold Heap.index
        rw [a6]
      | succ i => simp at hc
  · refine ⟨?_, ?_, ?_, ?_⟩ <;> simp only [List.mem_singleton, forall_eq]
    · intro q hq; rw [a3]; exact a7 q hq
    · rw [a6]; simp
    · rw [a4]; omega
    · exact ⟨by omega, a8⟩

theorem setText_step (ok : HeapOk h D) {x : Nat} {s : List Char} (u : Usable e h D (.setText x s)) :
    ∃ h', Step e h D (.setText x s) h' := by
  have same : ∀ h', (Op.setText x s).run e h = .ok h' → h' = h → ∃ h', Step e h D (.setText x s) h' := by
    rintro h' h1 rfl
    exact ⟨h', ⟨h1, ok, Nat.le_refl _, fun y _ hy _ => hy⟩⟩
  by_cases hk : (h.node x).kind = .tag
  · have hx := tag_live ok hk
    by_cases hct : e.contentTag (h.tagNames x) = true
    · refine content_step ok x (if s.isEmpty then none else some s) (fun _ => Iff.rfl) ?_
      simp only [Op.run, Heap.setText, hk, hct, if_true]
    · rw [Bool.not_eq_true] at hct
      by_cases hs : s = []
      · subst hs
        have hrun : (Op.setText x []).run e h = .ok (h.setChilds x none) := by
          simp only [Op.run, Heap.setText, hk, hct]; rfl
        have sp := setChilds_spliced (h := h) x none rfl
        have hpl : Placeable h D x [] := ⟨by simp, by simp, by simp, by simp⟩
        exact ⟨_, ⟨hrun, sp.ok ok hx u (.inr hk) hpl, Nat.le_refl _, fun y _ hy hl => sp.attached_old ok hx hy hl hpl⟩⟩
      · obtain ⟨h1, e1, sp, hpl⟩ := setText_spliced ok u hk hct hs
        obtain ⟨a1, a2, a3, a4, a5, a6, a7, a8⟩ :=
          alloc_ok ok u { kind := .text, content := some (e.encode s), parent := some x } rfl rfl (by simp)
        rw [← e1] at a1 a2 a4 a5
        have hsz : h1.size = h.size + 1 := a4
        have hxb : x < h.size := u
        refine ⟨h.setText e x s, ⟨rfl, ?_, ?_, fun y hb hy hl => ?_⟩⟩
        · exact sp.ok a1 hx (by omega) (.inr (by rw [a5 x u]; exact hk)) hpl
        · rw [sp.size]; omega
        · exact sp.attached_old a1 hx (a2 y hb hy) hl hpl
  · by_cases ht : (h.node x).kind = .text ∨ (h.node x).kind = .spaces ∨ (h.node x).kind = .comment
    · by_cases hs : s = []
      · subst hs
        exact same _ (by rcases ht with ht | ht | ht <;> simp only [Op.run, Heap.setText, ht] <;> rfl) rfl
      · refine content_step ok x (some s) (fun _ => Iff.rfl) ?_
        have : s.isEmpty = false := by simpa using hs
        rcases ht with ht | ht | ht <;> simp only [Op.run, Heap.setText, ht, this] <;> rfl
    · refine same h ?_ rfl
      cases hkk : (h.node x).kind <;> simp_all [Op.run, Heap.setText]

theorem appendText_step (ok : HeapOk h D) {x : Nat} {s : List Char} (u : Usable e h D (.appendText x s)) :
    ∃ h', Step e h D (.appendText x s) h' := by
  obtain ⟨c, hc⟩ := Option.isSome_iff_exists.1 u
  exact content_step ok x (some (c ++ s)) (fun _ => Iff.rfl) (by simp only [Op.run, Heap.appendText, hc])

theorem prependText_step (ok : HeapOk h D) {x : Nat} {s : List Char} (u : Usable e h D (.prependText x s)) :
    ∃ h', Step e h D (.prependText x s) h' := by
  obtain ⟨c, hc⟩ := Option.isSome_iff_exists.1 u
  exact content_step ok x (some (s ++ c)) (fun _ => Iff.rfl) (by simp only [Op.run, Heap.prependText, hc])

/-! ### Parsing -/

theorem parse_attached (P : ParseOk e) {s : List Char} {r : Nat} (hp : e.parse h s = .ok (h', r))
    (ok : HeapOk h D) {y : Nat} (hy : y < h.size) (ha : Attached h D y) : Attached h' D y := by
  obtain ⟨_, h2, _⟩ := P h s h' r hp
  intro p hpar
  have hpar' : h.parent y = some p := by unfold Heap.parent at hpar ⊢; rwa [h2 y hy] at hpar
  have hb := (ok.bound y p hpar').2
  unfold Heap.kids Heap.index
  rw [h2 y hy, h2 p hb]
  exact ha p hpar'

theorem load_step (ok : HeapOk h D) (P : ParseOk e) {s : List Char} (u : Usable e h D (.load s)) : ∃ h', Step e h D (.load s) h' := by
  obtain ⟨⟨h', r⟩, hr⟩ := u
  obtain ⟨h1, _, _, _, _, h6⟩ := P h s h' r hr
  exact ⟨h', ⟨by simp only [Op.run, hr]; rfl, h6 D ok, h1, fun y hb hy _ => parse_attached P hr ok hb hy⟩⟩

/-- The nodes of the parsed document, taken out of its root. -/
theorem parsed_taken (P : ParseOk e) {s : List Char} {h1 : Heap} {r : Nat} (hp : e.parse h s = .ok (h1, r)) (ok : HeapOk h D)
    {parsed : List Nat} (hch : (h1.node r).childs = some parsed) :
    HeapOk (h1.setChilds r (some [])) D ∧ (∀ y, y < h.size → Attached h D y → Attached (h1.setChilds r (some [])) D y) ∧
    (∀ y, y < h.size → (h1.setChilds r (some [])).node y = h.node y) ∧ parsed.Nodup ∧
    (∀ i c, parsed[i]? = some c → h1.index c = i) ∧ (∀ c ∈ parsed, h.size ≤ c) ∧
    ∀ t, t < h.size → Placeable (h1.setChilds r (some [])) D t parsed := by
  obtain ⟨p1, p2, p3, p4, p5, p6⟩ := P h s h1 r hp
  have ok1 := p6 D ok
  have hr : ¬ D r := fun h2 => by have := (ok.dead r h2).2; omega
  have hkr : h1.kids r = parsed := by unfold Heap.kids; rw [hch]; rfl
  have sp := setChilds_spliced (h := h1) r (some []) rfl
  have hpl : Placeable h1 D r [] := ⟨by simp, by simp, by simp, by simp⟩
  have okE := sp.ok ok1 hr p4 (.inl p5) hpl
  have hpar : ∀ c ∈ parsed, h1.parent c = some r := fun c hc => ok1.kid_parent hr (hkr ▸ hc)
  have hnew : ∀ c ∈ parsed, h.size ≤ c := by
    intro c hc
    by_contra hlt
    have h2 := hpar c hc
    unfold Heap.parent at h2
    rw [p2 c (by omega)] at h2
    have := (ok.bound c r h2).2
    omega
  have hnode : ∀ y, y < h.size → (h1.setChilds r (some [])).node y = h.node y := by
    intro y hy
    rw [Heap.setChilds, upd_node, if_neg (by omega), p2 y hy]
  refine ⟨okE, fun y hy ha => ?_, hnode, hkr ▸ ok1.kids_nodup hr, fun i c hc => ?_, hnew, fun t ht => ⟨fun n hn q hq h2 => ?_, fun n hn => ?_, fun n hn => ?_,
    fun n hn => ⟨?_, fun h2 => ?_⟩⟩⟩
  · refine sp.attached_old ok1 hr (parse_attached P hp ok hy ha) (fun h2 => ?_) hpl
    rw [hkr] at h2
    have := hnew y h2
    omega
  · exact (ok1.link r i c hr (hkr ▸ hc)).2
  · rw [setChilds_kids] at h2
    split at h2
    · simp at h2
    · rename_i hne
      exact hne (ok1.kid_unique hq hr h2 (hkr ▸ hn))
  · rw [(setChilds_data _ _ _ n).1]; exact ok1.kid r n hr (hkr ▸ hn)
  · exact (ok1.bound n r (hpar n hn)).1
  · have := hnew n hn; omega
  · have hup : ∀ y, y < h.size → ∀ a, Above (h1.setChilds r (some [])) a y → a < h.size := by
      intro y hy a h3
      have hpe : ∀ z, z < h.size → (h1.setChilds r (some [])).parent z = h.parent z := fun z hz => by
        unfold Heap.parent; rw [hnode z hz]
      induction h3 with
      | parent h4 => rw [hpe _ hy] at h4; exact (ok.bound _ _ h4).2
      | step _ h4 ih => rw [hpe _ hy] at h4; exact ih (ok.bound _ _ h4).2
    have := hup t ht n h2
    have := hnew n hn
    omega

/-- The two parts of `set_html` that put the parsed nodes in place, `lib.rs:348-385`. -/
theorem setHtml_element {hE : Heap} (okE : HeapOk hE D) {t : Nat} (ht : ¬ D t) {parsed : List Nat} (hnd : parsed.Nodup)
    (hidx : ∀ i c, parsed[i]? = some c → hE.index c = i) (allow : Nat → Bool) {b : Bool}
    (hb : b = true ↔ parsed.filter allow ≠ parsed ∧ parsed.filter allow ≠ []) :
    Spliced hE ((if b then (hE.setParent t (parsed.filter allow)).resetIndex 0 (parsed.filter allow)
        else hE.setParent t (parsed.filter allow)).setChilds t
          (if (parsed.filter allow).isEmpty then none else some (parsed.filter allow))) t [] (hE.kids t) (parsed.filter allow) [] := by
  obtain ⟨g1, g2, g3, g4, g5⟩ := setParent_fields t (parsed.filter allow) hE
  obtain ⟨f1, f2, f3, f4, f5, f6⟩ := resetIndex_fields (parsed.filter allow) (hE.setParent t (parsed.filter allow)) 0
  have hkids : (if (parsed.filter allow).isEmpty then (none : Option (List Nat)) else some (parsed.filter allow)).getD [] =
      parsed.filter allow := by
    split
    · rename_i h1; rw [List.isEmpty_iff] at h1; rw [h1]; rfl
    · rfl
  cases b with
  | true =>
    refine ⟨f1.trans g1, by simp, ?_, fun q hq => ?_, fun y => ?_, fun i c hc => ?_, fun y hy => ?_,
      (g4.trans f4).trans (setChilds_data _ _ _)⟩
    · rw [setChilds_kids, if_pos rfl, hkids]; simp
    · rw [setChilds_kids, if_neg hq]; exact kids_of_childs ((f2 q).trans (g2 q))
    · rw [setChilds_parent]; exact (f3 y).trans (g3 y)
    · rw [setChilds_index]
      simp only [List.nil_append, List.append_nil] at hc
      rw [if_pos rfl, f6 (hnd.filter _) i c hc]; omega
    · simp only [List.nil_append, List.append_nil] at hy
      rw [setChilds_index]; exact (f5 y hy).trans (g5 y)
  | false =>
    have hcase : parsed.filter allow = parsed ∨ parsed.filter allow = [] := by
      by_contra h1
      rw [not_or] at h1
      exact absurd (hb.2 h1) (by simp)
    refine ⟨g1, by simp, ?_, fun q hq => ?_, fun y => ?_, fun i c hc => ?_, fun y hy => ?_, g4.trans (setChilds_data _ _ _)⟩
    · rw [setChilds_kids, if_pos rfl, hkids]; simp
    · rw [setChilds_kids, if_neg hq]; exact kids_of_childs (g2 q)
    · rw [setChilds_parent]; exact g3 y
    · rw [setChilds_index]
      simp only [List.nil_append, List.append_nil] at hc
      rcases hcase with h1 | h1
      · rw [h1] at hc
        exact (g5 c).trans (hidx i c hc)
      · rw [h1] at hc; simp at hc
    · rw [setChilds_index]; exact g5 y

theorem setHtml_text {hE : Heap} (okE : HeapOk hE D) {t x : Nat} {N : List Nat} (hpar : hE.parent x = some t)
    (hx : Attached hE D x) (hN : Placeable hE D t N) (hnd : N.Nodup) :
    x ∉ N ∧ hE.index x < (hE.kids t).length ∧ (hE.node t).childs = some (hE.kids t) ∧
    Spliced hE (((if hE.index x < (hE.kids t).length - 1 then
        (hE.setParent t N).resetIndex (hE.index x + N.length) ((hE.kids t).drop (hE.index x + 1)) else hE.setParent t N).resetIndex
          (hE.index x) N).setChilds t (some ((hE.kids t).take (hE.index x) ++ N ++ (hE.kids t).drop (hE.index x + 1)))) t
      ((hE.kids t).take (hE.index x)) [x] N ((hE.kids t).drop (hE.index x + 1)) := by
  obtain ⟨hp, hi⟩ := hx t hpar
  have hxN : x ∉ N := fun h1 => hN.free x h1 t hp (List.mem_of_getElem? hi)
  have hkN : ∀ c ∈ hE.kids t, c ∉ N := fun c h1 h2 => hN.free c h2 t hp h1
  have hknd := okE.kids_nodup hp
  obtain ⟨hold, hlt⟩ := split_at hi
  refine ⟨hxN, hlt, childs_of_kid hi, ?_⟩
  have hif : (if hE.index x < (hE.kids t).length - 1 then
        (hE.setParent t N).resetIndex (hE.index x + N.length) ((hE.kids t).drop (hE.index x + 1)) else hE.setParent t N) =
      (hE.setParent t N).resetIndex (hE.index x + N.length) ((hE.kids t).drop (hE.index x + 1)) := by
    split
    · rfl
    · rw [List.drop_eq_nil_of_le (by omega)]; rfl
  rw [hif]
  obtain ⟨g1, g2, g3, g4, g5⟩ := setParent_fields t N hE
  obtain ⟨e1, e2, e3, e4, e5, e6⟩ := resetIndex_fields ((hE.kids t).drop (hE.index x + 1)) (hE.setParent t N) (hE.index x + N.length)
  obtain ⟨f1, f2, f3, f4, f5, f6⟩ := resetIndex_fields N ((hE.setParent t N).resetIndex (hE.index x + N.length)
    ((hE.kids t).drop (hE.index x + 1))) (hE.index x)
  have hBnd : ((hE.kids t).drop (hE.index x + 1)).Nodup := hknd.sublist (List.drop_sublist _ _)
  have hBN : ∀ c ∈ (hE.kids t).drop (hE.index x + 1), c ∉ N := fun c hc => hkN c (List.mem_of_mem_drop hc)
  have hAlen : ((hE.kids t).take (hE.index x)).length = hE.index x := by rw [List.length_take]; omega
  refine ⟨f1.trans (e1.trans g1), hold, ?_, fun q hq => ?_, fun y => ?_, ?_, fun y hy => ?_,
    ((g4.trans e4).trans f4).trans (setChilds_data _ _ _)⟩
  · rw [setChilds_kids, if_pos rfl]; simp
  · rw [setChilds_kids, if_neg hq]
    exact kids_of_childs ((f2 q).trans ((e2 q).trans (g2 q)))
  · rw [setChilds_parent, f3, e3, g3]
  · refine index_pieces okE hp hold (fun y hy hy' => ?_) (fun i y hy => ?_) (fun i y hy => ?_)
      (fun c hc => hkN c (List.mem_of_mem_take hc))
    · rw [setChilds_index, f5 y hy, e5 y hy', g5]
    · rw [setChilds_index, f6 hnd i y hy, hAlen]
    · rw [setChilds_index, f5 y (hBN y (List.mem_of_getElem? hy)), e6 hBnd i y hy, hAlen]
  · simp only [List.mem_append, not_or] at hy
    rw [setChilds_index, f5 y hy.1.2, e5 y hy.2, g5]

theorem htmlTarget_cases (h : Heap) (x : Nat) : (h.htmlTarget x = none ∧ (h.node x).kind ≠ .tag) ∨
    (h.htmlTarget x = some x ∧ (h.node x).kind = .tag) ∨ (h.htmlTarget x = h.parent x ∧ (h.node x).kind ≠ .tag) := by
  unfold Heap.htmlTarget
  cases (h.node x).kind <;> simp

/-- All that `set_html` can do. -/
theorem setHtml_cases (ok : HeapOk h D) (P : ParseOk e) {x : Nat} {s : List Char} (u : Usable e h D (.setHtml x s)) :
    ∃ h', h.setHtml e x s = .ok h' ∧
      ((h.htmlTarget x = none ∧ h' = h) ∨ ∃ t, h.htmlTarget x = some t ∧ t < h.size ∧ (h.node t).kind = .tag ∧
        ((e.contentTag (h.node t).name = true ∧ h' = h.upd t fun n => { n with content := some s }) ∨
         (e.contentTag (h.node t).name = false ∧ ∃ h1 r, e.parse h s = .ok (h1, r) ∧
          (((h1.node r).childs = none ∧ h' = h1.setChilds t none) ∨
           ∃ parsed, (h1.node r).childs = some parsed ∧
            if (h.node x).kind = .tag then
              Spliced (h1.setChilds r (some [])) h' x [] (h.kids x) (parsed.filter (e.allow (h.node x).name)) []
            else Spliced (h1.setChilds r (some [])) h' t ((h.kids t).take (h.index x)) [x]
              (parsed.filter (e.allow (h.node t).name)) ((h.kids t).drop (h.index x + 1)))))) := by
  obtain ⟨hxb, hxa, ⟨⟨h1, r⟩, hr⟩, hpk⟩ := u
  unfold Heap.setHtml
  cases ht : h.htmlTarget x with
  | none => exact ⟨h, rfl, .inl ⟨rfl, rfl⟩⟩
  | some t =>
    have htt : (h.node t).kind = .tag ∧ t < h.size ∧ ((h.node x).kind = .tag ∧ t = x ∨ (h.node x).kind ≠ .tag ∧ h.parent x = some t) := by
      rcases htmlTarget_cases h x with ⟨h2, _⟩ | ⟨h2, hk⟩ | ⟨h2, hk⟩ <;> rw [h2] at ht
      · cases ht
      · cases ht; exact ⟨hk, hxb, .inl ⟨hk, rfl⟩⟩
      · exact ⟨hpk t ht hk, (ok.bound x t ht).2, .inr ⟨hk, ht⟩⟩
    obtain ⟨htk, htb, hcase⟩ := htt
    have hD := tag_live ok htk
    have hel : h.isElem t = true := by unfold Heap.isElem; rw [htk]; rfl
    simp only [hel, Bool.not_true, Bool.false_eq_true, if_false]
    cases hct : e.contentTag (h.node t).name with
    | true => exact ⟨_, rfl, .inr ⟨t, rfl, htb, htk, .inl ⟨hct, rfl⟩⟩⟩
    | false =>
      simp only [Bool.false_eq_true, if_false, hr]
      cases hch : (h1.node r).childs with
      | none => exact ⟨_, rfl, .inr ⟨t, rfl, htb, htk, .inr ⟨hct, h1, r, rfl, .inl ⟨hch, rfl⟩⟩⟩⟩
      | some parsed =>
        obtain ⟨okE, atE, nodeE, hnd, hidx, hnew, hpl⟩ := parsed_taken P hr ok hch
        have hnt : (h1.setChilds r (some [])).node t = h.node t := nodeE t htb
        have hkt : (h1.setChilds r (some [])).kids t = h.kids t := by unfold Heap.kids; rw [hnt]
        have hix : (h1.setChilds r (some [])).index x = h.index x := by unfold Heap.index; rw [nodeE x hxb]
        obtain ⟨b, hb1, hb2⟩ := removeNotAllowed_eq (e.allow (h.node t).name) parsed
        simp only [hnt, hb1]
        rcases hcase with ⟨hk, rfl⟩ | ⟨hk, hpx⟩
        · have : h.isElem t = true := hel
          simp only [this, if_true]
          refine ⟨_, rfl, .inr ⟨t, rfl, htb, htk, .inr ⟨hct, h1, r, rfl, .inr ⟨parsed, hch, ?_⟩⟩⟩⟩
          rw [if_pos hk]
          have := setHtml_element okE hD hnd (fun i c hc => by rw [setChilds_index]; exact hidx i c hc) (e.allow (h.node t).name) hb2
          rwa [hkt] at this
        · have : h.isElem x = false := by unfold Heap.isElem; simp [hk]
          simp only [this, Bool.false_eq_true, if_false]
          have hpxE : (h1.setChilds r (some [])).parent x = some t := by unfold Heap.parent; rw [nodeE x hxb]; exact hpx
          obtain ⟨q1, q2, q3, q4⟩ := setHtml_text okE hpxE (atE x hxb (hxa hk)) ((hpl t htb).filter (e.allow (h.node t).name))
            (hnd.filter _)
          obtain ⟨g1, g2, g3, g4, g5⟩ := setParent_fields t (parsed.filter (e.allow (h.node t).name)) (h1.setChilds r (some []))
          rw [hkt] at q2 q3 q4
          rw [hix] at q2 q4
          have hz : (h.kids t).length ≠ 0 := by omega
          have hz2 : ¬ (h.kids t).length ≤ h.index x := by omega
          have hz3 : t ∉ (h.kids t).drop (h.index x + 1) := fun h2 =>
            ok.parent_ne (ok.kid_parent hD (List.mem_of_mem_drop h2)) rfl
          simp only [g2, q3, g5, hix, hz, hz2, hz3, if_false]
          refine ⟨_, rfl, .inr ⟨t, rfl, htb, htk, .inr ⟨hct, h1, r, rfl, .inr ⟨parsed, hch, ?_⟩⟩⟩⟩
          rw [if_neg hk]
          exact q4

theorem setHtml_step (ok : HeapOk h D) (P : ParseOk e) {x : Nat} {s : List Char} (u : Usable e h D (.setHtml x s)) :
    ∃ h', Step e h D (.setHtml x s) h' := by
  obtain ⟨h', hrun, hc⟩ := setHtml_cases ok P u
  obtain ⟨hxb, hxa, _, _⟩ := u
  have hpl0 : ∀ (g : Heap) t, Placeable g D t [] := fun g t => ⟨by simp, by simp, by simp, by simp⟩
  rcases hc with ⟨_, rfl⟩ | ⟨t, ht, htb, htk, hc⟩
  · exact ⟨h', ⟨hrun, ok, Nat.le_refl _, fun y _ hy _ => hy⟩⟩
  have hD := tag_live ok htk
  have htt : (h.node x).kind = .tag ∧ t = x ∨ (h.node x).kind ≠ .tag ∧ h.parent x = some t := by
    rcases htmlTarget_cases h x with ⟨h2, _⟩ | ⟨h2, hk⟩ | ⟨h2, hk⟩ <;> rw [h2] at ht
    · cases ht
    · cases ht; exact .inl ⟨hk, rfl⟩
    · exact .inr ⟨hk, ht⟩
  rcases hc with ⟨_, rfl⟩ | ⟨_, h1, r, hr, hc⟩
  · exact content_step ok t (some s) (fun _ => Iff.rfl) hrun
  obtain ⟨p1, p2, p3, p4, p5, p6⟩ := P h s h1 r hr
  rcases hc with ⟨hch, rfl⟩ | ⟨parsed, hch, sp⟩
  · have ok1 := p6 D ok
    have sp := setChilds_spliced (h := h1) t none rfl
    have hk1 : (h1.node t).kind = .tag := by rw [p2 t htb]; exact htk
    have hkids : h1.kids t = h.kids t := by unfold Heap.kids; rw [p2 t htb]
    refine ⟨_, ⟨hrun, sp.ok ok1 hD (by omega) (.inr hk1) (hpl0 _ _), p1, fun y hb hy hl => ?_⟩⟩
    refine sp.attached_old ok1 hD (parse_attached P hr ok hb hy) (fun h2 => hl ?_) (hpl0 _ _)
    rw [hkids] at h2
    rcases htt with ⟨_, rfl⟩ | ⟨hk, hpx⟩
    · exact .inl h2
    · exact .inr ⟨hk, .inr ⟨t, h1, r, hpx, hr, hch, h2⟩⟩
  · obtain ⟨okE, atE, nodeE, hnd, hidx, hnew, hpl⟩ := parsed_taken P hr ok hch
    split at sp
    · rename_i hk
      have e1 : t = x := htt.elim (·.2) (fun h2 => absurd hk h2.1)
      subst e1
      refine ⟨_, ⟨hrun, sp.ok okE hD (Nat.lt_of_lt_of_le htb p1) (.inr (by rw [nodeE t htb]; exact htk)) ((hpl t htb).filter _),
        by rw [sp.size]; exact p1, fun y hb hy hl => sp.attached_old okE hD (atE y hb hy) (fun h2 => hl (.inl h2)) ((hpl t htb).filter _)⟩⟩
    · rename_i hk
      refine ⟨_, ⟨hrun, sp.ok okE hD (Nat.lt_of_lt_of_le htb p1) (.inr (by rw [nodeE t htb]; exact htk)) ((hpl t htb).filter _),
        by rw [sp.size]; exact p1, fun y hb hy hl => sp.attached_old okE hD (atE y hb hy) (fun h2 => hl ?_) ((hpl t htb).filter _)⟩⟩
      rw [List.mem_singleton] at h2
      exact .inr ⟨hk, .inl h2⟩

/-! ### All calls -/

theorem op_step (ok : HeapOk h D) (P : ParseOk e) (op : Op) (u : Usable e h D op) : ∃ h', Step e h D op h' := by
  cases op with
  | remove x => exact remove_step ok u
  | removeText x => exact removeText_step ok u
  | insert pos t n => exact insert_step ok u
  | replace t n => exact replace_step ok u
  | setText x s => exact setText_step ok u
  | appendText x s => exact appendText_step ok u
  | prependText x s => exact prependText_step ok u
  | setHtml x s => exact setHtml_step ok P u
  | load s => exact load_step ok P u

theorem history_ok (P : ParseOk e) (ops : List Op) : ∀ (h : Heap) (D : Nat → Prop), HeapOk h D → History e h D ops →
    ∃ h', runAll e h ops = .ok h' ∧ HeapOk h' (UsedAll e h D ops) := by
  induction ops with
  | nil => exact fun h D ok _ => ⟨h, rfl, ok⟩
  | cons op ops ih =>
    intro h D ok hh
    obtain ⟨h1, st⟩ := op_step ok P op hh.1
    obtain ⟨h', hr, ho⟩ := ih h1 _ st.ok (hh.2 h1 st.run)
    refine ⟨h', by simp only [runAll, st.run]; exact hr, ?_⟩
    have : UsedAll e h D (op :: ops) = UsedAll e h1 (fun x => Used e h D x op) ops := by
      funext x; simp only [UsedAll, st.run]
    rw [this]; exact ho

end
end Visdom
