import Verif.Proofs.Forest
import Verif.Proofs.Classes
/-!
# Each mutation replaces a part of one list of children
-/
namespace Visdom
open Spec

/-! ## Assignments -/

section
variable (h : Heap)

@[simp] theorem upd_size (x : Nat) (f : Node → Node) : (h.upd x f).size = h.size := rfl
theorem upd_node (x : Nat) (f : Node → Node) (y : Nat) : (h.upd x f).node y = if y = x then f (h.node y) else h.node y := rfl

@[simp] theorem setChilds_size (x : Nat) (cs : Option (List Nat)) : (h.setChilds x cs).size = h.size := rfl
theorem setChilds_kids (x : Nat) (cs : Option (List Nat)) (y : Nat) :
    (h.setChilds x cs).kids y = if y = x then cs.getD [] else h.kids y := by
  simp only [Heap.setChilds, Heap.kids, upd_node]
  split <;> rfl
theorem setChilds_childs (x : Nat) (cs : Option (List Nat)) (y : Nat) :
    ((h.setChilds x cs).node y).childs = if y = x then cs else (h.node y).childs := by
  simp only [Heap.setChilds, upd_node]
  split <;> rfl
@[simp] theorem setChilds_parent (x : Nat) (cs : Option (List Nat)) (y : Nat) : (h.setChilds x cs).parent y = h.parent y := by
  simp only [Heap.setChilds, Heap.parent, upd_node]
  split <;> rfl
@[simp] theorem setChilds_index (x : Nat) (cs : Option (List Nat)) (y : Nat) : (h.setChilds x cs).index y = h.index y := by
  simp only [Heap.setChilds, Heap.index, upd_node]
  split <;> rfl
theorem setChilds_data (x : Nat) (cs : Option (List Nat)) : SameData h (h.setChilds x cs) := by
  intro y
  simp only [Heap.setChilds, upd_node]
  split <;> exact ⟨rfl, rfl, rfl, rfl, rfl⟩

end

theorem Spec.SameData.trans {h h1 h2 : Heap} (a : SameData h h1) (b : SameData h1 h2) : SameData h h2 := by
  intro x
  obtain ⟨a1, a2, a3, a4, a5⟩ := a x
  obtain ⟨b1, b2, b3, b4, b5⟩ := b x
  exact ⟨b1.trans a1, b2.trans a2, b3.trans a3, b4.trans a4, b5.trans a5⟩

theorem Spec.SameData.refl (h : Heap) : SameData h h := fun _ => ⟨rfl, rfl, rfl, rfl, rfl⟩

theorem resetIndex_fields (l : List Nat) : ∀ (h : Heap) (s : Nat), (h.resetIndex s l).size = h.size ∧
    (∀ y, ((h.resetIndex s l).node y).childs = (h.node y).childs) ∧ (∀ y, (h.resetIndex s l).parent y = h.parent y) ∧
    SameData h (h.resetIndex s l) ∧ (∀ y, y ∉ l → (h.resetIndex s l).index y = h.index y) ∧
    (l.Nodup → ∀ i y, l[i]? = some y → (h.resetIndex s l).index y = s + i) := by
  induction l with
  | nil => intro h s; exact ⟨rfl, fun _ => rfl, fun _ => rfl, .refl h, fun _ _ => rfl, fun _ i y hi => by simp at hi⟩
  | cons x l ih =>
    intro h s
    obtain ⟨h1, h2, h3, h4, h5, h6⟩ := ih (h.upd x fun n => { n with index := s }) (s + 1)
    refine ⟨h1, fun y => ?_, fun y => ?_, SameData.trans (fun y => ?_) h4, fun y hy => ?_, fun hn i y hi => ?_⟩
    · rw [Heap.resetIndex, h2, upd_node]; split <;> rfl
    · rw [Heap.resetIndex, h3]; simp only [Heap.parent, upd_node]; split <;> rfl
    · rw [upd_node]; split <;> exact ⟨rfl, rfl, rfl, rfl, rfl⟩
    · simp only [List.mem_cons, not_or] at hy
      rw [Heap.resetIndex, h5 y hy.2]
      simp only [Heap.index, upd_node, hy.1, if_false]
    · rw [List.nodup_cons] at hn
      rw [Heap.resetIndex]
      cases i with
      | zero =>
        simp only [List.getElem?_cons_zero, Option.some.injEq] at hi
        subst hi
        rw [h5 _ hn.1]
        simp [Heap.index, upd_node]
      | succ i =>
        rw [h6 hn.2 i y (by simpa using hi)]
        omega

theorem setParent_fields (p : Nat) (l : List Nat) : ∀ (h : Heap), (h.setParent p l).size = h.size ∧
    (∀ y, ((h.setParent p l).node y).childs = (h.node y).childs) ∧
    (∀ y, (h.setParent p l).parent y = if y ∈ l then some p else h.parent y) ∧
    SameData h (h.setParent p l) ∧ (∀ y, (h.setParent p l).index y = h.index y) := by
  induction l with
  | nil => intro h; exact ⟨rfl, fun _ => rfl, fun _ => rfl, .refl h, fun _ => rfl⟩
  | cons x l ih =>
    intro h
    obtain ⟨h1, h2, h3, h4, h5⟩ := ih (h.upd x fun n => { n with parent := some p })
    refine ⟨h1, fun y => ?_, fun y => ?_, SameData.trans (fun y => ?_) h4, fun y => ?_⟩
    · rw [Heap.setParent, h2, upd_node]; split <;> rfl
    · rw [Heap.setParent, h3]
      simp only [Heap.parent, upd_node, List.mem_cons]
      by_cases h6 : y = x
      · simp [h6]
      · simp [h6]
    · rw [upd_node]; split <;> exact ⟨rfl, rfl, rfl, rfl, rfl⟩
    · rw [Heap.setParent, h5]; simp only [Heap.index, upd_node]; split <;> rfl

theorem kids_of_childs {h h' : Heap} {y : Nat} (e : (h'.node y).childs = (h.node y).childs) : h'.kids y = h.kids y := by
  simp only [Heap.kids, e]

/-! ## `remove_not_allowed_nodes` -/

theorem removeNotAllowed_eq (allow : Nat → Bool) (nodes : List Nat) :
    ∃ b, removeNotAllowed allow nodes = .ok (nodes.filter allow, b) ∧ (b = true ↔ nodes.filter allow ≠ nodes ∧ nodes.filter allow ≠ []) := by
  have hret : retainByIndex nodes ((List.range nodes.length).filter fun i => !allow (nodes.getD i 0)) = .ok (nodes.filter allow) := by
    unfold retainByIndex
    rw [retainFrom_eq 0]
    · congr 1
      apply keepFrom_eq_filter
      intro i hi
      simp [hi]
    · exact List.Pairwise.filter _ List.pairwise_lt_range
    · intro x hx
      simp at hx
      exact ⟨Nat.zero_le _, by omega⟩
  have hlen : ((List.range nodes.length).filter fun i => !allow (nodes.getD i 0)).length + (nodes.filter allow).length =
      nodes.length := by
    clear hret
    induction nodes with
    | nil => rfl
    | cons a l ih =>
      rw [List.length_cons, List.range_succ_eq_map, List.filter_cons, List.filter_cons, List.filter_map, Function.comp_def]
      simp only [List.getD_cons_zero, List.getD_cons_succ]
      cases allow a <;> simp at ih ⊢ <;> omega
  refine ⟨_, by simp only [removeNotAllowed, hret]; rfl, ?_⟩
  rw [decide_eq_true_iff]
  have h1 : (nodes.filter allow).length = nodes.length ↔ nodes.filter allow = nodes :=
    ⟨fun e => List.filter_sublist.eq_of_length e, fun e => by rw [e]⟩
  have h2 : (nodes.filter allow).length = 0 ↔ nodes.filter allow = [] := List.length_eq_zero_iff
  rw [ne_eq, ne_eq, ne_eq, ← h1, ← h2]
  omega

/-! ## `remove_child` -/

section
variable {h : Heap} {D : Nat → Prop}

/-- The list, split at a child. -/
theorem split_at {l : List Nat} {i x : Nat} (hi : l[i]? = some x) : l = l.take i ++ [x] ++ l.drop (i + 1) ∧ i < l.length := by
  obtain ⟨hlt, he⟩ := List.getElem?_eq_some_iff.1 hi
  subst he
  exact ⟨by simp, hlt⟩

theorem getElem?_middle {A N B : List Nat} {i c : Nat} (hi : (A ++ N ++ B)[i]? = some c) :
    (i < A.length ∧ A[i]? = some c) ∨ (A.length ≤ i ∧ i < A.length + N.length ∧ N[i - A.length]? = some c) ∨
    (A.length + N.length ≤ i ∧ B[i - (A.length + N.length)]? = some c) := by
  rw [List.append_assoc, List.getElem?_append] at hi
  split at hi
  · exact .inl ⟨by assumption, hi⟩
  · rename_i h1
    rw [List.getElem?_append] at hi
    split at hi
    · rename_i h2; exact .inr (.inl ⟨by omega, by omega, hi⟩)
    · rename_i h2; exact .inr (.inr ⟨by omega, by rw [← hi]; congr 1; omega⟩)

/-- Indexes after `reset_next_siblings_index` on the new nodes and on the nodes behind them. -/
theorem index_pieces {h h' : Heap} {p : Nat} {A M N B : List Nat} (ok : HeapOk h D) (hp : ¬ D p)
    (hold : h.kids p = A ++ M ++ B) (hA : ∀ y, y ∉ N → y ∉ B → h'.index y = h.index y)
    (hN : ∀ i y, N[i]? = some y → h'.index y = A.length + i) (hB : ∀ i y, B[i]? = some y → h'.index y = A.length + N.length + i)
    (hAN : ∀ a ∈ A, a ∉ N) :
    ∀ i c, (A ++ N ++ B)[i]? = some c → h'.index c = i := by
  have hnd := ok.kids_nodup hp
  rw [hold] at hnd
  intro i c hc
  rcases getElem?_middle hc with ⟨h1, h2⟩ | ⟨h1, h2, h3⟩ | ⟨h1, h2⟩
  · have hmem := List.mem_of_getElem? h2
    have hcB : c ∉ B := by
      rw [List.append_assoc, List.nodup_append] at hnd
      intro h3
      exact hnd.2.2 c hmem c (by simp [h3]) rfl
    rw [hA c (hAN c hmem) hcB]
    refine (ok.link p i c hp ?_).2
    rw [hold, List.append_assoc, List.getElem?_append_left h1, h2]
  · rw [hN _ _ h3]; omega
  · rw [hB _ _ h2]; omega

theorem removeChild_spliced (ok : HeapOk h D) {p x : Nat} (hpar : h.parent x = some p) (hx : Attached h D x) :
    ∃ h', h.removeChild p x = .ok h' ∧ Spliced h h' p ((h.kids p).take (h.index x)) [x] [] ((h.kids p).drop (h.index x + 1)) := by
  obtain ⟨hp, hi⟩ := hx p hpar
  obtain ⟨hsplit, hlt⟩ := split_at hi
  have hcs : (h.node p).childs = some (h.kids p) := by
    unfold Heap.kids at hlt ⊢
    cases hc : (h.node p).childs with
    | none => rw [hc] at hlt; simp at hlt
    | some cs => rfl
  have hnd := ok.kids_nodup hp
  have hdrop : ((h.kids p).drop (h.index x + 1)).Nodup := hnd.sublist (List.drop_sublist _ _)
  have herase : (h.kids p).eraseIdx (h.index x) = (h.kids p).take (h.index x) ++ (h.kids p).drop (h.index x + 1) :=
    List.eraseIdx_eq_take_drop_succ ..
  refine ⟨(h.resetIndex (h.index x) ((h.kids p).drop (h.index x + 1))).setChilds p (some ((h.kids p).eraseIdx (h.index x))), ?_, ?_⟩
  · unfold Heap.removeChild
    rw [if_pos hpar]
    simp only [hcs]
    rw [if_neg (by
      rintro (rfl | h1)
      · exact ok.parent_ne hpar rfl
      · exact ok.parent_ne (ok.kid_parent hp (List.mem_of_mem_drop h1)) rfl)]
    rw [if_neg (by omega)]
    split
    · rename_i he
      rw [List.drop_eq_nil_of_le (by omega)]
      rfl
    · rw [if_neg (by omega)]
  · obtain ⟨f1, f2, f3, f4, f5, f6⟩ := resetIndex_fields ((h.kids p).drop (h.index x + 1)) h (h.index x)
    refine ⟨f1, hsplit, ?_, fun q hq => ?_, fun y => ?_, ?_, fun y hy => ?_, f4.trans (setChilds_data _ _ _)⟩
    · rw [setChilds_kids, if_pos rfl]
      simpa using herase
    · rw [setChilds_kids, if_neg hq]
      exact kids_of_childs (f2 q)
    · simp [f3]
    · refine index_pieces (M := [x]) ok hp hsplit (fun y _ hy => ?_) (fun i y hy => by simp at hy) (fun i y hy => ?_) (by simp)
      · simpa using f5 y hy
      · simp only [setChilds_index]
        rw [f6 hdrop i y hy, List.length_take]
        simp only [List.length_nil]
        omega
    · simp only [List.append_nil, List.mem_append, not_or] at hy
      simpa using f5 y hy.2

/-- `detach` takes a node out of its parent; it is then in no list. -/
theorem detach_none {x : Nat} (hpar : h.parent x = none) : h.detach x = .ok h := by
  unfold Heap.detach; rw [hpar]

theorem detach_spliced (ok : HeapOk h D) {p x : Nat} (hpar : h.parent x = some p) (hx : Attached h D x) :
    ∃ h', h.detach x = .ok h' ∧ Spliced h h' p ((h.kids p).take (h.index x)) [x] [] ((h.kids p).drop (h.index x + 1)) := by
  unfold Heap.detach; rw [hpar]; exact removeChild_spliced ok hpar hx

theorem above_congr {h h' : Heap} (hp : ∀ y, h'.parent y = h.parent y) {a x : Nat} : Above h' a x ↔ Above h a x := by
  constructor
  · intro hx
    induction hx with
    | parent h1 => exact .parent (hp _ ▸ h1)
    | step _ h1 ih => exact .step ih (hp _ ▸ h1)
  · intro hx
    induction hx with
    | parent h1 => exact .parent ((hp _).trans h1)
    | step _ h1 ih => exact .step ih ((hp _).trans h1)

/-- What `detach` does, with or without a parent. -/
structure Detached (h h' : Heap) (D : Nat → Prop) (x : Nat) : Prop where
  size : h'.size = h.size
  kids : ∀ q, ¬ D q → h'.kids q = (h.kids q).filter (· ≠ x)
  dead : ∀ q, D q → h'.kids q = h.kids q
  childs : ∀ q, (h'.node q).childs.isSome = (h.node q).childs.isSome
  parent : ∀ y, h'.parent y = h.parent y
  data : SameData h h'
  ok : HeapOk h' D
  attached : ∀ y, y ≠ x → Attached h D y → Attached h' D y

theorem free_of_parent_none (ok : HeapOk h D) {x q : Nat} (hpar : h.parent x = none) (hq : ¬ D q) : x ∉ h.kids q := by
  intro h1
  rw [ok.kid_parent hq h1] at hpar
  cases hpar

theorem filter_ne_self {l : List Nat} {x : Nat} (hx : x ∉ l) : l.filter (· ≠ x) = l := by
  rw [List.filter_eq_self]
  intro a ha
  simp only [decide_eq_true_iff, ne_eq]
  rintro rfl
  exact hx ha

theorem Spec.HeapOk.kid_kind (ok : HeapOk h D) {p c : Nat} (hc : c ∈ h.kids p) :
    (h.node p).kind = .root ∨ (h.node p).kind = .tag := by
  by_cases h1 : (h.node p).kind = .root
  · exact .inl h1
  · by_cases h2 : (h.node p).kind = .tag
    · exact .inr h2
    · rw [ok.leaf p h1 h2] at hc; simp at hc

theorem removeChild_childs {p x : Nat} {h' : Heap} (he : h.removeChild p x = .ok h') (q : Nat) :
    (h'.node q).childs.isSome = (h.node q).childs.isSome := by
  unfold Heap.removeChild at he
  split at he
  · split at he
    · cases he; rfl
    · rename_i cs hcs
      split at he
      · cases he
      split at he
      · cases he
      · split at he
        · cases he
          rw [setChilds_childs]
          split
          · rename_i e; subst e; rw [hcs]; rfl
          · rfl
        · split at he
          · cases he
          · cases he
            rw [setChilds_childs]
            split
            · rename_i e; subst e; rw [hcs]; rfl
            · rw [(resetIndex_fields _ _ _).2.1]
  · cases he; rfl

theorem detach_childs {x : Nat} {h' : Heap} (he : h.detach x = .ok h') (q : Nat) :
    (h'.node q).childs.isSome = (h.node q).childs.isSome := by
  unfold Heap.detach at he
  split at he
  · cases he; rfl
  · exact removeChild_childs he q

theorem detach_detached (ok : HeapOk h D) {x : Nat} (hx : Attached h D x) :
    ∃ h', h.detach x = .ok h' ∧ Detached h h' D x := by
  cases hpar : h.parent x with
  | none =>
    refine ⟨h, detach_none hpar, ⟨rfl, fun q hq => ?_, fun _ _ => rfl, fun _ => rfl, fun _ => rfl, .refl h, ok, fun _ _ h1 => h1⟩⟩
    exact (filter_ne_self (free_of_parent_none ok hpar hq)).symm
  | some p =>
    obtain ⟨h', he, s⟩ := detach_spliced ok hpar hx
    obtain ⟨hp, hi⟩ := hx p hpar
    have hpk : Placeable h D p [] := ⟨by simp, by simp, by simp, by simp⟩
    refine ⟨h', he, ⟨s.size, fun q hq => ?_, fun q hq => ?_, detach_childs he, fun y => ?_, s.data,
      s.ok ok hp (ok.bound x p hpar).2 (ok.kid_kind (List.mem_of_getElem? hi)) hpk, fun y hy h1 =>
      s.attached_old ok hp h1 (by simpa using hy) hpk⟩⟩
    · by_cases e : q = p
      · subst e
        have hnd := ok.kids_nodup hq
        have ho := s.old
        rw [s.new]
        generalize (h.kids q).take (h.index x) = A at *
        generalize (h.kids q).drop (h.index x + 1) = B at *
        rw [ho] at hnd ⊢
        rw [List.append_assoc, List.nodup_append] at hnd
        have h1 : x ∉ A := fun h2 => hnd.2.2 x h2 x (by simp) rfl
        have h2 : x ∉ B := fun h3 => by
          have := hnd.2.1
          simp only [List.cons_append, List.nil_append, List.nodup_cons] at this
          exact this.1 h3
        simp only [List.append_nil, List.filter_append, filter_ne_self h1, filter_ne_self h2]
        simp
      · rw [s.other q e, filter_ne_self]
        intro h1
        exact e (ok.kid_unique hq hp h1 (List.mem_of_getElem? hi))
    · rw [s.other q (by rintro rfl; exact hp hq)]
    · rw [s.parent]; simp

/-- A detached node can be put under every node that it is not above. -/
theorem Detached.placeable {h' : Heap} {x p : Nat} (d : Detached h h' D x) (hk : (h.node x).kind ≠ .root) (hb : x < h.size)
    (hne : x ≠ p) (hab : ¬ Above h x p) : Placeable h' D p [x] := by
  refine ⟨?_, ?_, ?_, ?_⟩ <;> simp only [List.mem_singleton, forall_eq]
  · intro q hq
    rw [d.kids q hq]
    simp
  · rw [(d.data x).1]; exact hk
  · rw [d.size]; exact hb
  · exact ⟨hne, fun h1 => hab ((above_congr d.parent).1 h1)⟩

/-- The children of a fragment can be put under every node that the fragment is not above. -/
theorem placeable_fragment (ok : HeapOk h D) {f p : Nat} (hf : ¬ D f) (hne : f ≠ p) (hab : ¬ Above h f p) :
    Placeable h (fun x => D x ∨ x = f) p (h.kids f) := by
  refine ⟨fun n hn q hq h1 => ?_, fun n hn => ok.kid f n hf hn, fun n hn => (ok.bound n f (ok.kid_parent hf hn)).1, fun n hn => ⟨?_, ?_⟩⟩
  · rw [not_or] at hq
    exact hq.2 (ok.kid_unique hq.1 hf h1 hn)
  · rintro rfl
    exact hab (.parent (ok.kid_parent hf hn))
  · intro h1
    exact hab (Above.trans (.parent (ok.kid_parent hf hn)) h1)

theorem Spec.HeapOk.consume (ok : HeapOk h D) {f : Nat} (hf : (h.node f).kind = .root) (hb : f < h.size) :
    HeapOk h (fun x => D x ∨ x = f) :=
  ⟨fun p i c hp => ok.link p i c (fun h1 => hp (.inl h1)), fun p c hp => ok.kid p c (fun h1 => hp (.inl h1)), ok.top, ok.leaf,
    ok.bound, ok.ground, fun x hx => hx.elim (ok.dead x) (by rintro rfl; exact ⟨hf, hb⟩)⟩

theorem Placeable.filter {p : Nat} {N : List Nat} (hN : Placeable h D p N) (P : Nat → Bool) : Placeable h D p (N.filter P) :=
  ⟨fun n hn => hN.free n (List.mem_filter.1 hn).1, fun n hn => hN.kind n (List.mem_filter.1 hn).1,
    fun n hn => hN.bound n (List.mem_filter.1 hn).1, fun n hn => hN.above n (List.mem_filter.1 hn).1⟩

/-! ## The insertions -/

theorem Spec.HeapOk.not_own_kid (ok : HeapOk h D) {p : Nat} (hp : ¬ D p) : p ∉ h.kids p := fun h1 =>
  ok.not_above_self p (.parent (ok.kid_parent hp h1))

theorem insertInside_spliced (ok : HeapOk h D) {t : Nat} {N : List Nat} (ht : ¬ D t) (hN : Placeable h D t N) (hnd : N.Nodup)
    (atEnd : Bool) : ∃ h', h.insertInside atEnd t N = .ok h' ∧
      (if atEnd then Spliced h h' t (h.kids t) [] N [] else Spliced h h' t [] [] N (h.kids t)) := by
  have htN : t ∉ N := fun h1 => (hN.above t h1).1 rfl
  have htt := ok.not_own_kid ht
  have hkN : ∀ c ∈ h.kids t, c ∉ N := fun c h1 h2 => hN.free c h2 t ht h1
  have hknd := ok.kids_nodup ht
  obtain ⟨g1, g2, g3, g4, g5⟩ := setParent_fields t N h
  have hch := g2 t
  unfold Heap.insertInside
  simp only []
  cases hc : (h.node t).childs with
  | none =>
    rw [hc] at hch
    rw [hch]
    have hk0 : h.kids t = [] := by unfold Heap.kids; rw [hc]; rfl
    obtain ⟨f1, f2, f3, f4, f5, f6⟩ := resetIndex_fields N (h.setParent t N) 0
    have s : ∀ A B : List Nat, A = [] → B = [] → Spliced h (((h.setParent t N).resetIndex 0 N).setChilds t (some N)) t A [] N B := by
      rintro A B rfl rfl
      refine ⟨f1.trans g1, hk0, ?_, fun q hq => ?_, fun y => ?_, fun i c hc => ?_, fun y hy => ?_,
        (g4.trans f4).trans (setChilds_data _ _ _)⟩
      · rw [setChilds_kids, if_pos rfl]; simp
      · rw [setChilds_kids, if_neg hq]
        exact kids_of_childs ((f2 q).trans (g2 q))
      · rw [setChilds_parent, f3, g3]
      · rw [setChilds_index]
        simp only [List.nil_append, List.append_nil] at hc
        rw [f6 hnd i c hc]; omega
      · simp only [List.nil_append, List.append_nil] at hy
        rw [setChilds_index, f5 y hy, g5]
    refine ⟨_, rfl, ?_⟩
    split
    · exact s _ _ hk0 rfl
    · exact s _ _ rfl hk0
  | some cs =>
    rw [hc] at hch
    rw [hch]
    have hk : h.kids t = cs := by unfold Heap.kids; rw [hc]; rfl
    rw [hk] at htt hkN hknd
    simp only [htN, if_false]
    cases atEnd with
    | true =>
      simp only [if_true]
      obtain ⟨f1, f2, f3, f4, f5, f6⟩ := resetIndex_fields N (h.setParent t N) cs.length
      refine ⟨_, rfl, f1.trans g1, by simp, ?_, fun q hq => ?_, fun y => ?_, ?_, fun y hy => ?_,
        (g4.trans f4).trans (setChilds_data _ _ _)⟩
      · rw [setChilds_kids, if_pos rfl, hk]; simp
      · rw [setChilds_kids, if_neg hq]
        exact kids_of_childs ((f2 q).trans (g2 q))
      · rw [setChilds_parent, f3, g3]
      · refine index_pieces (M := []) (B := []) ok ht (by simp) (fun y hy _ => ?_) (fun i y hy => ?_) (by simp)
          (fun a ha => ?_)
        · rw [setChilds_index, f5 y hy, g5]
        · rw [setChilds_index, f6 hnd i y hy, hk]
        · rw [hk] at ha; exact hkN a ha
      · simp only [List.append_nil, List.mem_append, not_or] at hy
        rw [setChilds_index, f5 y hy.2, g5]
    | false =>
      simp only [Bool.false_eq_true, if_false, htt]
      obtain ⟨f1, f2, f3, f4, f5, f6⟩ := resetIndex_fields N (h.setParent t N) 0
      obtain ⟨e1, e2, e3, e4, e5, e6⟩ := resetIndex_fields cs ((h.setParent t N).resetIndex 0 N) N.length
      have hNk : ∀ n ∈ N, n ∉ cs := fun n h1 h2 => hkN n h2 h1
      refine ⟨_, rfl, e1.trans (f1.trans g1), by simp, ?_, fun q hq => ?_, fun y => ?_, ?_, fun y hy => ?_,
        ((g4.trans f4).trans e4).trans (setChilds_data _ _ _)⟩
      · rw [setChilds_kids, if_pos rfl, hk]; simp
      · rw [setChilds_kids, if_neg hq]
        exact kids_of_childs ((e2 q).trans ((f2 q).trans (g2 q)))
      · rw [setChilds_parent, e3, f3, g3]
      · refine index_pieces (M := []) (A := []) ok ht (by simp) (fun y hy hy' => ?_) (fun i y hy => ?_) (fun i y hy => ?_)
          (by simp)
        · rw [hk] at hy'
          rw [setChilds_index, e5 y hy', f5 y hy, g5]
        · rw [setChilds_index, e5 y (hNk y (List.mem_of_getElem? hy)), f6 hnd i y hy]; rfl
        · rw [hk] at hy
          rw [setChilds_index, e6 hknd i y hy]; simp
      · simp only [List.nil_append, List.mem_append, not_or, hk] at hy
        rw [setChilds_index, e5 y hy.2, f5 y hy.1, g5]

theorem childs_of_kid {p i c : Nat} (hi : (h.kids p)[i]? = some c) : (h.node p).childs = some (h.kids p) := by
  unfold Heap.kids at hi ⊢
  cases hc : (h.node p).childs with
  | none => rw [hc] at hi; simp at hi
  | some cs => rfl

theorem insertBeside_spliced (ok : HeapOk h D) {p t : Nat} {N : List Nat} (hpar : h.parent t = some p) (ht : Attached h D t)
    (hN : Placeable h D p N) (hnd : N.Nodup) (after : Bool) : ∃ h', h.insertBeside after t N = .ok h' ∧
      Spliced h h' p ((h.kids p).take (if after then h.index t + 1 else h.index t)) [] N
        ((h.kids p).drop (if after then h.index t + 1 else h.index t)) := by
  obtain ⟨hp, hi⟩ := ht p hpar
  have hpN : p ∉ N := fun h1 => (hN.above p h1).1 rfl
  have htN : t ∉ N := fun h1 => hN.free t h1 p hp (List.mem_of_getElem? hi)
  have hkN : ∀ c ∈ h.kids p, c ∉ N := fun c h1 h2 => hN.free c h2 p hp h1
  have hknd := ok.kids_nodup hp
  have hcs := childs_of_kid hi
  obtain ⟨_, hlt⟩ := split_at hi
  unfold Heap.insertBeside
  simp only []
  generalize hidx : (if after then h.index t + 1 else h.index t) = idx
  have hle : idx ≤ (h.kids p).length := by subst hidx; split <;> omega
  obtain ⟨f1, f2, f3, f4, f5, f6⟩ := resetIndex_fields N h idx
  obtain ⟨g1, g2, g3, g4, g5⟩ := setParent_fields p N (h.resetIndex idx N)
  rw [f3, hpar]
  simp only []
  rw [f2, hcs]
  simp only [htN, hpN, or_self, if_false]
  have hprev : (if idx < (h.kids p).length then (h.kids p).take idx else h.kids p) = (h.kids p).take idx := by
    split
    · rfl
    · rw [List.take_of_length_le (by omega)]
  have hnext : (if idx < (h.kids p).length then (h.kids p).drop idx else []) = (h.kids p).drop idx := by
    split
    · rfl
    · rw [List.drop_eq_nil_of_le (by omega)]
  rw [hprev, hnext]
  have hBnd : ((h.kids p).drop idx).Nodup := hknd.sublist (List.drop_sublist _ _)
  have hBN : ∀ c ∈ (h.kids p).drop idx, c ∉ N := fun c hc => hkN c (List.mem_of_mem_drop hc)
  have hAN : ∀ c ∈ (h.kids p).take idx, c ∉ N := fun c hc => hkN c (List.mem_of_mem_take hc)
  have hNB : ∀ n ∈ N, n ∉ (h.kids p).drop idx := fun n h1 h2 => hBN n h2 h1
  have hold : h.kids p = (h.kids p).take idx ++ [] ++ (h.kids p).drop idx := by simp
  have hAlen : ((h.kids p).take idx).length = idx := by rw [List.length_take]; omega
  rw [if_neg (ok.parent_ne hpar)]
  split
  · rename_i hemp
    rw [List.isEmpty_iff] at hemp
    refine ⟨_, rfl, g1.trans f1, hold, ?_, fun q hq => ?_, fun y => ?_, ?_, fun y hy => ?_,
      (f4.trans g4).trans (setChilds_data _ _ _)⟩
    · rw [setChilds_kids, if_pos rfl, hemp]; simp
    · rw [setChilds_kids, if_neg hq]
      exact kids_of_childs ((g2 q).trans (f2 q))
    · rw [setChilds_parent, g3, f3]
    · refine index_pieces ok hp hold (fun y hy _ => ?_) (fun i y hy => ?_) (fun i y hy => ?_) hAN
      · rw [setChilds_index, g5, f5 y hy]
      · rw [setChilds_index, g5, f6 hnd i y hy, hAlen]
      · rw [hemp] at hy; simp at hy
    · simp only [List.mem_append, not_or] at hy
      rw [setChilds_index, g5, f5 y hy.1.2]
  · obtain ⟨e1, e2, e3, e4, e5, e6⟩ := resetIndex_fields ((h.kids p).drop idx)
      (((h.resetIndex idx N).setParent p N).setChilds p (some ((h.kids p).take idx ++ N))) (idx + N.length)
    refine ⟨_, rfl, e1.trans (g1.trans f1), hold, ?_, fun q hq => ?_, fun y => ?_, ?_, fun y hy => ?_,
      (((f4.trans g4).trans (setChilds_data _ _ _)).trans e4).trans (setChilds_data _ _ _)⟩
    · rw [setChilds_kids, if_pos rfl]; simp
    · rw [setChilds_kids, if_neg hq]
      rw [kids_of_childs (e2 q), setChilds_kids, if_neg hq]
      exact kids_of_childs ((g2 q).trans (f2 q))
    · rw [setChilds_parent, e3, setChilds_parent, g3, f3]
    · refine index_pieces ok hp hold (fun y hy hy' => ?_) (fun i y hy => ?_) (fun i y hy => ?_) hAN
      · rw [setChilds_index, e5 y hy', setChilds_index, g5, f5 y hy]
      · rw [setChilds_index, e5 y (hNB y (List.mem_of_getElem? hy)), setChilds_index, g5, f6 hnd i y hy, hAlen]
      · rw [setChilds_index, e6 hBnd i y hy, hAlen]
    · simp only [List.mem_append, not_or] at hy
      rw [setChilds_index, e5 y hy.2, setChilds_index, g5, f5 y hy.1.2]

/-- The last part of `replace_with`. -/
theorem replace_spliced (ok : HeapOk h D) {p t : Nat} {N : List Nat} (hpar : h.parent t = some p) (ht : Attached h D t)
    (hN : Placeable h D p N) (hnd : N.Nodup) :
    t ∉ N ∧ p ∉ N ∧ (h.node p).childs = some (h.kids p) ∧ h.index t < (h.kids p).length ∧
      t ∉ (h.kids p).drop (h.index t + 1) ∧
      Spliced h ((((h.resetIndex (h.index t) N).resetIndex (h.index t + N.length) ((h.kids p).drop (h.index t + 1))).setParent p
        N).setChilds p (some ((h.kids p).take (h.index t) ++ N ++ (h.kids p).drop (h.index t + 1)))) p
        ((h.kids p).take (h.index t)) [t] N ((h.kids p).drop (h.index t + 1)) := by
  obtain ⟨hp, hi⟩ := ht p hpar
  have hpN : p ∉ N := fun h1 => (hN.above p h1).1 rfl
  have htN : t ∉ N := fun h1 => hN.free t h1 p hp (List.mem_of_getElem? hi)
  have hkN : ∀ c ∈ h.kids p, c ∉ N := fun c h1 h2 => hN.free c h2 p hp h1
  have hknd := ok.kids_nodup hp
  have hcs := childs_of_kid hi
  obtain ⟨hold, hlt⟩ := split_at hi
  have htB : t ∉ (h.kids p).drop (h.index t + 1) := by
    intro h1
    rw [hold, List.append_assoc, List.nodup_append] at hknd
    have := hknd.2.1
    simp only [List.cons_append, List.nil_append, List.nodup_cons] at this
    exact this.1 h1
  refine ⟨htN, hpN, hcs, hlt, htB, ?_⟩
  obtain ⟨f1, f2, f3, f4, f5, f6⟩ := resetIndex_fields N h (h.index t)
  obtain ⟨e1, e2, e3, e4, e5, e6⟩ := resetIndex_fields ((h.kids p).drop (h.index t + 1)) (h.resetIndex (h.index t) N)
    (h.index t + N.length)
  obtain ⟨g1, g2, g3, g4, g5⟩ := setParent_fields p N ((h.resetIndex (h.index t) N).resetIndex (h.index t + N.length)
    ((h.kids p).drop (h.index t + 1)))
  have hBnd : ((h.kids p).drop (h.index t + 1)).Nodup := hknd.sublist (List.drop_sublist _ _)
  have hNB : ∀ n ∈ N, n ∉ (h.kids p).drop (h.index t + 1) := fun n h1 h2 => hkN n (List.mem_of_mem_drop h2) h1
  have hAlen : ((h.kids p).take (h.index t)).length = h.index t := by rw [List.length_take]; omega
  refine ⟨g1.trans (e1.trans f1), hold, ?_, fun q hq => ?_, fun y => ?_, ?_, fun y hy => ?_,
    ((f4.trans e4).trans g4).trans (setChilds_data _ _ _)⟩
  · rw [setChilds_kids, if_pos rfl]; simp
  · rw [setChilds_kids, if_neg hq]
    exact kids_of_childs ((g2 q).trans ((e2 q).trans (f2 q)))
  · rw [setChilds_parent, g3, e3, f3]
  · refine index_pieces ok hp hold (fun y hy hy' => ?_) (fun i y hy => ?_) (fun i y hy => ?_)
      (fun c hc => hkN c (List.mem_of_mem_take hc))
    · rw [setChilds_index, g5, e5 y hy', f5 y hy]
    · rw [setChilds_index, g5, e5 y (hNB y (List.mem_of_getElem? hy)), f6 hnd i y hy, hAlen]
    · rw [setChilds_index, g5, e6 hBnd i y hy, hAlen]
  · simp only [List.mem_append, not_or] at hy
    rw [setChilds_index, g5, e5 y hy.2, f5 y hy.1.2]

/-! ## `validate_dom_change` -/

theorem hasAncestor_eq (ok : HeapOk h D) (n : Nat) (k : Nat) : ∀ (t : Nat) (seen : List Nat), seen.Nodup →
    (∀ s ∈ seen, Above h t s) → seen.length + k = h.size + 1 → ∃ b, h.hasAncestor k t n = .ok b ∧ (b = true ↔ Above h n t) := by
  induction k with
  | zero =>
    intro t seen hnd hab hlen
    exfalso
    have hsub : seen ⊆ List.range h.size := by
      intro s hs
      rw [List.mem_range]
      cases hab s hs with
      | parent h1 => exact (ok.bound _ _ h1).1
      | step _ h1 => exact (ok.bound _ _ h1).1
    have := (List.subperm_of_subset hnd hsub).length_le
    rw [List.length_range] at this
    omega
  | succ k ih =>
    intro t seen hnd hab hlen
    unfold Heap.hasAncestor
    cases hp : h.parent t with
    | none =>
      refine ⟨false, rfl, by simp, fun h1 => ?_⟩
      cases h1 with
      | parent h2 => rw [hp] at h2; cases h2
      | step _ h2 => rw [hp] at h2; cases h2
    | some p =>
      simp only []
      split
      · rename_i e; subst e; exact ⟨true, rfl, fun _ => .parent hp, fun _ => rfl⟩
      · rename_i hne
        obtain ⟨b, h1, h2⟩ := ih p (t :: seen) (List.nodup_cons.2 ⟨fun h3 => ok.not_above_self t (hab t h3), hnd⟩)
          (by
            intro s hs
            rw [List.mem_cons] at hs
            rcases hs with rfl | hs
            · exact .parent hp
            · exact Above.trans (.parent hp) (hab s hs))
          (by simp only [List.length_cons]; omega)
        refine ⟨b, h1, h2.trans ⟨fun h3 => .step h3 hp, fun h3 => ?_⟩⟩
        rcases above_cases h3 hp with e | h4
        · exact absurd e.symm hne
        · exact h4

theorem validate_eq (ok : HeapOk h D) (e : Ext) (t n : Nat) : ∃ b, h.validate e t n = .ok b ∧
    (b = true ↔ (h.node t).kind = .tag ∧ ¬ ((h.node n).kind = .root ∧ e.isDoc h n = true) ∧ t ≠ n ∧ ¬ Above h n t) := by
  unfold Heap.validate
  have hE : h.isElem t = true ↔ (h.node t).kind = .tag := by simp [Heap.isElem]
  have hR : h.isRoot n = true ↔ (h.node n).kind = .root := by simp [Heap.isRoot]
  split
  · rename_i h1
    refine ⟨false, rfl, by simp, fun h2 => ?_⟩
    rw [hE.2 h2.1] at h1
    cases h1
  · rename_i h1
    simp only [Bool.not_eq_true', Bool.not_eq_false] at h1
    split
    · rename_i h2
      simp only [Bool.and_eq_true] at h2
      exact ⟨false, rfl, by simp, fun h3 => absurd ⟨hR.1 h2.1, h2.2⟩ h3.2.1⟩
    · rename_i h2
      simp only [Bool.and_eq_true] at h2
      split
      · rename_i h3
        exact ⟨false, rfl, by simp, fun h4 => absurd h3 h4.2.2.1⟩
      · rename_i h3
        obtain ⟨b, h4, h5⟩ := hasAncestor_eq ok n (h.size + 1) t [] List.nodup_nil (by simp) (by simp)
        rw [h4]
        refine ⟨!b, rfl, ?_⟩
        rw [Bool.not_eq_true', ← Bool.not_eq_true, h5]
        exact ⟨fun h6 => ⟨hE.1 h1, fun h7 => h2 ⟨hR.2 h7.1, h7.2⟩, h3, h6⟩, fun h6 => h6.2.2.2⟩

end

end Visdom
