import Verif.Props.TextsRemove
/-!
# C34, C53: exactly which sets are removed as asked
-/
namespace Visdom
open Spec

/-- A removal of `x` that answers takes one node out of the list of its parent, and touches no other list. -/
structure TakesOne (h h' : Heap) (x : Nat) : Prop where
  parent : ∀ y, h'.parent y = h.parent y
  list : ∀ q, (h.node q).childs ≠ none → (h'.node q).childs ≠ none
  less : ∀ q, h.parent x = some q → (h.node q).childs ≠ none → (h'.kids q).length + 1 = (h.kids q).length
  other : ∀ q, h.parent x ≠ some q → h'.kids q = h.kids q

theorem takesOne_none {h : Heap} {x : Nat} (hx : h.parent x = none) : TakesOne h h x :=
  ⟨fun _ => rfl, fun _ h1 => h1, fun q h1 => by rw [hx] at h1; (cases h1), fun _ _ => rfl⟩

/-- Taking out the node at position `i`, with any positions renewed. -/
theorem takesOne_set {h g : Heap} {x p i : Nat} {cs : List Nat} (hx : h.parent x = some p) (hc : (h.node p).childs = some cs)
    (hi : i < cs.length) (hp : ∀ y, g.parent y = h.parent y)
    (hg : ∀ y, (g.node y).childs = if y = p then some (cs.eraseIdx i) else (h.node y).childs) : TakesOne h g x := by
  refine ⟨hp, fun q hq => ?_, fun q hq _ => ?_, fun q hq => ?_⟩
  · rw [hg]; split <;> simp_all
  · rw [hx] at hq; cases hq
    simp only [Heap.kids, hg, hc, if_true, Option.getD_some, List.length_eraseIdx]
    rw [if_pos hi]; omega
  · simp only [Heap.kids, hg]
    rw [if_neg]
    rintro rfl; exact hq hx

theorem detach_takesOne {h h' : Heap} {x : Nat} (he : h.detach x = .ok h') : TakesOne h h' x := by
  unfold Heap.detach at he
  split at he
  · rename_i hx; cases he; exact takesOne_none hx
  · rename_i p hx
    unfold Heap.removeChild at he
    rw [if_pos hx] at he
    split at he
    · rename_i hc; cases he
      exact ⟨fun _ => rfl, fun _ h1 => h1, fun q h1 h2 => by rw [hx] at h1; cases h1; exact absurd hc h2, fun _ _ => rfl⟩
    · rename_i cs hc
      split at he
      · cases he
      split at he
      · cases he
      rename_i h0
      split at he
      · rename_i hi; cases he
        exact takesOne_set (i := h.index x) hx hc (by omega) (by simp) fun y => setChilds_childs ..
      · split at he
        · cases he
        · rename_i hl; cases he
          obtain ⟨-, f2, f3, -⟩ := resetIndex_fields (cs.drop (h.index x + 1)) h (h.index x)
          exact takesOne_set (i := h.index x) hx hc (by omega) (fun y => by rw [setChilds_parent, f3]) fun y => by rw [setChilds_childs, f2]

theorem removeText_takesOne {h h' : Heap} {x : Nat} (he : h.removeText x = .ok h') : TakesOne h h' x := by
  unfold Heap.removeText at he
  split at he
  · rename_i hx; cases he; exact takesOne_none hx
  · rename_i p hx
    split at he
    · cases he
    split at he
    · rename_i hc; cases he
      exact ⟨fun _ => rfl, fun _ h1 => h1, fun q h1 h2 => by rw [hx] at h1; cases h1; exact absurd hc h2, fun _ _ => rfl⟩
    · rename_i cs hc
      split at he
      · cases he
      · rename_i hl
        dsimp only at he
        split at he
        · cases he
        · cases he
          obtain ⟨-, f2, f3, -⟩ := resetIndex_fields ((cs.eraseIdx (h.index x)).drop (h.index x)) (h.setChilds p (some (cs.eraseIdx (h.index x)))) (h.index x)
          exact takesOne_set (i := h.index x) hx hc (by omega) (fun y => by rw [f3, setChilds_parent]) fun y => by rw [f2, setChilds_childs]

/-- Each entry of the list takes out one node, whether or not it is still in place. -/
theorem takes_count {step : Heap → Nat → R Heap} {run : Heap → List Nat → R Heap}
    (hs : ∀ {h h' x}, step h x = .ok h' → TakesOne h h' x) (hr0 : ∀ h, run h [] = .ok h)
    (hr : ∀ h x xs, run h (x :: xs) = match step h x with | .error e => .error e | .ok h => run h xs) (p : Nat) :
    ∀ (X : List Nat) {h h' : Heap}, run h X = .ok h' → (h.node p).childs ≠ none →
      (h'.kids p).length + (X.filter fun x => h.parent x = some p).length = (h.kids p).length := by
  intro X
  induction X with
  | nil => intro h h' he _; rw [hr0] at he; cases he; simp
  | cons x X ih =>
    intro h h' he hc
    rw [hr] at he
    cases hd : step h x with
    | error e => rw [hd] at he; cases he
    | ok h1 =>
      rw [hd] at he
      have t := hs hd
      have := ih he (t.list p hc)
      simp only [t.parent] at this
      by_cases hx : h.parent x = some p
      · have hl := t.less p hx hc
        rw [List.filter_cons_of_pos (by simpa using hx), List.length_cons]
        omega
      · rw [List.filter_cons_of_neg (by simpa using hx), ← t.other p hx]
        exact this

theorem count_of_takes {h h' : Heap} {D : Nat → Prop} (ok : HeapOk h D) {X : List Nat} (hX : ∀ x ∈ X, Attached h D x) {p x : Nat} (hx : x ∈ X)
    (hp : h.parent x = some p) (hk : h'.kids p = (h.kids p).filter (· ∉ X))
    (hl : (h'.kids p).length + (X.filter fun x => h.parent x = some p).length = (h.kids p).length) : X.count x = 1 := by
  have hD := (hX x hx p hp).1
  have h1 : ((h.kids p).filter (· ∈ X)).length = (X.filter fun x => h.parent x = some p).length := by
    have h2 : ((h.kids p).filter (· ∉ X)).length + ((h.kids p).filter (· ∈ X)).length = (h.kids p).length := by
      induction h.kids p with
      | nil => rfl
      | cons a l ih =>
        by_cases ha : a ∈ X
        · rw [List.filter_cons_of_neg (by simpa using ha), List.filter_cons_of_pos (by simpa using ha), List.length_cons, List.length_cons]; omega
        · rw [List.filter_cons_of_pos (by simpa using ha), List.filter_cons_of_neg (by simpa using ha), List.length_cons, List.length_cons]; omega
    rw [hk] at hl; omega
  have hnd : ((h.kids p).filter (· ∈ X)).Nodup := (ok.kids_nodup hD).filter _
  have hsub : (h.kids p).filter (· ∈ X) ⊆ X.filter fun x => h.parent x = some p := by
    intro y hy
    rw [List.mem_filter] at hy ⊢
    exact ⟨by simpa using hy.2, by simpa using ok.kid_parent hD hy.1⟩
  have hperm := (List.subperm_of_subset hnd hsub).perm_of_length_le (by omega)
  have hnd2 := hperm.nodup_iff.1 hnd
  have h3 : (X.filter fun x => h.parent x = some p).count x = X.count x := List.count_filter (by simpa using hp)
  rw [← h3]
  exact List.count_eq_one_of_mem hnd2 (List.mem_filter.2 ⟨hx, by simpa using hp⟩)

/-- The nodes without parent are passed over. -/
theorem removeAll_filter {h : Heap} : ∀ (X : List Nat) {g : Heap}, (∀ y, g.parent y = h.parent y) →
    removeAll g X = removeAll g (X.filter fun x => (h.parent x).isSome) := by
  intro X
  induction X with
  | nil => intro g _; rfl
  | cons x X ih =>
    intro g hg
    cases hx : h.parent x with
    | none =>
      rw [List.filter_cons_of_neg (by simp [hx]), ← ih hg, removeAll, detach_none (by rw [hg, hx])]
    | some p =>
      rw [List.filter_cons_of_pos (by simp [hx]), removeAll, removeAll]
      cases hd : g.detach x with
      | error e => rfl
      | ok g1 => exact ih fun y => by rw [(detach_takesOne hd).parent, hg]

theorem textsRemove_filter {h : Heap} : ∀ (X : List Nat) {g : Heap}, (∀ y, g.parent y = h.parent y) →
    textsRemove g X = textsRemove g (X.filter fun x => (h.parent x).isSome) := by
  intro X
  induction X with
  | nil => intro g _; rfl
  | cons x X ih =>
    intro g hg
    cases hx : h.parent x with
    | none =>
      rw [List.filter_cons_of_neg (by simp [hx]), ← ih hg, textsRemove]
      have : g.removeText x = .ok g := by unfold Heap.removeText; rw [hg, hx]
      rw [this]
    | some p =>
      rw [List.filter_cons_of_pos (by simp [hx]), textsRemove, textsRemove]
      cases hd : g.removeText x with
      | error e => rfl
      | ok g1 => exact ih fun y => by rw [(removeText_takesOne hd).parent, hg]

theorem nodup_of_counts {h : Heap} {X : List Nat} (hc : ∀ x ∈ X, h.parent x ≠ none → X.count x = 1) :
    (X.filter fun x => (h.parent x).isSome).Nodup := by
  rw [List.nodup_iff_count_le_one]
  intro x
  by_cases hx : x ∈ X.filter fun x => (h.parent x).isSome
  · obtain ⟨h1, h2⟩ := List.mem_filter.1 hx
    have h3 : h.parent x ≠ none := by simpa [Option.isSome_iff_ne_none] using h2
    rw [List.count_filter (by simpa using h2), hc x h1 h3]
  · rw [List.count_eq_zero.2 hx]; omega

theorem filter_kids_parent {h : Heap} {D : Nat → Prop} (ok : HeapOk h D) {q : Nat} (hq : ¬ D q) (X : List Nat) :
    (h.kids q).filter (· ∉ X.filter fun x => (h.parent x).isSome) = (h.kids q).filter (· ∉ X) := by
  apply List.filter_congr
  intro c hc
  have hp := ok.kid_parent hq hc
  simp [List.mem_filter, hp]

/-- C34: `remove` on a set of nodes that are in place takes exactly them out of the document if and only if no node with a parent is in
the set twice. -/
theorem C34_remove_exact_partial {h : Heap} {D : Nat → Prop} (ok : HeapOk h D) (X : List Nat) (hX : ∀ x ∈ X, Attached h D x) :
    (∃ h', removeAll h X = .ok h' ∧ ∀ q, ¬ D q → h'.kids q = (h.kids q).filter (· ∉ X)) ↔
      ∀ x ∈ X, h.parent x ≠ none → X.count x = 1 := by
  constructor
  · rintro ⟨h', he, hk⟩ x hx hp
    obtain ⟨p, hp⟩ := Option.ne_none_iff_exists'.1 hp
    obtain ⟨hD, hi⟩ := hX x hx p hp
    refine count_of_takes ok hX hx hp (hk p hD) (takes_count (step := Heap.detach) (run := removeAll) (fun h1 => detach_takesOne h1) (fun _ => rfl) ?_ p X he ?_)
    · intro h x xs; rw [removeAll]; rfl
    · intro hn; simp [Heap.kids, hn] at hi
  · intro hc
    obtain ⟨h', h1, h2, -⟩ := C34_remove_partial ok (X.filter fun x => (h.parent x).isSome) (fun x hx => hX x (List.mem_filter.1 hx).1)
      (nodup_of_counts hc)
    exact ⟨h', (removeAll_filter X fun _ => rfl).trans h1, fun q hq => by rw [h2 q hq, filter_kids_parent ok hq]⟩

/-- C53: `Texts::remove` on a set of texts that are in place takes exactly them out of the document if and only if no text with a parent is in
the set twice. -/
theorem C53_remove_exact_partial {h : Heap} {D : Nat → Prop} (ok : HeapOk h D) (X : List Nat) (hX : ∀ x ∈ X, Attached h D x) :
    (∃ h', textsRemove h X = .ok h' ∧ ∀ q, ¬ D q → h'.kids q = (h.kids q).filter (· ∉ X)) ↔
      ∀ x ∈ X, h.parent x ≠ none → X.count x = 1 := by
  constructor
  · rintro ⟨h', he, hk⟩ x hx hp
    obtain ⟨p, hp⟩ := Option.ne_none_iff_exists'.1 hp
    obtain ⟨hD, hi⟩ := hX x hx p hp
    refine count_of_takes ok hX hx hp (hk p hD) (takes_count (step := Heap.removeText) (run := textsRemove) (fun h1 => removeText_takesOne h1) (fun _ => rfl) ?_ p X he ?_)
    · intro h x xs; rw [textsRemove]; rfl
    · intro hn; simp [Heap.kids, hn] at hi
  · intro hc
    obtain ⟨h', h1, h2, -⟩ := C53_remove_partial ok (X.filter fun x => (h.parent x).isSome) (fun x hx => hX x (List.mem_filter.1 hx).1)
      (nodup_of_counts hc)
    exact ⟨h', (textsRemove_filter X fun _ => rfl).trans h1, fun q hq => by rw [h2 q hq, filter_kids_parent ok hq]⟩

/-- C34: what a second removal does. The next sibling disappears; without a next sibling the call panics. -/
theorem C34_twice {h : Heap} {D : Nat → Prop} (ok : HeapOk h D) {x p : Nat} {A B : List Nat} (hp : h.parent x = some p) (hD : ¬ D p)
    (hk : h.kids p = A ++ x :: B) :
    (∀ y B', B = y :: B' → ∃ h', removeAll h [x, x] = .ok h' ∧ h'.kids p = A ++ B' ∧ ∀ q, q ≠ p → h'.kids q = h.kids q) ∧
    (B = [] → removeAll h [x, x] = .error (if A = [] then .overflow else .outOfBounds)) := by
  have hi : (h.kids p)[A.length]? = some x := by rw [hk]; simp
  have hidx : h.index x = A.length := (ok.link p _ x hD hi).2
  have hx : Attached h D x := by
    intro q hq
    rw [hp] at hq; cases hq
    exact ⟨hD, by rw [hidx]; exact hi⟩
  obtain ⟨h1, he, s⟩ := detach_spliced ok hp hx
  have hpar : h1.parent x = some p := by rw [s.parent]; simpa using hp
  have hnd := ok.kids_nodup hD
  rw [hk] at hnd
  have hxA : x ∉ A := fun h2 => (List.nodup_append.1 hnd).2.2 x h2 x (by simp) rfl
  have hxB : x ∉ B := (List.nodup_cons.1 (List.nodup_append.1 hnd).2.1).1
  have hk1 : h1.kids p = A ++ B := by rw [s.new, hidx, hk]; simp
  have hx1 : h1.index x = A.length := by
    rw [s.indexOther x, hidx]
    rw [hidx, hk]
    simp [hxA, hxB]
  have hpx : p ≠ x := by
    rintro rfl
    exact (ok.ground.isIrrefl).irrefl _ hp
  have hpk : p ∉ h.kids p := fun hm => (ok.ground.isIrrefl).irrefl _ (ok.kid_parent hD hm)
  have hpB : p ∉ B := fun hm => hpk (by rw [hk]; simp [hm])
  have hc1 : (h1.node p).childs = some (A ++ B) := by
    have := (detach_takesOne he).list p (by intro hn; simp [Heap.kids, hn] at hi)
    cases hc : (h1.node p).childs with
    | none => exact absurd hc this
    | some cs => rw [← hk1]; simp [Heap.kids, hc]
  have h2 : removeAll h [x, x] = h1.removeChild p x := by
    rw [removeAll, he]
    simp only [removeAll, Heap.detach, hpar]
    cases h1.removeChild p x <;> rfl
  rw [h2]
  unfold Heap.removeChild
  rw [if_pos hpar, hc1]
  simp only [hx1]
  constructor
  · rintro y B' rfl
    have hd : (A ++ y :: B').drop (A.length + 1) = B' := by simp [List.drop_append]
    have hpB' : p ∉ B' := fun hm => hpB (List.mem_cons_of_mem _ hm)
    have her : (A ++ y :: B').eraseIdx A.length = A ++ B' := by
      rw [List.eraseIdx_append_of_length_le (Nat.le_refl _)]; simp
    rw [hd, her, if_neg (by simp [hpx, hpB']), if_neg (by simp)]
    split
    · refine ⟨_, rfl, by simp [setChilds_kids], fun q hq => ?_⟩
      rw [setChilds_kids, if_neg hq, s.other q hq]
    · rw [if_neg (by simp)]
      refine ⟨_, rfl, by simp [setChilds_kids], fun q hq => ?_⟩
      rw [setChilds_kids, if_neg hq, ← s.other q hq]
      simp only [Heap.kids, (resetIndex_fields B' h1 A.length).2.1 q]
  · rintro rfl
    have hd : (A ++ ([] : List Nat)).drop (A.length + 1) = [] := by simp
    rw [hd, if_neg (by simp [hpx])]
    by_cases hA : A = []
    · subst hA; simp
    · have : 0 < A.length := List.length_pos_iff.2 hA
      rw [if_neg (by simp [hA]), if_neg (by simp; omega), if_pos (by simp)]
      simp [hA]

/-- The text (4) and the element (2) of the sample; and the element twice, of which the next sibling is the text. -/
example : (∃ h', removeAll demo2 [4, 2] = .ok h' ∧ ∀ q, ¬ noneUsed q → h'.kids q = (demo2.kids q).filter (· ∉ [4, 2])) ∧
    ¬ (∃ h', removeAll demo2 [2, 2] = .ok h' ∧ ∀ q, ¬ noneUsed q → h'.kids q = (demo2.kids q).filter (· ∉ [2, 2])) ∧
    ∃ h', removeAll demo2 [2, 2] = .ok h' ∧ h'.kids 1 = [] ++ [5] := by
  have ha : ∀ x ∈ [4, 2], Attached demo2 noneUsed x := by
    intro x hx p hp
    simp only [List.mem_cons, List.not_mem_nil, or_false] at hx
    rcases hx with rfl | rfl <;> cases hp <;> exact ⟨id, by decide⟩
  refine ⟨(C34_remove_exact_partial demo2_ok [4, 2] ha).2 (by decide), fun h1 => ?_, ?_⟩
  · exact absurd ((C34_remove_exact_partial demo2_ok [2, 2] (by simpa using ha 2 (by simp))).1 h1) (by decide)
  · obtain ⟨h', h1, h2, -⟩ := (C34_twice demo2_ok (x := 2) (p := 1) (A := []) (B := [4, 5]) rfl id (by decide)).1 4 [5] rfl
    exact ⟨h', h1, h2⟩

end Visdom
