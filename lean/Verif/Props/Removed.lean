import Verif.Props.RemoveExact
import Verif.Props.Siblings
import Verif.Props.BackHtml
/-!
# C92: the parent and the siblings of an element that has been removed
-/
namespace Visdom
open Spec

section
variable {h : Heap} {D : Nat → Prop}

/-- C92 fails for every element, and this is what happens instead: a removed element keeps its parent; its previous siblings are the elements that stood before it; its next
siblings are those that stood behind it without the next node, which has moved up to its position, and if nothing stood behind it, the call panics; the siblings are the previous
and the next ones, except that there is no panic if a node stood before it. -/
theorem C92_removed (ok : HeapOk h D) {x p : Nat} {A B : List Nat} (hp : h.parent x = some p) (hD : ¬ D p) (hk : h.kids p = A ++ x :: B) :
    ∃ h1, removeAll h [x] = .ok h1 ∧ h1.kids p = A ++ B ∧ h1.parent x = some p ∧
      h1.prevElems x = .ok (A.filter h.isElem) ∧ h1.prevElem x = .ok (A.filter h.isElem).getLast? ∧
      h1.nextElem x = (B.tail.filter h.isElem).head? ∧
      h1.nextElems x = (if B = [] then .error .overflow else .ok (B.tail.filter h.isElem)) ∧
      h1.siblings x = (if A = [] ∧ B = [] then .error .overflow else .ok (A.filter h.isElem ++ B.tail.filter h.isElem)) := by
  have hi : (h.kids p)[A.length]? = some x := by rw [hk]; simp
  have hidx : h.index x = A.length := (ok.link p _ x hD hi).2
  have hx : Attached h D x := by
    intro q hq
    rw [hp] at hq; cases hq
    exact ⟨hD, by rw [hidx]; exact hi⟩
  obtain ⟨h1, he, s⟩ := detach_spliced ok hp hx
  have hpar : h1.parent x = some p := by rw [s.parent]; simpa using hp
  have hnd := ok.kids_nodup hD
  rw [hk] at hnd
  have hxA : x ∉ A := fun h2 => (List.nodup_append.1 hnd).2.2 x h2 x (by simp) rfl
  have hxB : x ∉ B := (List.nodup_cons.1 (List.nodup_append.1 hnd).2.1).1
  have hk1 : h1.kids p = A ++ B := by rw [s.new, hidx, hk]; simp
  have hx1 : h1.index x = A.length := by
    rw [s.indexOther x, hidx]
    rw [hidx, hk]
    simp [hxA, hxB]
  have hel : h1.isElem = h.isElem := by
    funext y; unfold Heap.isElem; rw [(s.data y).1]
  have htake : (A ++ B).take A.length = A := by simp
  have hdrop : (A ++ B).drop (A.length + 1) = B.tail := by
    rw [List.drop_append, List.drop_eq_nil_of_le (by omega)]
    simp
  have hprev : h1.prevElems x = .ok (A.filter h.isElem) := by
    simp only [Heap.prevElems, hpar, hk1, hx1, hel, htake]
    rw [if_neg (by simp)]
  have hnext : h1.nextElems x = (if B = [] then .error .overflow else .ok (B.tail.filter h.isElem)) := by
    simp only [Heap.nextElems, hpar, hk1, hx1, hel, hdrop]
    cases B with
    | nil => simp
    | cons b B => rw [if_neg (by simp), if_neg (by simp)]
  refine ⟨h1, by simp only [removeAll, he], hk1, hpar, hprev, ?_, ?_, hnext, ?_⟩
  · simp only [Heap.prevElem, hpar, hk1, hx1, hel, htake]
    rw [if_neg (by simp), ← List.head?_filter, List.filter_reverse, List.head?_reverse]
  · simp only [Heap.nextElem, hpar, hk1, hx1, hel, hdrop]
    rw [← List.head?_filter]
  · simp only [Heap.siblings, hpar, hk1, hx1, hel, htake, hdrop, hprev, hnext]
    cases A with
    | nil => cases B <;> simp
    | cons a A =>
      rw [if_neg (by simp), if_neg (by simp), if_neg (c := a :: A = [] ∧ B = []) (by simp)]
      split
      · rename_i h2
        have : B.tail = [] := by
          cases B with
          | nil => rfl
          | cons b B =>
            simp only [List.length_cons, List.length_append] at h2
            have : B.length = 0 := by omega
            exact List.length_eq_zero_iff.1 this
        rw [this]; simp
      · rw [if_neg (by simp)]

/-- C92, the part that holds: in the removed element everything is as before, the lists of children, the parents and the siblings. -/
theorem C92_inside_partial (ok : HeapOk h D) {x p : Nat} {A B : List Nat} (hp : h.parent x = some p) (hD : ¬ D p) (hk : h.kids p = A ++ x :: B) :
    ∃ h1, removeAll h [x] = .ok h1 ∧ (∀ y, Within h x y → h1.kids y = h.kids y ∧ h1.node y = { h.node y with index := (h1.node y).index }) ∧
      ∀ y, Below h x y → h1.parent y = h.parent y ∧ h1.prevElems y = h.prevElems y ∧ h1.nextElems y = h.nextElems y ∧ h1.siblings y = h.siblings y ∧
        h1.prevElem y = h.prevElem y ∧ h1.nextElem y = h.nextElem y := by
  have hi : (h.kids p)[A.length]? = some x := by rw [hk]; simp
  have hidx : h.index x = A.length := (ok.link p _ x hD hi).2
  have hx : Attached h D x := by
    intro q hq
    rw [hp] at hq; cases hq
    exact ⟨hD, by rw [hidx]; exact hi⟩
  have hDx : ¬ D x := fun hd => ok.kid _ _ hD (show x ∈ h.kids p by rw [hk]; simp) (ok.dead _ hd).1
  obtain ⟨h1, he, s⟩ := detach_spliced ok hp hx
  have hne : ∀ y, Within h x y → y ≠ p := by
    rintro y hy rfl
    exact not_within_parent ok hD (show x ∈ h.kids y by rw [hk]; simp) hy
  have hpar : ∀ y, h1.parent y = h.parent y := fun y => by rw [s.parent]; simp
  have hel : h1.isElem = h.isElem := by
    funext y; unfold Heap.isElem; rw [(s.data y).1]
  refine ⟨h1, by simp only [removeAll, he], fun y hy => ⟨s.other y (hne y hy), ?_⟩, fun y hy => ?_⟩
  · have h2 : (h1.node y).childs = (h.node y).childs := by
      have h3 := s.other y (hne y hy)
      have h4 := detach_childs he y
      unfold Heap.kids at h3
      cases hc : (h.node y).childs <;> cases hc1 : (h1.node y).childs <;> simp [hc, hc1] at h3 h4 ⊢
      exact h3
    have h3 := s.data y
    have h4 := hpar y
    unfold Heap.parent at h4
    show h1.node y = ⟨(h.node y).kind, (h.node y).name, (h.node y).attrs, (h.node y).content, (h.node y).childs, (h.node y).parent, (h1.node y).index, (h.node y).root⟩
    rw [← h3.1, ← h3.2.1, ← h3.2.2.1, ← h3.2.2.2.1, ← h3.2.2.2.2, ← h4, ← h2]
  · obtain ⟨c, hc, hcy⟩ := hy
    obtain ⟨q, hq, hyq⟩ : ∃ q, Within h x q ∧ y ∈ h.kids q := by
      cases hcy with
      | self => exact ⟨x, .self, hc⟩
      | step h2 h3 => exact ⟨_, h2.head hc, h3⟩
    have hqD := within_live ok hDx hq
    have hpy := ok.kid_parent hqD hyq
    have hyp : y ∉ h.kids p := fun h2 => hne q hq (ok.kid_unique hqD hD hyq h2)
    have hiy : h1.index y = h.index y := by
      refine s.indexOther y ?_
      intro h2
      refine hyp ?_
      simp only [List.mem_append, List.not_mem_nil, or_false] at h2
      rcases h2 with h2 | h2
      · exact List.mem_of_mem_take h2
      · exact List.mem_of_mem_drop h2
    have hkq := s.other q (hne q hq)
    have h2 : h1.prevElems y = h.prevElems y := by simp only [Heap.prevElems, hpar, hpy, hkq, hiy, hel]
    have h3 : h1.nextElems y = h.nextElems y := by simp only [Heap.nextElems, hpar, hpy, hkq, hiy, hel]
    refine ⟨hpar y, h2, h3, ?_, ?_, ?_⟩
    · simp only [Heap.siblings, hpar, hpy, hkq, hiy, hel, h2, h3]
    · simp only [Heap.prevElem, hpar, hpy, hkq, hiy, hel]
    · simp only [Heap.nextElem, hpar, hpy, hkq, hiy, hel]

/-- C92: the children of an emptied element still have it as parent; asking one of them for its next siblings or its siblings always panics, and so does asking for the
previous ones unless it was the first node. -/
theorem C92_emptied (ok : HeapOk h D) {e : Ext} {x c : Nat} (hx : (h.node x).kind = .tag) (hct : e.contentTag (h.tagNames x) = false) (hc : c ∈ h.kids x) :
    (emptyAll h e [x]).kids x = [] ∧ (emptyAll h e [x]).parent c = some x ∧ (emptyAll h e [x]).nextElem c = none ∧
      (emptyAll h e [x]).nextElems c = .error .overflow ∧ (emptyAll h e [x]).siblings c = .error .overflow ∧
      (emptyAll h e [x]).prevElems c = (if (h.kids x).head? = some c then .ok [] else .error .unwrapNone) := by
  have he : emptyAll h e [x] = h.setChilds x none := by
    simp only [emptyAll, setTextAll, List.foldl_cons, List.foldl_nil, Heap.setText, hx, hct]; rfl
  have hD := tag_live ok hx
  have hpc := ok.kid_parent hD hc
  have hk0 : (h.setChilds x none).kids x = [] := by rw [setChilds_kids, if_pos rfl]; rfl
  have hp0 : (h.setChilds x none).parent c = some x := by rw [setChilds_parent]; exact hpc
  obtain ⟨i, hi⟩ := List.getElem?_of_mem hc
  have hidx : h.index c = i := (ok.link x i c hD hi).2
  have hi0 : (h.setChilds x none).index c = i := by rw [setChilds_index, hidx]
  have hnext : (h.setChilds x none).nextElems c = .error .overflow := by
    simp only [Heap.nextElems, hp0, hk0]; rw [if_pos (by simp)]
  rw [he]
  refine ⟨hk0, hp0, ?_, hnext, ?_, ?_⟩
  · simp only [Heap.nextElem, hp0, hk0, List.drop_nil]; rfl
  · simp only [Heap.siblings, hp0, hk0, hi0, hnext, List.length_nil, if_true]
    split <;> rfl
  · simp only [Heap.prevElems, hp0, hk0, hi0, List.length_nil, List.take_nil, List.filter_nil]
    have hnd := ok.kids_nodup hD
    have hiff : (h.kids x).head? = some c ↔ i = 0 := by
      rw [List.head?_eq_getElem?]
      constructor
      · intro h0
        exact ((List.getElem?_inj (List.getElem?_eq_some_iff.1 hi).1 hnd).1 (hi.trans h0.symm))
      · rintro rfl; exact hi
    by_cases h0 : i = 0
    · rw [if_pos (hiff.2 h0), if_neg (by omega)]
    · rw [if_neg (fun h1 => h0 (hiff.1 h1)), if_pos (by omega)]

/-- C92: an element that has been replaced by a new one keeps its parent and all its siblings; the new one has the same. -/
theorem C92_replaced (ok : HeapOk h D) {e : Ext} {x w p : Nat} {A B : List Nat} (hD : ¬ D p) (hkp : h.kids p = A ++ x :: B)
    (hw : (h.node w).kind = .tag) (hb : w < h.size) (hpw : h.parent w = none) (hxw : x ≠ w) (hab : ¬ Above h w x) :
    ∃ h1, replaceAll e [w] h [x] = .ok (h1, [w]) ∧ x ∉ h1.kids p ∧ ∀ y, y = x ∨ y = w → h1.parent y = some p ∧
      h1.prevElems y = .ok (A.filter h.isElem) ∧ h1.nextElems y = .ok (B.filter h.isElem) ∧ h1.siblings y = .ok (A.filter h.isElem ++ B.filter h.isElem) := by
  have hk : (h.node w).kind ≠ .root := by rw [hw]; simp
  have hp := ok.kid_parent hD (show x ∈ h.kids p by rw [hkp]; simp)
  have hi : (h.kids p)[A.length]? = some x := by rw [hkp]; simp
  have hidx : h.index x = A.length := (ok.link p _ x hD hi).2
  have ht : Attached h D x := by
    intro q hq
    rw [hp] at hq; cases hq
    exact ⟨hD, by rw [hidx]; exact hi⟩
  have htake : h.takeNodes e w = .ok (h, [w]) := by
    have hf : h.isFragment e w = false := by simp [Heap.isFragment, Heap.isRoot, hk]
    simp only [Heap.takeNodes, hf, detach_none hpw]; rfl
  have hnd := ok.kids_nodup hD
  rw [hkp] at hnd
  have hfree : ∀ q, ¬ D q → w ∉ h.kids q := fun q hq => free_of_parent_none ok hpw hq
  obtain ⟨h1, t', r1, r2⟩ := replaceWith_taken htake ok ht (by simpa using hfree) (by simpa using hk) (by simpa using hb)
    (by simpa using ⟨hxw.symm, hab⟩) (by simp)
  have ht' := replaceWith_handle (fun hd : IsDoc e h w => hk hd.1) r1
  have hm : moved h w = [w] := if_neg hk
  simp only [hm] at ht'
  rw [ht'] at r1
  rcases r2 with ⟨r2, -⟩ | ⟨r2, -⟩ | ⟨p', -, r3, -, -, s⟩
  · cases r2
  · rw [hp] at r2; cases r2
  rw [hp] at r3; cases r3
  rw [hidx] at s
  have hA : (h.kids p).take A.length = A := by rw [hkp]; simp
  have hB : (h.kids p).drop (A.length + 1) = B := by rw [hkp]; simp
  rw [hA, hB] at s
  have htA : x ∉ A := fun h2 => (List.nodup_append.1 hnd).2.2 x h2 x (by simp) rfl
  have htB : x ∉ B := (List.nodup_cons.1 (List.nodup_append.1 hnd).2.1).1
  have hk1 : h1.kids p = A ++ w :: B := by rw [s.new]; simp
  have hel : h1.isElem = h.isElem := by
    funext y; unfold Heap.isElem; rw [(s.data y).1]
  refine ⟨h1, by simp [replaceAll, replaceLoop, r1], by rw [hk1]; simp [htA, htB, hxw], fun y hy => ?_⟩
  have hpy : h1.parent y = some p := by
    rcases hy with rfl | rfl
    · rw [s.parent, if_neg (by simpa using hxw), hp]
    · rw [s.parent, if_pos (by simp)]
  have hiy : h1.index y = A.length := by
    rcases hy with rfl | rfl
    · rw [s.indexOther y (by simp [htA, htB, hxw]), hidx]
    · exact s.index A.length y (by simp)
  have htk : (A ++ w :: B).take A.length = A := by simp
  have hdr : (A ++ w :: B).drop (A.length + 1) = B := by simp
  have hprev : h1.prevElems y = .ok (A.filter h.isElem) := by
    simp only [Heap.prevElems, hpy, hk1, hiy, hel, htk]; rw [if_neg (by simp)]
  have hnext : h1.nextElems y = .ok (B.filter h.isElem) := by
    simp only [Heap.nextElems, hpy, hk1, hiy, hel, hdr]; rw [if_neg (by simp)]
  refine ⟨hpy, hprev, hnext, ?_⟩
  simp only [Heap.siblings, hpy, hk1, hiy, hel, htk, hdr, hprev, hnext]
  cases A with
  | nil => simp
  | cons a A =>
    rw [if_neg (by simp), if_neg (by simp)]
    split
    · rename_i h2
      have : B = [] := by
        simp only [List.length_cons, List.length_append] at h2
        exact List.length_eq_zero_iff.1 (by omega)
      rw [this]; simp
    · rw [if_neg (by simp)]

end

/-! ### Examples -/

/-- The children of the emptied `div` of `demo`. -/
example : (emptyAll demo ext0 [1]).siblings 5 = .error .overflow ∧ (emptyAll demo ext0 [1]).prevElems 5 = .error .unwrapNone ∧
    (emptyAll demo ext0 [1]).prevElems 2 = .ok [] := by
  have a := C92_emptied (h := demo) (D := noneUsed) (e := ext0) (okCheck_sound (by decide)) (x := 1) (c := 5) (by decide) (by decide) (by decide)
  have b := C92_emptied (h := demo) (D := noneUsed) (e := ext0) (okCheck_sound (by decide)) (x := 1) (c := 2) (by decide) (by decide) (by decide)
  exact ⟨a.2.2.2.2.1, by rw [a.2.2.2.2.2]; decide, by rw [b.2.2.2.2.2]; decide⟩

/-- The `b` of `spare` and the new `u` in its place. -/
example : ∃ h1, replaceAll ext0 [5] spare [3] = .ok (h1, [5]) ∧ h1.siblings 3 = .ok [2, 4] ∧ h1.siblings 5 = .ok [2, 4] := by
  obtain ⟨h1, r1, -, r2⟩ := C92_replaced (e := ext0) spare_ok (x := 3) (w := 5) (p := 1) (A := [2]) (B := [4]) id (by decide) (by decide) (by decide) (by decide) (by decide)
    (spare_accepted (t := 3) (n := 5) (by decide)).2.2.2
  exact ⟨h1, r1, by rw [(r2 3 (.inl rfl)).2.2.2]; decide, by rw [(r2 5 (.inr rfl)).2.2.2]; decide⟩

/-- In the `div` of `demo`, after it has been removed. -/
example : ∃ h1, removeAll demo [1] = .ok h1 ∧ h1.siblings 5 = demo.siblings 5 ∧ demo.siblings 5 = .ok [2] := by
  obtain ⟨h1, r1, -, r2⟩ := C92_inside_partial (h := demo) (D := noneUsed) (okCheck_sound (by decide)) (x := 1) (p := 0) (A := []) (B := [8]) rfl id (by decide)
  exact ⟨h1, r1, (r2 5 ⟨5, by decide, .self⟩).2.2.2.1, by decide⟩

/-- `div(1)[ p(2), b(3), i(4) ]` in a document. -/
def threeHeap : Heap := heapOf [rootN [1], el "div" 0 0 [2, 3, 4], el "p" 1 0, el "b" 1 1, el "i" 1 2]

theorem three_ok : HeapOk threeHeap noneUsed := okCheck_sound (by decide)

/-- C92 does not hold: the removed `p` has a parent, its next sibling is the `i`, not the `b`; the removed `i` has no next siblings to ask for. -/
theorem C92_fails : (∃ h1, removeAll threeHeap [2] = .ok h1 ∧ 2 ∉ h1.kids 1 ∧ h1.parent 2 = some 1 ∧ h1.nextElem 2 = some 4 ∧ h1.siblings 2 = .ok [4]) ∧
    ∃ h1, removeAll threeHeap [4] = .ok h1 ∧ h1.nextElems 4 = .error .overflow ∧ h1.prevElems 4 = .ok [2, 3] ∧ h1.siblings 4 = .ok [2, 3] :=
  ⟨⟨_, rfl, by decide, by decide, by decide, by decide⟩, ⟨_, rfl, by decide, by decide, by decide⟩⟩

/-- The general theorem for the same cases. -/
example : (∃ h1, removeAll threeHeap [2] = .ok h1 ∧ h1.nextElem 2 = some 4) ∧ ∃ h1, removeAll threeHeap [3] = .ok h1 ∧ h1.siblings 3 = .ok [2] := by
  constructor
  · obtain ⟨h1, r1, -, -, -, -, r2, -⟩ := C92_removed three_ok (x := 2) (p := 1) (A := []) (B := [3, 4]) rfl id (by decide)
    exact ⟨h1, r1, by rw [r2]; decide⟩
  · obtain ⟨h1, r1, -, -, -, -, -, -, r2⟩ := C92_removed three_ok (x := 3) (p := 1) (A := [2]) (B := [4]) rfl id (by decide)
    exact ⟨h1, r1, by rw [r2]; decide⟩

end Visdom
