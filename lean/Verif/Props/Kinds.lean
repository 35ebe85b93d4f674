import Verif.Model.Kinds
import Verif.Spec.Kinds
import Verif.Props.Ident
import Verif.Props.ElemsOnly
import Verif.Props.Texts
import Verif.Props.Speech
/-!
# C88: nodes are of one kind, and conversions between handles do not fail
-/
namespace Visdom
open Spec

variable {isDoc : Heap → Nat → Bool} {h : Heap} {ct : List Char → Bool}

theorem typed_sort (x : Nat) : h.typed isDoc x =
    match sortOf (h.node x).kind with
    | .element => .element x
    | .text => .text x
    | .neither => .uncare x := by
  unfold Heap.typed Heap.nodeType
  cases (h.node x).kind <;> simp only [sortOf]
  cases isDoc h x <;> rfl

/-- C88: `typed` gives a handle of the same node: that of an element for elements and roots, that of a text for texts, and neither for the other nodes. -/
theorem C88_typed (x : Nat) :
    ((h.typed isDoc x).intoElement = some x ↔ (h.node x).kind = .tag ∨ (h.node x).kind = .root) ∧
    ((h.typed isDoc x).intoText = some x ↔ (h.node x).kind = .text ∨ (h.node x).kind = .spaces) ∧
    (∀ y, (h.typed isDoc x).intoElement = some y → y = x) ∧ (∀ y, (h.typed isDoc x).intoText = some y → y = x) ∧
    ((h.typed isDoc x).intoElement = none ∨ (h.typed isDoc x).intoText = none) := by
  rw [typed_sort]
  cases (h.node x).kind <;> simp [sortOf, Typed.intoElement, Typed.intoText, eq_comm]

/-- C88: `node_type` tells the kinds apart: an element is no text, a text no comment, and only the root of a tree is a document or a fragment. -/
theorem C88_node_type (x : Nat) :
    (h.nodeType isDoc x = .element ↔ (h.node x).kind = .tag) ∧
    (h.nodeType isDoc x = .text ↔ (h.node x).kind = .text ∨ (h.node x).kind = .spaces) ∧
    (h.nodeType isDoc x = .comment ↔ (h.node x).kind = .comment) ∧
    (h.nodeType isDoc x = .document ↔ (h.node x).kind = .root ∧ isDoc h x = true) ∧
    (h.nodeType isDoc x = .fragment ↔ (h.node x).kind = .root ∧ isDoc h x = false) := by
  unfold Heap.nodeType
  cases (h.node x).kind <;> cases isDoc h x <;> simp

/-- C88: another handle of an element or root can always be had, and is one of the same node; of other nodes `cloned` would panic. -/
theorem C88_cloned (x : Nat) :
    (h.cloned isDoc x = .ok x ↔ (h.node x).kind = .tag ∨ (h.node x).kind = .root) ∧
    ((h.node x).kind ≠ .tag → (h.node x).kind ≠ .root → h.cloned isDoc x = .error .unwrapNone) := by
  unfold Heap.cloned
  rw [typed_sort]
  cases (h.node x).kind <;> simp [sortOf, Typed.intoElement]

/-- C88: no program that asks questions with selectors ever holds a set with an element that cannot be cloned. -/
theorem C88_program {T : Nat → Prop} {env : Env} {own : Nat → Bool} (hwf : ∀ r, T r → TreeWF h r) (hf : IdsFound h T env) {S : List Nat → Prop}
    (hS : ∀ X, S X → Elements h T X) {Y : List Nat} (hY : Obtained h env own S Y) : ∀ y ∈ Y, h.cloned isDoc y = .ok y :=
  fun y hy => (C88_cloned y).1.2 (.inl (C84_program hwf hf hS hY y hy).2)

/-- C88: the parent of a node that is in its place is an element or a root, so that a handle of it can be had. -/
theorem C88_parent {D : Nat → Prop} (ok : HeapOk h D) {x p : Nat} (hx : Attached h D x) (hp : h.parent x = some p) : h.cloned isDoc p = .ok p := by
  refine (C88_cloned p).1.2 ?_
  by_contra hc
  rw [not_or] at hc
  have h1 := (hx p hp).2
  rw [ok.leaf p hc.2 hc.1] at h1
  cases h1

/-- C88: what a node is does not change by any calls, also when something was copied: neither `node_type` nor `typed` of an old node gives anything else.
`is_document` of a root may change with its children. -/
theorem C88_kept {w : World} (ok : w.Adds) {h h' : Heap} {cs : List Call} (hr : callAll w h cs = .ok h') {z : Nat} (hz : z < h.size) :
    h'.typed isDoc z = h.typed isDoc z ∧ ((h.node z).kind ≠ .root → h'.nodeType isDoc z = h.nodeType isDoc z) ∧
      ((h.node z).kind = .root → h'.nodeType isDoc z = .document ∨ h'.nodeType isDoc z = .fragment) := by
  have hk := (C69_identity ok hr hz).2.1
  refine ⟨by rw [typed_sort, typed_sort, hk], fun hn => ?_, fun hn => ?_⟩
  · unfold Heap.nodeType
    rw [hk]
    revert hn
    cases (h.node z).kind <;> simp
  · unfold Heap.nodeType
    rw [hk, hn]
    cases isDoc h' z <;> simp

/-- C88: a copy is of the same kind, so copying an element or a root gives the handle of an element. -/
theorem C88_copied {w : World} (ok : w.Ok) {x : Nat} (hf : FiniteTree h x) (hk : (h.node x).kind = .tag ∨ (h.node x).kind = .root) :
    h.copied isDoc w.copy x = .ok ((w.copy h x).1, (w.copy h x).2) := by
  have hs : ((w.copy h x).1.node (w.copy h x).2).kind = (h.node x).kind :=
    (ok.same h x hf 1).1
  unfold Heap.copied
  rw [typed_sort, hs]
  rcases hk with hk | hk <;> simp [hk, sortOf, Typed.intoElement]

theorem childNodesLoop_ok (x : Nat) : ∀ is : List Nat, (∀ i ∈ is, i < (h.kids x).length) → h.childNodesLoop x is = .ok (is.filterMap ((h.kids x)[·]?)) := by
  intro is
  induction is with
  | nil => intro _; rfl
  | cons i is ih =>
    intro hi
    have h1 := hi i (by simp)
    simp only [Heap.childNodesLoop, Heap.childItem, List.getElem?_eq_getElem h1, ih fun j hj => hi j (by simp [hj]), List.filterMap_cons, Except.map]

theorem filterMap_itemRange' {α : Type _} (l : List α) (a n : Nat) : (List.range' a n).filterMap (l[·]?) = (l.drop a).take n := by
  induction n generalizing a with
  | zero => simp
  | succ n ih =>
    rw [List.range'_succ, List.filterMap_cons, ih]
    rcases Nat.lt_or_ge a l.length with ha | ha
    · rw [List.getElem?_eq_getElem ha, List.drop_eq_getElem_cons ha, List.take_succ_cons]
    · rw [List.getElem?_eq_none ha, List.drop_eq_nil_of_le (by omega), List.drop_eq_nil_of_le ha]; simp

theorem filterMap_itemRange {α : Type _} (l : List α) (n : Nat) : (List.range n).filterMap (l[·]?) = l.take n := by
  rw [List.range_eq_range', filterMap_itemRange', List.drop_zero]

/-- C88: `child_nodes` lists the children in order, and never panics. -/
theorem C88_child_nodes (x : Nat) : h.childNodes x = .ok (h.kids x) := by
  unfold Heap.childNodes Heap.childLen
  rw [childNodesLoop_ok x _ (fun i hi => List.mem_range.1 hi), filterMap_itemRange, List.take_length]

theorem elem_conv (c : Nat) : (h.nodeType isDoc c = .element ↔ h.isElem c = true) ∧ (h.isElem c = true → (h.typed isDoc c).intoElement = some c) := by
  refine ⟨by rw [(C88_node_type c).1]; simp [Heap.isElem], fun hc => (C88_typed c).1.2 (.inl (by simpa [Heap.isElem] using hc))⟩

theorem elemsAt_ok (p : Nat) : ∀ is : List Nat, (∀ i ∈ is, i < (h.kids p).length) →
    h.elemsAt isDoc p is = .ok ((is.filterMap ((h.kids p)[·]?)).filter h.isElem) := by
  intro is
  induction is with
  | nil => intro _; rfl
  | cons i is ih =>
    intro hi
    have h1 := hi i (by simp)
    simp only [Heap.elemsAt, Heap.childItem, List.getElem?_eq_getElem h1, ih fun j hj => hi j (by simp [hj]), List.filterMap_cons]
    by_cases hc : h.isElem (h.kids p)[i] = true
    · rw [if_pos ((elem_conv _).1.2 hc), (elem_conv _).2 hc, List.filter_cons_of_pos hc]; rfl
    · rw [if_neg fun h2 => hc ((elem_conv _).1.1 h2), List.filter_cons_of_neg hc]

theorem firstAt_ok (p : Nat) : ∀ is : List Nat, (∀ i ∈ is, i < (h.kids p).length) →
    h.firstAt isDoc p is = .ok ((is.filterMap ((h.kids p)[·]?)).find? h.isElem) := by
  intro is
  induction is with
  | nil => intro _; rfl
  | cons i is ih =>
    intro hi
    have h1 := hi i (by simp)
    simp only [Heap.firstAt, Heap.childItem, List.getElem?_eq_getElem h1, ih fun j hj => hi j (by simp [hj]), List.filterMap_cons]
    by_cases hc : h.isElem (h.kids p)[i] = true
    · rw [if_pos ((elem_conv _).1.2 hc), (elem_conv _).2 hc, List.find?_cons_of_pos hc]
    · rw [if_neg fun h2 => hc ((elem_conv _).1.1 h2), List.find?_cons_of_neg hc]

theorem elemsAt_bad (p n : Nat) (hn : (h.kids p).length < n) : h.elemsAt isDoc p (List.range n) = .error .unwrapNone := by
  have key : ∀ is js : List Nat, (∀ i ∈ is, i < (h.kids p).length) → h.elemsAt isDoc p (is ++ (h.kids p).length :: js) = .error .unwrapNone := by
    intro is js
    induction is with
    | nil => intro _; simp [Heap.elemsAt, Heap.childItem]
    | cons i is ih =>
      intro hi
      have h1 := hi i (by simp)
      simp only [List.cons_append, Heap.elemsAt, Heap.childItem, List.getElem?_eq_getElem h1, ih fun j hj => hi j (by simp [hj])]
      by_cases hc : h.isElem (h.kids p)[i] = true
      · rw [if_pos ((elem_conv _).1.2 hc), (elem_conv _).2 hc]; rfl
      · rw [if_neg fun h2 => hc ((elem_conv _).1.1 h2)]
  obtain ⟨k, rfl⟩ : ∃ k, n = (h.kids p).length + (k + 1) := ⟨n - (h.kids p).length - 1, by omega⟩
  rw [List.range_add, List.range_succ_eq_map, List.map_cons]
  exact key _ _ fun i hi => List.mem_range.1 hi

/-- C88: the loops over the child nodes, with all their conversions, compute what the rest of the model takes them to compute, on every state: the
elements among the children before, behind, or on either side, and they panic exactly on positions that are not right. -/
theorem C88_loops (x : Nat) :
    h.childrenWalk isDoc x = .ok (h.children x) ∧ h.nextElemWalk isDoc x = .ok (h.nextElem x) ∧ h.nextElemsWalk isDoc x = h.nextElems x ∧
    h.prevElemWalk isDoc x = h.prevElem x ∧ h.prevElemsWalk isDoc x = h.prevElems x ∧ h.siblingsWalk isDoc x = h.siblings x := by
  have hnext : h.nextElemsWalk isDoc x = h.nextElems x := by
    unfold Heap.nextElemsWalk Heap.nextElems Heap.childLen
    cases hp : h.parent x with
    | none => rfl
    | some p =>
      dsimp only
      split
      · rfl
      · rename_i hlt
        rw [elemsAt_ok p _ (fun i hi => by rw [List.mem_range'_1] at hi; omega), filterMap_itemRange', List.take_of_length_le (by simp)]
  have hprev : h.prevElemsWalk isDoc x = h.prevElems x := by
    unfold Heap.prevElemsWalk Heap.prevElems
    cases hp : h.parent x with
    | none => rfl
    | some p =>
      dsimp only
      split
      · rename_i h0
        split
        · rename_i h1; exact elemsAt_bad p _ h1
        · rename_i h1
          rw [elemsAt_ok p _ (fun i hi => by rw [List.mem_range] at hi; omega), filterMap_itemRange]
      · rename_i h0
        have : h.index x = 0 := by omega
        rw [this]; simp
  refine ⟨?_, ?_, hnext, ?_, hprev, ?_⟩
  · unfold Heap.childrenWalk Heap.childLen Heap.children
    rw [elemsAt_ok x _ (fun i hi => List.mem_range.1 hi), filterMap_itemRange, List.take_length]
  · unfold Heap.nextElemWalk Heap.nextElem Heap.childLen
    cases hp : h.parent x with
    | none => rfl
    | some p =>
      dsimp only
      rw [firstAt_ok p _ (fun i hi => by rw [List.mem_range'_1] at hi; omega), filterMap_itemRange', List.take_of_length_le (by simp)]
  · unfold Heap.prevElemWalk Heap.prevElem
    cases hp : h.parent x with
    | none => rfl
    | some p =>
      dsimp only
      split
      · rename_i h0
        split
        · rename_i h1
          obtain ⟨k, hk⟩ : ∃ k, h.index x = k + 1 := ⟨h.index x - 1, by omega⟩
          rw [hk, List.range_succ, List.reverse_append]
          simp only [List.reverse_cons, List.reverse_nil, List.nil_append, List.cons_append, Heap.firstAt, Heap.childItem]
          rw [List.getElem?_eq_none (by omega)]
        · rename_i h1
          rw [firstAt_ok p _ (fun i hi => by rw [List.mem_reverse, List.mem_range] at hi; omega), List.filterMap_reverse, filterMap_itemRange]
      · rename_i h0
        have : h.index x = 0 := by omega
        rw [this]; simp
  · have hl : ∀ p, h.childLen p = (h.kids p).length := fun _ => rfl
    unfold Heap.siblingsWalk Heap.siblings
    simp only [hl]
    cases hp : h.parent x with
    | none => rfl
    | some p =>
      dsimp only
      rw [hnext, hprev]
      by_cases h0 : h.index x = 0
      · rw [if_pos h0, if_pos h0]
      rw [if_neg h0, if_neg h0]
      by_cases h1 : (h.kids p).length = 0
      · rw [if_pos h1, if_pos h1]
      rw [if_neg h1, if_neg h1]
      by_cases h2 : h.index x = (h.kids p).length - 1
      · rw [if_pos h2, if_pos h2]
      rw [if_neg h2, if_neg h2]
      by_cases h3 : (h.kids p).length < h.index x
      · rw [if_pos h3, elemsAt_bad p _ h3]
      · rw [if_neg h3, elemsAt_ok p _ (fun i hi => by rw [List.mem_range] at hi; omega)]
        dsimp only
        rw [elemsAt_ok p _ (fun i hi => by rw [List.mem_range'_1] at hi; omega)]
        simp only [filterMap_itemRange, filterMap_itemRange']
        rw [List.take_of_length_le (l := List.drop _ _) (by simp)]

theorem mem_drop_elem {p k y : Nat} : y ∈ ((h.kids p).drop k).filter h.isElem ↔ ∃ i, k ≤ i ∧ ElemAt h p i y := by
  rw [List.mem_filter, List.mem_iff_getElem?]
  constructor
  · rintro ⟨⟨i, hi⟩, he⟩
    rw [List.getElem?_drop] at hi
    exact ⟨k + i, by omega, hi, by simpa [Heap.isElem] using he⟩
  · rintro ⟨i, hk, hi, he⟩
    exact ⟨⟨i - k, by rw [List.getElem?_drop, show k + (i - k) = i by omega, hi]⟩, by simp [Heap.isElem, he]⟩

theorem mem_take_elem {p k y : Nat} : y ∈ ((h.kids p).take k).filter h.isElem ↔ ∃ i, i < k ∧ ElemAt h p i y := by
  rw [List.mem_filter, List.mem_iff_getElem?]
  constructor
  · rintro ⟨⟨i, hi⟩, he⟩
    rw [List.getElem?_take] at hi
    split at hi
    · exact ⟨i, ‹_›, hi, by simpa [Heap.isElem] using he⟩
    · cases hi
  · rintro ⟨i, hk, hi, he⟩
    exact ⟨⟨i, by rw [List.getElem?_take, if_pos hk, hi]⟩, by simp [Heap.isElem, he]⟩

/-- C88: what the loops of `children`, `next_element_siblings`, `previous_element_siblings` and `siblings` find, by positions: the element children, those behind
the own position, those before it, and those at any other position. -/
theorem C88_positions {x p : Nat} {l : List Nat} (hp : h.parent x = some p) :
    (h.childrenWalk isDoc x = .ok l → ∀ y, y ∈ l ↔ ∃ i, ElemAt h x i y) ∧
    (h.nextElemsWalk isDoc x = .ok l → ∀ y, y ∈ l ↔ ∃ i, h.index x < i ∧ ElemAt h p i y) ∧
    (h.prevElemsWalk isDoc x = .ok l → ∀ y, y ∈ l ↔ ∃ i, i < h.index x ∧ ElemAt h p i y) ∧
    (h.siblingsWalk isDoc x = .ok l → ∀ y, y ∈ l ↔ ∃ i, i ≠ h.index x ∧ ElemAt h p i y) := by
  obtain ⟨h1, -, h2, -, h3, h4⟩ := C88_loops (isDoc := isDoc) (h := h) x
  have hlen : ∀ {i y}, ElemAt h p i y → i < (h.kids p).length := fun hi => (List.getElem?_eq_some_iff.1 hi.1).1
  have n : h.nextElems x = .ok l → ∀ y, y ∈ l ↔ ∃ i, h.index x < i ∧ ElemAt h p i y := fun hl y => by
    unfold Heap.nextElems at hl
    rw [hp] at hl
    dsimp only at hl
    split at hl
    · cases hl
    · cases hl; exact mem_drop_elem
  have v : h.prevElems x = .ok l → ∀ y, y ∈ l ↔ ∃ i, i < h.index x ∧ ElemAt h p i y := fun hl y => by
    unfold Heap.prevElems at hl
    rw [hp] at hl
    dsimp only at hl
    split at hl
    · cases hl
    · cases hl; exact mem_take_elem
  refine ⟨fun hl y => ?_, by rwa [h2], by rwa [h3], fun hl y => ?_⟩
  · rw [h1] at hl
    cases hl
    have := mem_drop_elem (h := h) (p := x) (k := 0) (y := y)
    simpa [Heap.children] using this
  · rw [h4] at hl
    unfold Heap.siblings at hl
    rw [hp] at hl
    dsimp only at hl
    split at hl
    · rename_i h0
      rw [n hl, h0]
      exact exists_congr fun i => and_congr_left fun _ => Nat.pos_iff_ne_zero
    · split at hl
      · cases hl
      · split at hl
        · rename_i h0
          rw [v hl]
          exact exists_congr fun i => and_congr_left fun hi => by have := hlen hi; omega
        · split at hl
          · cases hl
          · cases hl
            rw [List.mem_append, mem_drop_elem, mem_take_elem, ← exists_or]
            exact exists_congr fun i => by
              rw [← or_and_right]
              exact and_congr_left fun _ => by omega

/-- C88: the collecting of texts converts every text and every content tag into the handle of a text, and none of the conversions fails. -/
theorem C88_texts (limit : Option Nat) (handle : Nat → Nat → Bool) (recH : Nat → Bool) :
    ∀ k d x, textsWalk isDoc h ct limit handle recH k d x = textsLoop h ct limit handle recH k d x := by
  intro k
  induction k with
  | zero => intro d x; rfl
  | succ k ih =>
    intro d x
    simp only [textsWalk, textsLoop, C88_child_nodes]
    split
    · by_cases hc : ct (h.tagNames x) = true <;> simp [Heap.intoTextElem, hc]
    · congr 1
      funext c
      rw [typed_sort]
      unfold Heap.nodeType Heap.isText Heap.isElem
      cases hk : (h.node c).kind <;> simp [sortOf, Typed.intoElement, Typed.intoText, Heap.intoTextElem]
      · cases isDoc h c <;> rfl
      · by_cases hc : ct (h.tagNames c) = true <;> simp [hc, ih]

/-- C88: `Texts::filter_by` converts what it keeps by its kind, which fails for a content tag: as the model of C52 has it. -/
theorem C88_filter_by (handle : Nat → Nat → Bool) : ∀ (l : List Nat) (i : Nat), textsFilterWalk isDoc h handle i l = textsFilterLoop h handle i l := by
  intro l
  induction l with
  | nil => intro i; rfl
  | cons x l ih =>
    intro i
    simp only [textsFilterWalk, textsFilterLoop, ih]
    rw [typed_sort]
    unfold Heap.isText
    cases (h.node x).kind <;> simp [sortOf, Typed.intoText]

/-! ### Examples -/

set_option maxRecDepth 100000 in
/-- A text, an element, a comment and a content tag below an element: what they are, the loops over them, and the collected texts, the content tag among them. -/
example : talk.typed ext0.isDoc 2 = .text 2 ∧ talk.typed ext0.isDoc 3 = .element 3 ∧ talk.typed ext0.isDoc 5 = .uncare 5 ∧ talk.typed ext0.isDoc 0 = .element 0 ∧
    talk.childrenWalk ext0.isDoc 1 = .ok [3, 6] ∧ talk.siblingsWalk ext0.isDoc 3 = .ok [6] ∧ talk.nextElemWalk ext0.isDoc 3 = .ok (some 6) ∧
    textsWalk ext0.isDoc talk extT.contentTag none (fun _ _ => true) (fun _ => true) talk.fuel 0 1 = .ok [2, 4, 6] := by decide

example : talk.cloned ext0.isDoc 1 = .ok 1 := C88_parent talk_ok (x := 3) (noneUsed_eq ▸ attachedB_sound (by decide)) (by decide)

example : talk.copied ext0.isDoc world0.copy 1 = .ok ((world0.copy talk 1).1, (world0.copy talk 1).2) :=
  C88_copied world0_ok (heapOk_finite_of talk_ok (by decide) (tag_live talk_ok (by decide))) (.inl (by decide))

example : ∀ y ∈ [1], demo.cloned ext0.isDoc y = .ok y := C88_program (env := env6) (own := fun _ => true) (T := (· = 0)) (by rintro r rfl; exact demo_wf) demo_ids
  (S := fun X => ∃ t k, findText demo env6 (fun _ => true) [0] t = .ok (X, k))
  (fun X ⟨t, k, hX⟩ => C84_elements (by rintro r rfl; exact demo_wf) demo_ids (fun x hx => by rw [List.mem_singleton.1 hx]; exact ⟨0, rfl, .self⟩) t [] false (.inl hX))
  (.pick (X := [5]) (t := ":first-child".toList) (k := 0) (.look (X := [6]) (t := []) (u := []) (b := false) (k := 0)
    (.given ⟨"#x".toList, 0, by decide⟩) (.inr (.inr (.inr (.inr (.inr (.inr (.inl (by decide)))))))))
    (.inr (.inl (by decide))))

set_option maxRecDepth 100000 in
example : farAfter.typed ext0.isDoc 13 = demo2.typed ext0.isDoc 13 := (C88_kept world0_ok.adds farRun (by decide)).1

/-- C88 (disagreement): a content tag in a set of texts is the handle of a text, but by its kind it is an element: converting it by its kind, as `filter_by`
does, panics. -/
theorem C88_fails_content : textsOf talk extT.contentTag 0 1 = .ok [2, 4, 6] ∧ (talk.typed ext0.isDoc 6).intoText = none ∧
    textsFilterWalk ext0.isDoc talk (fun _ _ => true) 0 [2, 4, 6] = .error .unwrapNone := by decide

end Visdom
