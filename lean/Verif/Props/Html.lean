import Verif.Props.TextContent
import Verif.Proofs.ParseSample
import Verif.Proofs.HistoryCheck
/-!
# C41: `set_html`
-/
namespace Visdom
open Spec

section
variable {h : Heap} {D : Nat → Prop} {e : Ext}

/-- After the call: the children of `t` are `N`; every other node that was there before the call has its list of children, and all old
nodes have their tag names, attributes and contents. -/
structure OnlyList (h h' : Heap) (t : Nat) (N : List Nat) : Prop where
  list : h'.kids t = N
  other : ∀ q < h.size, q ≠ t → h'.kids q = h.kids q
  data : ∀ y < h.size, (h'.node y).kind = (h.node y).kind ∧ (h'.node y).name = (h.node y).name ∧
    (h'.node y).attrs = (h.node y).attrs ∧ (h'.node y).content = (h.node y).content

theorem setHtml_links (ok : HeapOk h D) (P : ParseOk e) {x : Nat} {s : List Char} {h' : Heap} (u : Usable e h D (.setHtml x s))
    (hr : h.setHtml e x s = .ok h') : LinksRight h' D := by
  obtain ⟨h1, st⟩ := setHtml_step ok P u
  have := st.run
  simp only [Op.run, hr, Except.ok.injEq] at this
  subst this
  exact st.ok.right

theorem parse_old (P : ParseOk e) {s : List Char} {h1 : Heap} {r : Nat} (hp : e.parse h s = .ok (h1, r)) {y : Nat} (hy : y < h.size) :
    (h1.setChilds r (some [])).node y = h.node y := by
  obtain ⟨_, p2, p3, _⟩ := P h s h1 r hp
  have hne : y ≠ r := by omega
  simp only [Heap.setChilds, upd_node, if_neg hne]
  exact p2 y hy

theorem kids_old {h1 : Heap} {y : Nat} (hn : h1.node y = h.node y) : h1.kids y = h.kids y := by
  unfold Heap.kids; rw [hn]

/-- C41, elements: `set_html` replaces the children of the element by the parsed nodes that may stand in it, and nothing else. -/
theorem C41_element (ok : HeapOk h D) (P : ParseOk e) {x r : Nat} {s : List Char} {h1 : Heap} (u : Usable e h D (.setHtml x s))
    (hk : (h.node x).kind = .tag) (hct : e.contentTag (h.node x).name = false) (hp : e.parse h s = .ok (h1, r)) :
    ∃ h', h.setHtml e x s = .ok h' ∧ OnlyList h h' x ((h1.kids r).filter (e.allow (h.node x).name)) ∧ LinksRight h' D := by
  obtain ⟨h', hrun, hc⟩ := setHtml_cases ok P u
  refine ⟨h', hrun, ?_, setHtml_links ok P u hrun⟩
  have htg : h.htmlTarget x = some x := by unfold Heap.htmlTarget; rw [hk]
  rcases hc with ⟨h2, _⟩ | ⟨t, h2, htb, htk, hc⟩
  · rw [htg] at h2; cases h2
  rw [htg] at h2
  cases h2
  rcases hc with ⟨h2, _⟩ | ⟨_, g, r', hp', hc⟩
  · rw [hct] at h2; cases h2
  rw [hp] at hp'
  cases hp'
  obtain ⟨_, p2, p3, _⟩ := P h s h1 r hp
  rcases hc with ⟨hn, rfl⟩ | ⟨parsed, hch, hs⟩
  · have hkr : h1.kids r = [] := by unfold Heap.kids; rw [hn]; rfl
    refine ⟨by rw [setChilds_kids, if_pos rfl, hkr]; rfl, fun q hq hqx => ?_, fun y hy => ?_⟩
    · rw [setChilds_kids, if_neg hqx, kids_old (p2 q hq)]
    · obtain ⟨d1, d2, d3, d4, _⟩ := setChilds_data h1 x none y
      rw [d1, d2, d3, d4, p2 y hy]
      exact ⟨rfl, rfl, rfl, rfl⟩
  · rw [if_pos hk] at hs
    have hkr : h1.kids r = parsed := by unfold Heap.kids; rw [hch]; rfl
    refine ⟨by rw [hs.new, hkr]; simp, fun q hq hqx => ?_, fun y hy => ?_⟩
    · rw [hs.other q hqx, kids_old (parse_old P hp hq)]
    · obtain ⟨d1, d2, d3, d4, _⟩ := hs.data y
      rw [d1, d2, d3, d4, parse_old P hp hy]
      exact ⟨rfl, rfl, rfl, rfl⟩

/-- C41, content tags, and text nodes in them: only the content of the element changes. -/
theorem C41_content_tag (ok : HeapOk h D) (P : ParseOk e) {x t : Nat} {s : List Char} (u : Usable e h D (.setHtml x s))
    (ht : ((h.node x).kind = .tag ∧ t = x) ∨ (((h.node x).kind = .text ∨ (h.node x).kind = .spaces) ∧ h.parent x = some t))
    (hct : e.contentTag (h.node t).name = true) :
    ∃ h', h.setHtml e x s = .ok h' ∧ Rewritten h h' t (some s) := by
  obtain ⟨h', hrun, hc⟩ := setHtml_cases ok P u
  refine ⟨h', hrun, ?_⟩
  have htg : h.htmlTarget x = some t := by
    unfold Heap.htmlTarget
    rcases ht with ⟨hk, rfl⟩ | ⟨hk | hk, hpar⟩ <;> rw [hk]
    · exact hpar
    · exact hpar
  rcases hc with ⟨h2, _⟩ | ⟨t', h2, htb, htk, hc⟩
  · rw [htg] at h2; cases h2
  rw [htg] at h2
  cases h2
  rcases hc with ⟨_, rfl⟩ | ⟨h2, _⟩
  · exact rewritten_upd h t _
  · rw [hct] at h2; cases h2

/-- C41, text nodes, the part that holds: a text node in an element is replaced by the parsed nodes that may stand in the element, its
siblings stay, and nothing else changes. Missing: a parser that gives a root without list of children for the text
(`C41_fails_empty`); text nodes outside of elements (`C41_fails_root`). -/
theorem C41_text_partial (ok : HeapOk h D) (P : ParseOk e) {x t r : Nat} {s : List Char} {h1 : Heap} (u : Usable e h D (.setHtml x s))
    (hk : (h.node x).kind = .text ∨ (h.node x).kind = .spaces) (hpar : h.parent x = some t)
    (hct : e.contentTag (h.node t).name = false) (hp : e.parse h s = .ok (h1, r)) (hl : (h1.node r).childs ≠ none) :
    ∃ h' A B, h.setHtml e x s = .ok h' ∧ h.kids t = A ++ x :: B ∧
      OnlyList h h' t (A ++ (h1.kids r).filter (e.allow (h.node t).name) ++ B) ∧ LinksRight h' D := by
  obtain ⟨h', hrun, hc⟩ := setHtml_cases ok P u
  have hlr := setHtml_links ok P u hrun
  have hkt : (h.node x).kind ≠ .tag := by rcases hk with hk | hk <;> rw [hk] <;> simp
  obtain ⟨hD, hi⟩ := u.2.1 hkt t hpar
  refine ⟨h', (h.kids t).take (h.index x), (h.kids t).drop (h.index x + 1), hrun, by simpa using (split_at hi).1, ?_, hlr⟩
  have htg : h.htmlTarget x = some t := by
    unfold Heap.htmlTarget
    rcases hk with hk | hk <;> rw [hk] <;> exact hpar
  rcases hc with ⟨h2, _⟩ | ⟨t', h2, htb, htk, hc⟩
  · rw [htg] at h2; cases h2
  rw [htg] at h2
  cases h2
  rcases hc with ⟨h2, _⟩ | ⟨_, g, r', hp', hc⟩
  · rw [hct] at h2; cases h2
  rw [hp] at hp'
  cases hp'
  rcases hc with ⟨hn, _⟩ | ⟨parsed, hch, hs⟩
  · exact absurd hn hl
  · rw [if_neg hkt] at hs
    have hkr : h1.kids r = parsed := by unfold Heap.kids; rw [hch]; rfl
    refine ⟨by rw [hs.new, hkr], fun q hq hqx => ?_, fun y hy => ?_⟩
    · rw [hs.other q hqx, kids_old (parse_old P hp hq)]
    · obtain ⟨d1, d2, d3, d4, _⟩ := hs.data y
      rw [d1, d2, d3, d4, parse_old P hp hy]
      exact ⟨rfl, rfl, rfl, rfl⟩

/-- C41, other nodes: nothing changes. -/
theorem C41_other {x : Nat} (hk : (h.node x).kind = .comment ∨ (h.node x).kind = .root ∨ (h.node x).kind = .other) (s : List Char) :
    h.setHtml e x s = .ok h := by
  have : h.htmlTarget x = none := by unfold Heap.htmlTarget; rcases hk with hk | hk | hk <;> rw [hk]
  unfold Heap.setHtml
  rw [this]

end

/-! ### Examples -/

theorem demo2_usable_html {x : Nat} {s : List Char} (h1 : (attachedB demo2 [] x && decide (x < demo2.size)) = true)
    (h2 : demo2.isElem x = true ∨ ∃ p, demo2.parent x = some p ∧ (demo2.node p).kind = .tag) :
    Usable ext0 demo2 noneUsed (.setHtml x s) := by
  simp only [Bool.and_eq_true, decide_eq_true_iff] at h1
  rw [noneUsed_eq]
  refine ⟨h1.2, fun _ => attachedB_sound h1.1, ?_, fun p hp hk => ?_⟩
  · show ∃ r, parse0 demo2 s = .ok r
    unfold parse0
    simp only []
    split <;> exact ⟨_, rfl⟩
  · rcases h2 with h2 | ⟨q, hq, hqk⟩
    · simp only [Heap.isElem, beq_iff_eq] at h2; exact absurd h2 hk
    · rw [hp] at hq; cases hq; exact hqk

set_option maxRecDepth 100000 in
/-- `div(1)`: the parsed text node (15) replaces the three children. -/
example : ∃ h', demo2.setHtml ext0 1 ['x'] = .ok h' ∧ h'.kids 1 = [15] ∧ h'.kids 5 = [6, 7] := by
  obtain ⟨h', h1, h2, _⟩ := C41_element (x := 1) (s := ['x']) demo2_ok ext0_parse (demo2_usable_html (by decide) (.inl (by decide)))
    (by decide) (by decide) rfl
  exact ⟨h', h1, h2.list.trans (by decide), (h2.other 5 (by decide) (by decide)).trans (by decide)⟩

set_option maxRecDepth 100000 in
/-- The text node 4 between `p(2)` and `div(5)`. -/
example : ∃ h' A B, demo2.setHtml ext0 4 ['x'] = .ok h' ∧ demo2.kids 1 = A ++ 4 :: B ∧ h'.kids 1 = A ++ [15] ++ B := by
  obtain ⟨h', A, B, h1, h2, h3, _⟩ := C41_text_partial (x := 4) (t := 1) (s := ['x']) demo2_ok ext0_parse
    (demo2_usable_html (by decide) (.inr ⟨1, by decide, by decide⟩)) (.inl (by decide)) (by decide) (by decide) rfl (by decide)
  exact ⟨h', A, B, h1, h2, h3.list⟩

theorem areaHeap_ok : HeapOk areaHeap noneUsed := okCheck_sound (by decide)

set_option maxRecDepth 100000 in
example : ∃ h', areaHeap.setHtml ext0 1 ['<', 'b', '>'] = .ok h' ∧ (h'.node 1).content = some ['<', 'b', '>'] := by
  have h0 : attachedB areaHeap [] 1 = true := by decide
  obtain ⟨h', h1, h2⟩ := C41_content_tag (x := 1) (t := 1) (s := ['<', 'b', '>']) areaHeap_ok ext0_parse
    ⟨by decide, fun _ => noneUsed_eq ▸ attachedB_sound h0, ⟨_, rfl⟩, fun p _ hk => absurd (by decide : (areaHeap.node 1).kind = .tag) hk⟩
    (.inl ⟨by decide, rfl⟩) (by decide)
  exact ⟨h', h1, h2.content⟩

example : demo2.setHtml ext0 10 ['x'] = .ok demo2 := C41_other (by decide) _

set_option maxRecDepth 100000 in
/-- C41 does not hold in full: when the parser gives a root without a list of children for `""`, `set_html("")` on a text node takes
away all its siblings. -/
theorem C41_fails_empty : ∃ h', demo2.setHtml ext0 4 [] = .ok h' ∧ demo2.kids 1 = [2, 4, 5] ∧ h'.kids 1 = [] :=
  ⟨_, rfl, by decide, by decide⟩

/-- C41 does not hold in full: on a text node whose parent is a document or fragment `set_html` panics
(assumed: the roots of rphtml carry no tag data). -/
theorem C41_fails_root : (areaHeap.node 2).kind = .text ∧ areaHeap.parent 2 = some 0 ∧
    areaHeap.setHtml ext0 2 ['x'] = .error .unwrapNone := ⟨by decide, by decide, rfl⟩

end Visdom
