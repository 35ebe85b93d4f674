import Verif.Props.History
import Verif.Spec.Text
/-!
# C40: `set_text`, `append_text`, `prepend_text`
-/
namespace Visdom
open Spec

section
variable {h : Heap} {D : Nat → Prop} {e : Ext}

theorem rewritten_upd (h : Heap) (x : Nat) (c : Option (List Char)) : Rewritten h (h.upd x fun n => { n with content := c }) x c := by
  refine ⟨rfl, by simp [upd_node], fun y hy => by simp [upd_node, hy], by simp [upd_node]⟩

/-- C40, elements: after `set_text(s)` the text of an element is `s`, no element is left in it, and no other list of children
and no other node has changed. `dec` is the decoder of entities that belongs to the encoder. -/
theorem C40_element (ok : HeapOk h D) {x : Nat} (hx : x < h.size) (hk : (h.node x).kind = .tag)
    (hct : e.contentTag (h.tagNames x) = false) {dec : List Char → List Char} (s : List Char) (hdec : dec (e.encode s) = s) :
    TextOf dec (h.setText e x s) x s ∧ (∀ t, TextOf dec (h.setText e x s) x t → t = s) ∧
      (∀ c ∈ (h.setText e x s).kids x, ((h.setText e x s).node c).kind = .text) ∧
      (∀ q, q ≠ x → (h.setText e x s).kids q = h.kids q) ∧
      (∀ y < h.size, y ≠ x → (h.setText e x s).node y = h.node y) ∧ LinksRight (h.setText e x s) D := by
  have hlr : LinksRight (h.setText e x s) D := by
    obtain ⟨h1, st⟩ := setText_step (e := e) ok (s := s) (show Usable e h D (.setText x s) from hx)
    have := st.run
    simp only [Op.run, Except.ok.injEq] at this
    subst this
    exact st.ok.right
  by_cases hs : s = []
  · subst hs
    have he : h.setText e x [] = h.setChilds x none := by
      unfold Heap.setText; rw [hk]; simp [hct]
    have hkx : (h.setText e x []).kids x = [] := by rw [he, setChilds_kids, if_pos rfl]; rfl
    have hkind : ((h.setText e x []).node x).kind = .tag := by rw [he, (setChilds_data _ _ _ _).1, hk]
    refine ⟨.elem hkind (hkx ▸ .nil), fun t ht => ?_, by simp [hkx], fun q hq => by rw [he, setChilds_kids, if_neg hq],
      fun y _ hy => by rw [he]; simp [Heap.setChilds, upd_node, hy], hlr⟩
    cases ht with
    | text h1 => rw [hkind] at h1; simp at h1
    | elem _ h1 => rw [hkx] at h1; cases h1; rfl
  · have he : h.setText e x s = (h.alloc { kind := .text, content := some (e.encode s), parent := some x }).1.setChilds x
        (some [h.size]) := by
      unfold Heap.setText
      rw [hk]
      simp only [hct, Bool.false_eq_true, if_false]
      rw [if_neg (by simpa using hs)]
      rfl
    obtain ⟨h1, rfl, sp, _⟩ := setText_spliced (e := e) ok hx hk hct hs
    obtain ⟨_, _, a3, _, a5, a6, _, _⟩ :=
      alloc_ok ok hx { kind := .text, content := some (e.encode s), parent := some x } rfl rfl (by simp)
    have hkx : (h.setText e x s).kids x = [h.size] := by simpa using sp.new
    have hkind : ((h.setText e x s).node x).kind = .tag := by rw [(sp.data x).1, a5 x hx, hk]
    have hck : ((h.setText e x s).node h.size).kind = .text := by rw [(sp.data _).1, a6]
    have hcc : ((h.setText e x s).node h.size).content = some (e.encode s) := by rw [(sp.data _).2.2.2.1, a6]
    have htx : TextOf dec (h.setText e x s) h.size s := by
      have := TextOf.text (dec := dec) (.inl hck)
      rwa [hcc, Option.getD_some, hdec] at this
    refine ⟨.elem hkind ?_, fun t ht => ?_, by simp [hkx, hck], fun q hq => by rw [sp.other q hq, a3], fun y hb hy => ?_, hlr⟩
    · rw [hkx]
      simpa using TextsOf.cons htx .nil
    · cases ht with
      | text h1 => rw [hkind] at h1; simp at h1
      | elem _ h1 =>
        rw [hkx] at h1
        cases h1 with
        | cons h2 h3 =>
          cases h3
          cases h2 with
          | text h4 => rw [hcc, Option.getD_some, hdec]; simp
          | elem h4 _ => rw [hck] at h4; cases h4
    · rw [he]
      simp only [Heap.setChilds, upd_node, if_neg hy]
      exact a5 y hb

/-- C40, content tags (`textarea`, `title`, ...): the content is `s`, and nothing else changes. -/
theorem C40_content_tag {x : Nat} (hk : (h.node x).kind = .tag) (hct : e.contentTag (h.tagNames x) = true) (s : List Char) :
    Rewritten h (h.setText e x s) x (if s = [] then none else some s) := by
  have he : h.setText e x s = h.upd x fun n => { n with content := if s = [] then none else some s } := by
    unfold Heap.setText; rw [hk]; simp [hct]
  rw [he]
  exact rewritten_upd h x _

/-- C40, text nodes and comments, the part that holds: for a text that is not empty the content is `s`, and nothing else changes.
Missing: `set_text("")` does nothing (`C40_fails_empty`); the text is not encoded (`C40_fails_entity`). -/
theorem C40_text_partial {x : Nat} (hk : (h.node x).kind = .text ∨ (h.node x).kind = .spaces ∨ (h.node x).kind = .comment)
    {s : List Char} (hs : s ≠ []) : Rewritten h (h.setText e x s) x (some s) := by
  have he : h.setText e x s = h.upd x fun n => { n with content := some s } := by
    unfold Heap.setText
    rcases hk with hk | hk | hk <;> rw [hk] <;> simp [hs]
  rw [he]
  exact rewritten_upd h x _

/-- C40, `append_text`, the part that holds: a content is extended at the end, and nothing else changes. Missing: nodes without
content (`C40_fails_append`). -/
theorem C40_append_partial {x : Nat} {c : List Char} (hc : (h.node x).content = some c) (s : List Char) :
    ∃ h', h.appendText x s = .ok h' ∧ Rewritten h h' x (some (c ++ s)) :=
  ⟨_, by unfold Heap.appendText; rw [hc], rewritten_upd h x _⟩

/-- C40, `prepend_text`, the part that holds. -/
theorem C40_prepend_partial {x : Nat} {c : List Char} (hc : (h.node x).content = some c) (s : List Char) :
    ∃ h', h.prependText x s = .ok h' ∧ Rewritten h h' x (some (s ++ c)) :=
  ⟨_, by unfold Heap.prependText; rw [hc], rewritten_upd h x _⟩

/-- C40, other nodes (documents, fragments, doctypes): nothing changes. -/
theorem C40_other {x : Nat} (hk : (h.node x).kind = .root ∨ (h.node x).kind = .other) (s : List Char) : h.setText e x s = h := by
  unfold Heap.setText
  rcases hk with hk | hk <;> rw [hk]

end

/-! ### Examples -/

/-- `div(1)` of the sample, which has three children with subtrees. -/
example : TextOf id (demo2.setText ext0 1 ['h', 'i']) 1 ['h', 'i'] ∧ (demo2.setText ext0 1 ['h', 'i']).kids 8 = [9] :=
  ⟨(C40_element demo2_ok (by decide) (by decide) (by decide) _ rfl).1,
    ((C40_element (dec := id) demo2_ok (by decide) (by decide) (by decide) _ rfl).2.2.2.1 8 (by decide)).trans (by decide)⟩

/-- A heap with a `textarea` (1) that has no content, and a text node (2). -/
def areaHeap : Heap := heapOf [rootN [1, 2], el "textarea" 0 0 [], txt "a" 0 1]

example : (areaHeap.setText ext0 1 ['x']).node 1 = { areaHeap.node 1 with content := some ['x'] } := by
  have := C40_content_tag (h := areaHeap) (e := ext0) (x := 1) (by decide) (by decide) ['x']
  have h1 := this.content
  have h2 := this.rest
  rw [if_neg (by simp)] at h1
  generalize (areaHeap.setText ext0 1 ['x']).node 1 = n at *
  cases n
  simp only at h1 h2
  rw [← h2, h1]

example : ((areaHeap.setText ext0 2 ['x']).node 2).content = some ['x'] :=
  (C40_text_partial (h := areaHeap) (e := ext0) (x := 2) (by decide) (by simp)).content

example : ∃ h', areaHeap.appendText 2 ['x'] = .ok h' ∧ (h'.node 2).content = some ['a', 'x'] :=
  let ⟨h', h1, h2⟩ := C40_append_partial (h := areaHeap) (x := 2) (c := ['a']) (by decide) ['x']
  ⟨h', h1, h2.content⟩

example : ∃ h', areaHeap.prependText 2 ['x'] = .ok h' ∧ (h'.node 2).content = some ['x', 'a'] :=
  let ⟨h', h1, h2⟩ := C40_prepend_partial (h := areaHeap) (x := 2) (c := ['a']) (by decide) ['x']
  ⟨h', h1, h2.content⟩

example : demo2.setText ext0 10 ['x'] = demo2 := C40_other (by decide) _

/-- C40 does not hold in full: `set_text("")` leaves a text node as it is. -/
theorem C40_fails_empty : areaHeap.setText ext0 2 [] = areaHeap ∧ (areaHeap.node 2).content = some ['a'] := ⟨rfl, by decide⟩

/-- C40 does not hold in full: what is set on a text node is not encoded, so the text read back is not the text set, whatever decoder
turns `&lt;` into `<`. -/
theorem C40_fails_entity (dec : List Char → List Char) (hd : dec ['&', 'l', 't', ';'] = ['<']) :
    ¬ TextOf dec (areaHeap.setText ext0 2 ['&', 'l', 't', ';']) 2 ['&', 'l', 't', ';'] := by
  intro h1
  have hc : ((areaHeap.setText ext0 2 ['&', 'l', 't', ';']).node 2).content = some ['&', 'l', 't', ';'] :=
    (C40_text_partial (by decide) (by simp)).content
  have hk : ((areaHeap.setText ext0 2 ['&', 'l', 't', ';']).node 2).kind = .text := by decide
  generalize areaHeap.setText ext0 2 ['&', 'l', 't', ';'] = g at *
  generalize hs : ['&', 'l', 't', ';'] = s at h1
  cases h1 with
  | text h2 => rw [hc, Option.getD_some, hd] at hs; cases hs
  | elem h2 _ => rw [hk] at h2; cases h2

/-- C40 does not hold in full: `append_text` and `prepend_text` panic on a content tag without content, e.g. after `set_text("")`. -/
theorem C40_fails_append : areaHeap.appendText 1 ['x'] = .error .borrow ∧ areaHeap.prependText 1 ['x'] = .error .borrow ∧
    areaHeap.setText ext0 1 [] = areaHeap.upd 1 (fun n => { n with content := none }) := ⟨rfl, rfl, rfl⟩

end Visdom
