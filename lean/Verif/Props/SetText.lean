import Verif.Props.TextContent
import Verif.Props.SetAttrs
import Verif.Props.After
/-!
# C60: `set_text` and `empty` on a set
-/
namespace Visdom
open Spec

section
variable {e : Ext} {D : Nat → Prop}

/-- What `set_text(s)` makes of an element, in terms of the heap. -/
structure TextSet (e : Ext) (h h' : Heap) (s : List Char) (x : Nat) : Prop where
  area : e.contentTag (h.tagNames x) = true → h'.node x = { h.node x with content := if s = [] then none else some s }
  none : e.contentTag (h.tagNames x) = false → s = [] → h'.node x = { h.node x with childs := none }
  one : e.contentTag (h.tagNames x) = false → s ≠ [] → ∃ n, h.size ≤ n ∧ n < h'.size ∧ h'.node x = { h.node x with childs := some [n] } ∧
    (h'.node n).kind = .text ∧ (h'.node n).content = some (e.encode s) ∧ h'.kids n = []

theorem setText_one {h : Heap} {x : Nat} (hx : x < h.size) (hk : (h.node x).kind = .tag) (s : List Char) :
    TextSet e h (h.setText e x s) s x ∧ (∀ y < h.size, y ≠ x → (h.setText e x s).node y = h.node y) ∧
      h.size ≤ (h.setText e x s).size := by
  by_cases hct : e.contentTag (h.tagNames x) = true
  · have he : h.setText e x s = h.upd x fun n => { n with content := if s = [] then none else some s } := by
      unfold Heap.setText; rw [hk]; simp [hct]
    rw [he]
    exact ⟨⟨fun _ => by simp [upd_node], by simp [hct], by simp [hct]⟩, fun y _ hy => by simp [upd_node, hy], Nat.le_refl _⟩
  · rw [Bool.not_eq_true] at hct
    by_cases hs : s = []
    · subst hs
      have he : h.setText e x [] = h.setChilds x Option.none := by
        unfold Heap.setText; rw [hk]; simp [hct]
      rw [he]
      exact ⟨⟨by simp [hct], fun _ _ => by simp [Heap.setChilds, upd_node], by simp⟩,
        fun y _ hy => by simp [Heap.setChilds, upd_node, hy], Nat.le_refl _⟩
    · have he : h.setText e x s = (h.alloc { kind := .text, content := some (e.encode s), parent := some x }).1.setChilds x
          (some [h.size]) := by
        unfold Heap.setText
        rw [hk]
        simp only [hct, Bool.false_eq_true, if_false]
        rw [if_neg (by simpa using hs)]
        rfl
      have hne : h.size ≠ x := by omega
      rw [he]
      refine ⟨⟨by simp [hct], fun _ h0 => absurd h0 hs, fun _ _ => ⟨h.size, Nat.le_refl _, by simp [Heap.setChilds, Heap.upd, Heap.alloc], ?_⟩⟩, fun y hy hyx => ?_, ?_⟩
      · simp [Heap.setChilds, upd_node, Heap.alloc, hne, Ne.symm hne, Heap.kids]
      · simp [Heap.setChilds, upd_node, Heap.alloc, hyx, Nat.ne_of_lt hy]
      · simp [Heap.setChilds, Heap.upd, Heap.alloc]

theorem setTextAll_raw (s : List Char) : ∀ (X : List Nat) (h : Heap), HeapOk h D → (∀ x ∈ X, x < h.size ∧ (h.node x).kind = .tag) →
    (∀ x ∈ X, TextSet e h (setTextAll h e X s) s x) ∧ (∀ y < h.size, y ∉ X → (setTextAll h e X s).node y = h.node y) ∧
      h.size ≤ (setTextAll h e X s).size ∧ HeapOk (setTextAll h e X s) D := by
  intro X
  induction X with
  | nil => exact fun h ok _ => ⟨by simp, fun _ _ _ => rfl, Nat.le_refl _, ok⟩
  | cons x X ih =>
    intro h ok hX
    obtain ⟨hx, hk⟩ := hX x (by simp)
    obtain ⟨h1, h2, h3⟩ := setText_one (e := e) hx hk s
    have ok1 : HeapOk (h.setText e x s) D := by
      obtain ⟨h1, st⟩ := setText_step (e := e) ok (s := s) (show Usable e h D (.setText x s) from hx)
      have := st.run
      simp only [Op.run, Except.ok.injEq] at this
      subst this
      exact st.ok
    have same : ∀ y, y < h.size → ((h.setText e x s).node y).kind = (h.node y).kind ∧ (h.setText e x s).tagNames y = h.tagNames y := by
      intro y hy
      by_cases hyx : y = x
      · subst hyx
        by_cases hct : e.contentTag (h.tagNames y) = true
        · have := h1.area hct
          simp [Heap.tagNames, Heap.isElem, this]
        · rw [Bool.not_eq_true] at hct
          by_cases hs : s = []
          · have := h1.none hct hs
            simp [Heap.tagNames, Heap.isElem, this]
          · obtain ⟨n, -, -, this, -⟩ := h1.one hct hs
            simp [Heap.tagNames, Heap.isElem, this]
      · simp [Heap.tagNames, Heap.isElem, h2 y hy hyx]
    obtain ⟨g1, g2, g3, g4⟩ := ih (h.setText e x s) ok1 fun y hy => by
      obtain ⟨a, b⟩ := hX y (by simp [hy])
      exact ⟨by omega, by rw [(same y a).1, b]⟩
    show (∀ x' ∈ x :: X, TextSet e h (setTextAll (h.setText e x s) e X s) s x') ∧ _
    refine ⟨fun y hy => ?_, fun y hb hy => ?_, Nat.le_trans h3 g3, g4⟩
    · have hyb := (hX y hy).1
      by_cases hm : y ∈ X
      · have t := g1 y hm
        by_cases hyx : y = x
        · subst hyx
          have ht := (same y hyb).2
          refine ⟨fun hct => ?_, fun hct hs => ?_, fun hct hs => ?_⟩
          · rw [t.area (by rw [ht, hct]), h1.area hct]
          · rw [t.none (by rw [ht, hct]) hs, h1.none hct hs]
          · obtain ⟨n, n1, n2, n3, n4⟩ := t.one (by rw [ht, hct]) hs
            obtain ⟨_, _, _, m, _⟩ := h1.one hct hs
            exact ⟨n, by omega, n2, by rw [n3, m], n4⟩
        · have ht := (same y hyb).2
          have hn := h2 y hyb hyx
          refine ⟨fun hct => ?_, fun hct hs => ?_, fun hct hs => ?_⟩
          · rw [t.area (by rw [ht, hct]), hn]
          · rw [t.none (by rw [ht, hct]) hs, hn]
          · obtain ⟨n, n1, n2, n3, n4⟩ := t.one (by rw [ht, hct]) hs
            exact ⟨n, by omega, n2, by rw [n3, hn], n4⟩
      · obtain rfl : y = x := by simpa [hm] using hy
        have e1 := g2 y (by omega) hm
        refine ⟨fun hct => by rw [e1, h1.area hct], fun hct hs => by rw [e1, h1.none hct hs], fun hct hs => ?_⟩
        obtain ⟨n, n1, n2, n3, n4, n5, n6⟩ := h1.one hct hs
        have hn : n ∉ X := fun hn => by have := (hX n (by simp [hn])).1; omega
        have e2 := g2 n n2 hn
        exact ⟨n, n1, by omega, by rw [e1, n3], by rw [e2, n4], by rw [e2, n5], by rw [Heap.kids, e2]; exact n6⟩
    · simp only [List.mem_cons, not_or] at hy
      rw [show setTextAll h e (x :: X) s = setTextAll (h.setText e x s) e X s from rfl, g2 y (by omega) hy.2, h2 y hb hy.1]

/-- C60: after `set_text(s)` on a set of elements, nested and repeated ones included, the text of each of them is `s` (the content,
if it is a content tag), nothing else of them has changed, no other node has changed, and the links are right. -/
theorem C60_set_text {h : Heap} (ok : HeapOk h D) {X : List Nat} (hX : ∀ x ∈ X, x < h.size ∧ (h.node x).kind = .tag)
    {dec : List Char → List Char} (s : List Char) (hdec : dec (e.encode s) = s) :
    (∀ x ∈ X, e.contentTag (h.tagNames x) = false → ∀ t, TextOf dec (setTextAll h e X s) x t ↔ t = s) ∧
      (∀ x ∈ X, e.contentTag (h.tagNames x) = true → (setTextAll h e X s).node x = { h.node x with content := if s = [] then none else some s }) ∧
      (∀ x ∈ X, e.contentTag (h.tagNames x) = false →
        (setTextAll h e X s).node x = { h.node x with childs := ((setTextAll h e X s).node x).childs }) ∧
      (∀ y < h.size, y ∉ X → (setTextAll h e X s).node y = h.node y) ∧ LinksRight (setTextAll h e X s) D := by
  obtain ⟨h1, h2, h3, h4⟩ := setTextAll_raw (e := e) (D := D) s X h ok hX
  refine ⟨fun x hx hct t => ?_, fun x hx => (h1 x hx).area, fun x hx hct => ?_, h2, h4.right⟩
  · by_cases hs : s = []
    · have hn := (h1 x hx).none hct hs
      have hkid : (setTextAll h e X s).kids x = [] := by rw [Heap.kids, hn]; rfl
      have hkd : ((setTextAll h e X s).node x).kind = .tag := by rw [hn]; exact (hX x hx).2
      constructor
      · intro ht
        cases ht with
        | text h5 => rw [hkd] at h5; simp at h5
        | elem _ h5 => rw [hkid] at h5; cases h5; exact hs.symm
      · rintro rfl
        subst hs
        exact .elem hkd (hkid ▸ .nil)
    · obtain ⟨n, -, -, hn, n1, n2, n3⟩ := (h1 x hx).one hct hs
      have hkid : (setTextAll h e X s).kids x = [n] := by rw [Heap.kids, hn]; rfl
      have hkd : ((setTextAll h e X s).node x).kind = .tag := by rw [hn]; exact (hX x hx).2
      have htx : TextOf dec (setTextAll h e X s) n s := by
        have := TextOf.text (dec := dec) (.inl n1)
        rwa [n2, Option.getD_some, hdec] at this
      constructor
      · intro ht
        cases ht with
        | text h5 => rw [hkd] at h5; simp at h5
        | elem _ h5 =>
          rw [hkid] at h5
          cases h5 with
          | cons h6 h7 =>
            cases h7
            cases h6 with
            | text _ => rw [n2, Option.getD_some, hdec]; simp
            | elem h8 _ => rw [n1] at h8; cases h8
      · rintro rfl
        have := TextsOf.cons htx .nil
        rw [List.append_nil] at this
        exact .elem hkd (hkid ▸ this)
  · by_cases hs : s = []
    · rw [(h1 x hx).none hct hs]
    · obtain ⟨n, -, -, hn, -⟩ := (h1 x hx).one hct hs
      rw [hn]

/-- C60: after `empty()` the elements of the set that are no content tags have no children. -/
theorem C60_empty {h : Heap} (ok : HeapOk h D) {X : List Nat} (hX : ∀ x ∈ X, x < h.size ∧ (h.node x).kind = .tag) :
    (∀ x ∈ X, e.contentTag (h.tagNames x) = false → (emptyAll h e X).node x = { h.node x with childs := none }) ∧
      (∀ x ∈ X, e.contentTag (h.tagNames x) = true → (emptyAll h e X).node x = { h.node x with content := none }) ∧
      (∀ y, y < h.size → y ∉ X → (emptyAll h e X).node y = h.node y) ∧ LinksRight (emptyAll h e X) D := by
  obtain ⟨h1, h2, h3, h4⟩ := setTextAll_raw (e := e) (D := D) [] X h ok hX
  exact ⟨fun x hx hct => (h1 x hx).none hct rfl, fun x hx hct => (h1 x hx).area hct, h2, h4.right⟩

theorem emptyAll_size (e : Ext) : ∀ (X : List Nat) (h : Heap), (emptyAll h e X).size = h.size := by
  intro X
  induction X with
  | nil => intro h; rfl
  | cons x X ih =>
    intro h
    refine (ih (h.setText e x [])).trans ?_
    unfold Heap.setText
    split
    · split <;> simp [Heap.setChilds, Heap.upd]
    all_goals simp

/-- C60: after `empty()`, `filter(":empty")` on any set of a tree keeps the emptied elements and those that had been empty. -/
theorem C60_filter_empty {h : Heap} {env : Env} (ok : HeapOk h D) (T : Tables h) {X : List Nat} (hX : ∀ x ∈ X, x < h.size ∧ (h.node x).kind = .tag)
    (hct : ∀ x ∈ X, e.contentTag (h.tagNames x) = false) {r : Nat} (hr : (h.node r).kind = .root) (hD : ¬ D r) (hrb : r < h.size) {Y : List Nat}
    (hY : Elems (emptyAll h e X) r Y) :
    ∃ res, filterQ (emptyAll h e X) env Y (sel1 .empty) = .ok res ∧ res.Sublist Y ∧
      ∀ y ∈ Y, y ∈ res ↔ y ∈ X ∨ ∀ c ∈ h.kids y, (h.node c).kind = .comment := by
  obtain ⟨h1, h2, h3, h4⟩ := setTextAll_raw (e := e) (D := D) [] X h ok hX
  change HeapOk (emptyAll h e X) D at h4
  change ∀ x ∈ X, TextSet e h (emptyAll h e X) [] x at h1
  change ∀ y < h.size, y ∉ X → (emptyAll h e X).node y = h.node y at h2
  have hsz := emptyAll_size e X h
  have hsame : ∀ y, y < h.size → ((emptyAll h e X).node y).kind = (h.node y).kind ∧ ((emptyAll h e X).node y).attrs = (h.node y).attrs := by
    intro y hy
    by_cases hm : y ∈ X
    · rw [(h1 y hm).none (hct y hm) rfl]; exact ⟨rfl, rfl⟩
    · rw [h2 y hy hm]; exact ⟨rfl, rfl⟩
  have wf : TreeWF (emptyAll h e X) r := h4.tree (by rw [(hsame r hrb).1, hr]) hD (by rw [hsz]; exact hrb)
  have hb : ∀ y, Within (emptyAll h e X) r y → y < h.size := fun y hy => hsz ▸ wf.bound y hy
  have ev : Metas (emptyAll h e X) r := by
    intro x hx he
    rw [(hsame x (hb x hx)).2]
    exact T x (hb x hx) (by rwa [Heap.isElem, (hsame x (hb x hx)).1] at he)
  obtain ⟨res, f1, f2, f3⟩ := filter_sel1 (env := env) wf ev (s := .empty) rfl hY
  refine ⟨res, f1, f2, fun y hy => ?_⟩
  rw [f3 y hy, Sim.Sat]
  by_cases hm : y ∈ X
  · have : (emptyAll h e X).kids y = [] := by rw [Heap.kids, (h1 y hm).none (hct y hm) rfl]; rfl
    simp [this, hm]
  · have hk : (emptyAll h e X).kids y = h.kids y := by rw [Heap.kids, h2 y (hb y (hY y hy).1) hm]; rfl
    rw [hk]
    simp only [hm, false_or]
    have hc : ∀ c ∈ h.kids y, ((emptyAll h e X).node c).kind = (h.node c).kind := fun c hc =>
      (hsame c (hb c (.trans (hY y hy).1 (.step .self (by rw [hk]; exact hc))))).1
    exact ⟨fun a c m => hc c m ▸ a c m, fun a c m => (hc c m).trans (a c m)⟩

end

/-! ### Examples: the sample with 14 nodes, the set nested and with a repetition -/

example : ∀ x ∈ [1, 5, 1], ∀ t, TextOf id (setTextAll demo2 ext0 [1, 5, 1] ['h', 'i']) x t ↔ t = ['h', 'i'] := fun x hx =>
  (C60_set_text (dec := id) demo2_ok (X := [1, 5, 1]) (by decide) _ rfl).1 x hx (by revert x; decide)

example : (emptyAll demo2 ext0 [5, 8]).kids 1 = [2, 4, 5] ∧ (emptyAll demo2 ext0 [5, 8]).kids 5 = [] ∧ (emptyAll demo2 ext0 [5, 8]).kids 8 = [] ∧
    filterQ (emptyAll demo2 ext0 [5, 8]) env0 [1, 2, 5] (sel1 .empty) = .ok [5] ∧ filterQ demo2 env0 [1, 2, 5] (sel1 .empty) = .ok [] := by decide

end Visdom
