import Verif.Proofs.Speech
import Verif.Props.TextsRemove
import Verif.Props.Markup
import Verif.Props.Mirror
/-!
# C87: the text of elements is made of their texts
-/
namespace Visdom
open Spec

section
variable {h : Heap} {D : Nat → Prop} {e : Ext} {v : Voice}

theorem live_inside (ok : HeapOk h D) {x : Nat} (hk : (h.node x).kind = .tag) {y : Nat} (hw : Within h x y) : ¬ D y ∧ (h.node y).kind ≠ .root := by
  have hD : ¬ D x := tag_live ok hk
  refine ⟨within_live ok hD hw, ?_⟩
  cases hw with
  | self => rw [hk]; simp
  | step h1 h2 => exact ok.kid _ _ (within_live ok hD h1) h2

/-- C87: `text` of an element is what its child nodes say, one after the other, and of a content tag first its content; no tag is in it. -/
theorem C87_text (ok : HeapOk h D) {x : Nat} (hx : x < h.size) (hk : (h.node x).kind = .tag) :
    ∃ s, textContents v e h x = .ok s ∧ Spoken v e h false x s ∧ ∀ s', Spoken v e h false x s' → s' = s := by
  have hf := heapOk_finite_of ok hx (tag_live ok hk)
  have hn : ∀ y, Within h x y → (h.node y).kind ≠ .root := fun y hy => (live_inside ok hk hy).2
  obtain ⟨s, hs⟩ := outer_total (rd := v.quiet) (e := e) hf
  have h1 := html_spoken hs hn
  exact ⟨s, (textContents_elem hf hk hn s).2 h1, h1, fun s' h2 => spoken_fun h2 h1⟩

/-- The texts of the members of a list. -/
theorem join_parts {f : Nat → R (List Char)} {L : List Nat} {parts : List (List Char)} (hp : List.Forall₂ (fun t p => f t = .ok p) L parts) :
    flatMapR f L = .ok parts.flatten := by
  induction hp with
  | nil => rfl
  | cons h1 _ ih => rw [flatMapR, h1]; simp only [ih, List.flatten_cons]

theorem texts_join1 (ok : HeapOk h D) (vo : VoiceOk v e) {x : Nat} (hx : x < h.size) (hk : (h.node x).kind = .tag) (ot : OnlyTexts v e h x) :
    ∃ L parts, textsOf h e.contentTag 0 x = .ok L ∧ (∀ t ∈ L, Within h x t ∧ Textual e.contentTag h t ∧ h.kids t = []) ∧
      List.Forall₂ (fun t p => textContents v e h t = .ok p) L parts ∧ textContents v e h x = .ok parts.flatten := by
  have hf := heapOk_finite_of ok hx (tag_live ok hk)
  have hn : ∀ y, Within h x y → (h.node y).kind ≠ .root := fun y hy => (live_inside ok hk hy).2
  obtain ⟨L, hL⟩ := textsOf_total e.contentTag 0 hf
  obtain ⟨h1, parts, h2, h3⟩ := loop_join vo h.fuel 0 x L hL hk ot
  have h1' : ∀ t ∈ L, Within h x t ∧ Textual e.contentTag h t ∧ h.kids t = [] := by
    intro t ht
    rcases h1 t ht with h4 | ⟨h4, h5⟩
    · exact h4
    · exact ⟨h4, h5.elim .inl fun h6 => .inr (.inl h6), ok.leaf t (by rcases h5 with h5 | h5 <;> rw [h5] <;> simp) (by rcases h5 with h5 | h5 <;> rw [h5] <;> simp)⟩
  refine ⟨L, parts, hL, h1', ?_, (textContents_elem hf hk hn _).2 h3⟩
  clear h3 hL
  induction h2 with
  | nil => exact .nil
  | @cons t p L parts h4 _ ih =>
    refine .cons ?_ (ih (fun t ht => h1 t (by simp [ht])) fun t ht => h1' t (by simp [ht]))
    obtain ⟨w, tx, _⟩ := h1' t (by simp)
    by_cases hkt : (h.node t).kind = .tag
    · exact (textContents_elem ⟨fun y hy => hf.1 y (w.trans hy), acc_within hf.2 w⟩ hkt (fun y hy => hn y (w.trans hy)) p).2 h4
    · have hkt' : (h.node t).kind = .text ∨ (h.node t).kind = .spaces := by
        rcases tx with tx | tx | tx
        · exact .inl tx
        · exact .inr tx
        · exact absurd tx.1 hkt
      rw [textContents_text vo hkt']
      cases h4 with
      | leaf _ _ => rfl
      | plain h5 _ _ => exact absurd h5 hkt
      | content h5 _ _ => exact absurd h5 hkt

/-- The elements of the set are in use, and there are only elements, texts and nodes without text in them. -/
def SpeechOk (v : Voice) (e : Ext) (h : Heap) (X : List Nat) : Prop := ∀ x ∈ X, x < h.size ∧ (h.node x).kind = .tag ∧ OnlyTexts v e h x

theorem texts_joins (ok : HeapOk h D) (vo : VoiceOk v e) {X : List Nat} (hX : SpeechOk v e h X) :
    ∃ L parts, textsAll h e.contentTag 0 X = .ok L ∧ (∀ t ∈ L, ∃ x ∈ X, Within h x t ∧ Textual e.contentTag h t ∧ h.kids t = []) ∧
      List.Forall₂ (fun t p => textContents v e h t = .ok p) L parts ∧ textJoin v e h X = .ok parts.flatten := by
  induction X with
  | nil => exact ⟨[], [], rfl, by simp, .nil, rfl⟩
  | cons x X ih =>
    obtain ⟨L, ps, a1, a2, a3, a4⟩ := ih fun y hy => hX y (by simp [hy])
    obtain ⟨h1, h2, h3⟩ := hX x (by simp)
    obtain ⟨M, qs, b1, b2, b3, b4⟩ := texts_join1 ok vo h1 h2 h3
    unfold textsAll at a1 ⊢
    unfold textJoin at a4 ⊢
    refine ⟨M ++ L, qs ++ ps, by rw [flatMapR, b1]; simp only [a1], fun t ht => ?_, forall₂_append' b3 a3, by rw [flatMapR, b4]; simp only [a4, List.flatten_append]⟩
    rcases List.mem_append.1 ht with ht | ht
    · exact ⟨x, by simp, b2 t ht⟩
    · obtain ⟨y, hy, h5⟩ := a2 t ht
      exact ⟨y, by simp [hy], h5⟩

/-- C87: `text` of a set is the same as the texts of its `texts(0)`, one after the other. -/
theorem C87_join (ok : HeapOk h D) (vo : VoiceOk v e) {X : List Nat} (hX : SpeechOk v e h X) :
    ∃ L parts, textsAll h e.contentTag 0 X = .ok L ∧ List.Forall₂ (fun t p => textContents v e h t = .ok p) L parts ∧ textJoin v e h X = .ok parts.flatten := by
  obtain ⟨L, parts, h1, _, h2, h3⟩ := texts_joins ok vo hX
  exact ⟨L, parts, h1, h2, h3⟩

theorem Edited.heapOk {h' : Heap} {f : Nat → List Char → List Char} {i : Nat} {L : List Nat} (ed : Edited f i L h h') (ok : HeapOk h D) : HeapOk h' D := by
  have hp : ∀ y, h'.parent y = h.parent y ∧ h'.index y = h.index y := fun y => by
    unfold Heap.parent Heap.index
    by_cases hy : y ∈ L
    · obtain ⟨j, hj⟩ := List.getElem?_of_mem hy
      rw [ed.at_ j y hj]
      exact ⟨rfl, rfl⟩
    · rw [ed.other y hy]
      exact ⟨rfl, rfl⟩
  refine ⟨fun p i c hD hc => ?_, fun p c hD hc => ?_, fun x hx => ?_, fun x h1 h2 => ?_, fun x p hx => ?_, ?_, fun x hx => ?_⟩
  · rw [(hp c).1, (hp c).2]
    exact ok.link p i c hD (ed.kids p ▸ hc)
  · rw [(ed.same c).1]
    exact ok.kid p c hD (ed.kids p ▸ hc)
  · rw [(hp x).1]
    exact ok.top x ((ed.same x).1 ▸ hx)
  · rw [ed.kids]
    exact ok.leaf x ((ed.same x).1 ▸ h1) ((ed.same x).1 ▸ h2)
  · rw [ed.size]
    exact ok.bound x p ((hp x).1 ▸ hx)
  · have : (fun p x => h'.parent x = some p) = fun p x => h.parent x = some p := by funext p x; rw [(hp x).1]
    rw [this]
    exact ok.ground
  · rw [(ed.same x).1, ed.size]
    exact ok.dead x hx

theorem Edited.join {h' : Heap} {f : Nat → List Char → List Char} {L : List Nat} (ed : Edited f 0 L h h') (ok : HeapOk h D) (vo : VoiceOk v e) {X : List Nat}
    (hX : SpeechOk v e h X) (hL : textsAll h e.contentTag 0 X = .ok L) : textsAll h' e.contentTag 0 X = .ok L ∧
      textJoin v e h' X = .ok (L.mapIdx fun i t => saysWith v h t (f i ((h.node t).content.getD []))).flatten := by
  have hL' : textsAll h' e.contentTag 0 X = .ok L := by
    rw [← hL]
    unfold textsAll
    congr 1
    funext x
    exact ed.texts e.contentTag 0 x
  obtain ⟨L0, _, g1, g2, _⟩ := texts_joins ok vo hX
  rw [hL] at g1
  cases g1
  have hX' : SpeechOk v e h' X := by
    intro x hx
    obtain ⟨h1, h2, h3⟩ := hX x hx
    refine ⟨by rw [ed.size]; exact h1, by rw [(ed.same x).1]; exact h2, fun y hy => ?_⟩
    obtain ⟨o1, o2, o3⟩ := h3 y (within_kids ed.kids hy)
    rw [(ed.same y).1, ed.kids]
    refine ⟨o1, fun hcy => o2 ?_, ?_⟩
    · unfold ContentTag at hcy ⊢
      rw [← (ed.same y).1, ← (ed.same y).2.1]
      exact hcy
    · rcases o3 with o3 | o3 | o3 | o3
      · exact .inl o3
      · exact .inr (.inl o3)
      · exact .inr (.inr (.inl o3))
      · by_cases hyL : y ∈ L
        · obtain ⟨x', _, _, tx, _⟩ := g2 y hyL
          rcases tx with tx | tx | tx
          · exact .inr (.inl tx)
          · exact .inr (.inr (.inl tx))
          · exact .inl tx.1
        · rw [ed.other y hyL]
          exact .inr (.inr (.inr o3))
  obtain ⟨L1, parts, k1, k2, k3, k4⟩ := texts_joins (ed.heapOk ok) vo hX'
  rw [hL'] at k1
  cases k1
  refine ⟨hL', ?_⟩
  rw [k4]
  congr 2
  refine List.ext_getElem? fun i => ?_
  rw [List.getElem?_mapIdx]
  cases hi : L[i]? with
  | none =>
    rw [Option.map_none, List.getElem?_eq_none_iff, ← k3.length_eq]
    exact List.getElem?_eq_none_iff.1 hi
  | some t =>
    rw [Option.map_some]
    obtain ⟨hlt, hit⟩ := List.getElem?_eq_some_iff.1 hi
    have hlt' : i < parts.length := by rw [← k3.length_eq]; exact hlt
    rw [List.getElem?_eq_getElem hlt', Option.some.injEq]
    have hp : textContents v e h' t = .ok parts[i] := by
      have := (List.forall₂_iff_get.1 k3).2 i hlt hlt'
      simpa [hit] using this
    obtain ⟨x, hx, w, tx, hk0⟩ := k2 t (List.mem_of_getElem? hi)
    have hnode := ed.at_ i t hi
    rw [Nat.zero_add] at hnode
    have hkn : (h'.node t).kind = (h.node t).kind := (ed.same t).1
    unfold saysWith
    by_cases hkt : (h.node t).kind = .tag
    · rw [if_pos hkt]
      have hct : ContentTag e.contentTag h' t := by
        rcases tx with tx | tx | tx
        · rw [hkn, hkt] at tx; cases tx
        · rw [hkn, hkt] at tx; cases tx
        · exact tx
      have sp := spoken_content vo hct.1 hct.2 hk0 false
      have hfin : FiniteTree h' t := by
        have := heapOk_finite_of (ed.heapOk ok) (hX' x hx).1 (tag_live (ed.heapOk ok) (hX' x hx).2.1)
        exact ⟨fun y hy => this.1 y (w.trans hy), acc_within this.2 w⟩
      have h5 := (textContents_elem hfin hct.1 (fun y hy => (live_inside (ed.heapOk ok) hct.1 hy).2) _).2 sp
      rw [hp, Except.ok.injEq] at h5
      rw [h5, hnode]
    · rw [if_neg hkt]
      have hkt' : (h'.node t).kind = .text ∨ (h'.node t).kind = .spaces := by
        rcases tx with tx | tx | tx
        · exact .inl tx
        · exact .inr tx
        · exact absurd (hkn ▸ tx.1) hkt
      have h5 := textContents_text vo hkt'
      rw [hp, Except.ok.injEq] at h5
      rw [h5, hnode]

/-- C87: changing the texts of a set one by one changes the text of the set at these places. A text that is changed by `for_each` says what its new content says;
the order of the texts stays, and nothing comes between them. `f` is what the closure makes of the content of the text at a position. -/
theorem C87_edit (ok : HeapOk h D) (vo : VoiceOk v e) {X L : List Nat} (hX : SpeechOk v e h X) (hL : textsAll h e.contentTag 0 X = .ok L) (hn : L.Nodup)
    (hc : ∀ t ∈ L, (h.node t).content.isSome) {f : Nat → List Char → List Char} {step : Heap → Nat → Nat → R (Heap × Bool)}
    (hs : ∀ (g : Heap) (i x : Nat) (c : List Char), x ∈ L → g.node x = h.node x → (g.node x).content = some c →
      step g i x = .ok (g.upd x fun n => { n with content := some (f i c) }, true)) :
    ∃ h', textsEach step 0 h L = .ok h' ∧ textsAll h' e.contentTag 0 X = .ok L ∧
      textJoin v e h' X = .ok (L.mapIdx fun i t => saysWith v h t (f i ((h.node t).content.getD []))).flatten := by
  obtain ⟨h', r1, ed⟩ := textsEach_edits (f := f) (step := step) L 0 h hn hc hs
  exact ⟨h', r1, ed.join ok vo hX hL⟩

/-- C87, the example of the documentation: `prepend_text(a)` and `append_text(b)` on every text of a set. -/
theorem C87_wrap (ok : HeapOk h D) (vo : VoiceOk v e) {X L : List Nat} (hX : SpeechOk v e h X) (hL : textsAll h e.contentTag 0 X = .ok L) (hn : L.Nodup)
    (hc : ∀ t ∈ L, (h.node t).content.isSome) (a b : List Char) :
    ∃ h', textsEach (wrapStep a b) 0 h L = .ok h' ∧ textsAll h' e.contentTag 0 X = .ok L ∧
      textJoin v e h' X = .ok (L.flatMap fun t => saysWith v h t (a ++ ((h.node t).content.getD []) ++ b)) := by
  obtain ⟨h', h1, h2, h3⟩ := C87_edit ok vo hX hL hn hc (f := fun _ c => a ++ c ++ b) (step := wrapStep a b) (by
    intro g i x c _ _ hg
    unfold wrapStep Heap.prependText Heap.appendText
    simp only [hg, upd_node, if_true]
    congr 2
    unfold Heap.upd
    congr 1
    funext y
    by_cases hy : y = x <;> simp [hy])
  refine ⟨h', h1, h2, ?_⟩
  rw [h3, List.mapIdx_eq_zipIdx_map]
  congr 1
  rw [List.flatMap_def]
  congr 1
  refine List.ext_getElem? fun i => ?_
  simp only [List.getElem?_map, List.getElem?_zipIdx]
  cases L[i]? <;> simp

/-- C87: `set_text(s)` on every text of a set leaves as many copies of `s` as there are texts. -/
theorem C87_set (ok : HeapOk h D) (vo : VoiceOk v e) {X L : List Nat} (hX : SpeechOk v e h X) (hL : textsAll h e.contentTag 0 X = .ok L) (hn : L.Nodup)
    (hc : ∀ t ∈ L, (h.node t).content.isSome) {s : List Char} (hs : s ≠ []) :
    ∃ h', textsEach (setStep e s) 0 h L = .ok h' ∧ textsAll h' e.contentTag 0 X = .ok L ∧ textJoin v e h' X = .ok (L.flatMap fun t => saysWith v h t s) := by
  obtain ⟨_, _, g1, g2, _⟩ := texts_joins ok vo hX
  rw [hL] at g1
  cases g1
  obtain ⟨h', h1, h2, h3⟩ := C87_edit ok vo hX hL hn hc (f := fun _ _ => s) (step := setStep e s) (by
    intro g i x c hx hgx hg
    obtain ⟨_, _, _, tx, _⟩ := g2 x hx
    unfold setStep Heap.setText
    have hse : s.isEmpty = false := by simpa using hs
    rcases tx with tx | tx | tx
    · simp [hgx, tx, hs]
    · simp [hgx, tx, hs]
    · have h1 : (g.node x).kind = .tag := hgx ▸ tx.1
      have h2 : e.contentTag (g.tagNames x) = true := by rw [tagNames_tag h1, hgx]; exact tx.2
      simp [h1, h2, hs])
  refine ⟨h', h1, h2, ?_⟩
  rw [h3, List.mapIdx_eq_zipIdx_map]
  congr 1
  rw [List.flatMap_def]
  congr 1
  refine List.ext_getElem? fun i => ?_
  simp only [List.getElem?_map, List.getElem?_zipIdx]
  cases L[i]? <;> simp

/-! ## Removing the texts -/

theorem textsRemove_all : ∀ (L : List Nat) (h : Heap), HeapOk h D → (∀ x ∈ L, Attached h D x) → L.Nodup →
    ∃ h', textsRemove h L = .ok h' ∧ (∀ q, ¬ D q → h'.kids q = (h.kids q).filter (· ∉ L)) ∧ SameData h h' ∧ HeapOk h' D ∧ h'.size = h.size
  | [], h, ok, _, _ => ⟨h, rfl, by simp, .refl h, ok, rfl⟩
  | x :: L, h, ok, hL, hnd => by
    rw [List.nodup_cons] at hnd
    obtain ⟨h1, he, k1, k2, k3, k4⟩ := removeText_gone ok (hL x (by simp))
    have hsz : h1.size = h.size := by
      obtain ⟨h2, he2, ⟨_, rfl⟩ | ⟨p, _, _, sp⟩⟩ := removeText_eq ok (hL x (by simp))
      · rw [he] at he2; cases he2; rfl
      · rw [he] at he2; cases he2; exact sp.size
    obtain ⟨h', g1, g2, g3, g4, g5⟩ := textsRemove_all L h1 k1 (fun y hy => k4 y (by rintro rfl; exact hnd.1 hy) (hL y (by simp [hy]))) hnd.2
    refine ⟨h', by simp only [textsRemove, he]; exact g1, fun q hq => ?_, k3.trans g3, g4, g5.trans hsz⟩
    rw [g2 q hq, k2 q hq, List.filter_filter]
    congr 1
    funext y
    rw [Bool.eq_iff_iff]
    simp only [List.mem_cons, not_or, Bool.and_eq_true, decide_eq_true_iff, ne_eq]
    exact and_comm

/-- C87: a set whose `texts(0)` are removed has no text any more. -/
theorem C87_remove (ok : HeapOk h D) (vo : VoiceOk v e) {X L : List Nat} (hX : SpeechOk v e h X) (hXc : ∀ x ∈ X, ¬ ContentTag e.contentTag h x)
    (hL : textsAll h e.contentTag 0 X = .ok L) (hn : L.Nodup) : ∃ h', textsRemove h L = .ok h' ∧ textJoin v e h' X = .ok [] := by
  obtain ⟨_, _, g1, g2, g3⟩ := texts_joins ok vo hX
  clear g3
  rw [hL] at g1
  cases g1
  have hall : ∀ x ∈ X, ∀ y, Below h x y → Textual e.contentTag h y → y ∈ L := by
    intro x hx y hb ht
    obtain ⟨heach, hmem⟩ := flatMapR_mem (show flatMapR (textsOf h e.contentTag 0) X = .ok L from hL)
    obtain ⟨M, hM⟩ := heach x hx
    exact (hmem y).2 ⟨x, hx, M, hM, loop_all ok.leaf h.fuel 0 x M hM (hX x hx).2.2 y hb ht⟩
  obtain ⟨h', r1, r2, r3, r4, r5⟩ := textsRemove_all L h ok (by
    intro t ht
    obtain ⟨x, hx, w, tx, _⟩ := g2 t ht
    have hk := (hX x hx).2.1
    rcases within_step w with rfl | ⟨p, hp, hc⟩
    · exact absurd (by rcases tx with tx | tx | tx <;> first | (rw [hk] at tx; cases tx) | exact tx) (hXc _ hx)
    · have hDp := (live_inside ok hk hp).1
      obtain ⟨i, hi⟩ := List.getElem?_of_mem hc
      obtain ⟨l1, l2⟩ := ok.link p i t hDp hi
      intro q hq
      rw [l1] at hq
      cases hq
      exact ⟨hDp, by rw [l2]; exact hi⟩) hn
  refine ⟨h', r1, ?_⟩
  have key : ∀ x ∈ X, ∀ y, Within h x y → (h.node y).kind = .tag → (y ∉ L) → Spoken v e h' false y [] := by
    intro x hx y hw
    have hf := heapOk_finite_of ok (hX x hx).1 (tag_live ok (hX x hx).2.1)
    have hacc := acc_within hf.2 hw
    induction hacc with
    | intro y _ ih =>
      intro hky hyL
      obtain ⟨o1, o2, o3⟩ := (hX x hx).2.2 y hw
      have hnc : e.contentTag (h.node y).name = false := by
        rw [← vo.cased, Bool.eq_false_iff]
        intro hc
        rcases within_cases hw with rfl | hb
        · exact hXc _ hx ⟨hky, hc⟩
        · exact hyL (hall x hx y hb (.inr (.inr ⟨hky, hc⟩)))
      refine .plain (by rw [(r3 y).1]; exact hky) (by rw [(r3 y).2.1]; exact hnc) ?_
      rw [r2 y (live_inside ok (hX x hx).2.1 hw).1]
      have hsub : ∀ c ∈ (h.kids y).filter (· ∉ L), c ∈ h.kids y ∧ c ∉ L := fun c hc => by simpa using hc
      revert hsub
      generalize (h.kids y).filter (· ∉ L) = l
      intro hsub
      induction l with
      | nil => exact .nil
      | cons c l ihl =>
        obtain ⟨c1, c2⟩ := hsub c (by simp)
        have hwc := Within.step hw c1
        have hb : Below h x c := below_of_within_child hw c1
        refine SpokenAll.cons (s := []) (t := []) ?_ (ihl fun d hd => hsub d (by simp [hd]))
        obtain ⟨p1, p2, p3⟩ := (hX x hx).2.2 c hwc
        by_cases hkc : (h.node c).kind = .tag
        · exact ih c c1 hwc hkc c2
        · rcases p3 with p3 | p3 | p3 | p3
          · exact absurd p3 hkc
          · exact absurd (hall x hx c hb (.inl p3)) c2
          · exact absurd (hall x hx c hb (.inr (.inl p3))) c2
          · have hs : Spoken v e h' false c _ := .leaf (by rw [(r3 c).1]; exact p1) (by rw [(r3 c).1]; exact hkc)
            rwa [(r3 c).1, (r3 c).2.2.2.1, p3] at hs
  have hone : ∀ x ∈ X, textContents v e h' x = .ok [] := by
    intro x hx
    have hk' : (h'.node x).kind = .tag := by rw [(r3 x).1]; exact (hX x hx).2.1
    refine (textContents_elem (heapOk_finite_of r4 (by rw [r5]; exact (hX x hx).1) (tag_live r4 hk')) hk' (fun y hy => (live_inside r4 hk' hy).2) _).2 ?_
    refine key x hx x .self (hX x hx).2.1 fun hxL => ?_
    obtain ⟨_, _, _, tx, _⟩ := g2 x hxL
    exact hXc x hx (by rcases tx with tx | tx | tx <;> first | (rw [(hX x hx).2.1] at tx; cases tx) | exact tx)
  unfold textJoin
  clear hL hX hXc hall key g2
  induction X with
  | nil => rfl
  | cons x X ih =>
    rw [flatMapR, hone x (by simp)]
    simp only [ih fun y hy => hone y (by simp [hy]), List.append_nil]

/-! ## Changes of the tree -/

/-- The text of an element is its `html` without the tags. -/
theorem textContents_inner {x : Nat} (hf : FiniteTree h x) (hk : (h.node x).kind = .tag) : textContents v e h x = innerHtml v.quiet e h x := by
  obtain ⟨s, h1, h2⟩ := C72_outer (rd := v.quiet) (e := e) hf hk
  have h3 : textContents v e h x = outerHtml v.quiet e h x := by
    unfold textContents outerHtml
    rw [if_pos (by simp [Heap.isElem, hk])]
  rw [h3, h1, h2]
  simp [startOf, endOf, Voice.quiet]

theorem textContents_inner' (ok : HeapOk h D) {x : Nat} (hx : x < h.size) (hk : (h.node x).kind = .tag) : textContents v e h x = innerHtml v.quiet e h x :=
  textContents_inner (heapOk_finite_of ok hx (tag_live ok hk)) hk

theorem textContents_outer {x : Nat} (hk : (h.node x).kind = .tag) : textContents v e h x = outerHtml v.quiet e h x := by
  unfold textContents outerHtml
  rw [if_pos (by simp [Heap.isElem, hk])]

/-- C87: when an element is inserted in another one, its text is added at the end or at the start of the text of the target, and at the same place in the text of every
element around. -/
theorem C87_inside_partial (ok : HeapOk h D) {pos : InsertPosition} {t n q : Nat} (u : Usable e h D (.insert pos t n)) (ha : Accepted e h t n)
    (hpos : pos = .afterBegin ∨ pos = .beforeEnd) (hct : e.contentTag (h.node t).name = false) (hkn : (h.node n).kind = .tag)
    (hal : e.allow (h.tagNames t) n = true) (hkq : (h.node q).kind = .tag) (hq : Within h q t) (hout : ¬ Within h q n) :
    ∃ h' a s r b, h.insertAdjacent e pos t n = .ok h' ∧ textContents v e h t = .ok s ∧ textContents v e h n = .ok r ∧
      textContents v e h q = .ok (a ++ s ++ b) ∧ textContents v e h' q = .ok (a ++ (if pos = .beforeEnd then s ++ r else r ++ s) ++ b) := by
  have hmv : moved h n = [n] := by unfold moved; rw [if_neg (by rw [hkn]; decide)]
  have hqD := tag_live ok hkq
  have htb : t < h.size := u.2.2.2.2
  have hqb := within_bound ok hqD htb hq
  obtain ⟨h', a, s, r, b, h1, h2, h3, h4, h5⟩ := C72_inside_partial (rd := v.quiet) ok u ha hpos hct (by rw [hmv]; simpa using hal) hqD hq (by
    rw [hmv]; simpa using hout)
  obtain ⟨h1', g1, _, _, _, sd⟩ := insert_inside ok u ha hpos
  rw [h1] at g1
  cases g1
  obtain ⟨h6, st⟩ := insert_step ok u
  have hrun := st.run
  simp only [Op.run, h1, Except.ok.injEq] at hrun
  subst hrun
  have hkq' : (h'.node q).kind = .tag := by rw [(sd q).1]; exact hkq
  refine ⟨h', a, s, r, b, h1, ?_, ?_, ?_, ?_⟩
  · rw [textContents_inner' ok htb ha.1]; exact h2
  · rw [textContents_outer hkn]; exact h3
  · rw [textContents_inner' ok hqb hkq]; exact h4
  · rw [textContents_inner' st.ok (Nat.lt_of_lt_of_le hqb st.size) hkq']; exact h5

/-- C87: when an element is removed, its text is taken out of the text of every element around, at its place; the element keeps its text. -/
theorem C87_taken (ok : HeapOk h D) {x p q : Nat} (hx : Attached h D x) (hpar : h.parent x = some p) (hk : (h.node x).kind = .tag)
    (hkq : (h.node q).kind = .tag) (hq : Within h q p) :
    ∃ h' a o b, removeAll h [x] = .ok h' ∧ textContents v e h x = .ok o ∧ textContents v e h' x = .ok o ∧
      textContents v e h q = .ok (a ++ o ++ b) ∧ textContents v e h' q = .ok (a ++ b) := by
  have hqD := tag_live ok hkq
  obtain ⟨hxb, hpb⟩ := ok.bound x p hpar
  have hqb := within_bound ok hqD hpb hq
  obtain ⟨h', a, o, b, h1, h2, h3, h4, h5⟩ := C72_remove_partial (rd := v.quiet) (e := e) ok hx hpar hk hqD hq
  obtain ⟨h1', r1, _, sd, _⟩ := C34_remove_partial ok [x] (by simpa using hx) (by simp)
  rw [h1] at r1
  cases r1
  obtain ⟨h6, st⟩ := remove_step (e := e) ok (x := x) hx
  have hrun := st.run
  simp only [Op.run] at hrun
  simp only [removeAll, hrun, Except.ok.injEq] at h1
  subst h1
  have hkq' : (h6.node q).kind = .tag := by rw [(sd q).1]; exact hkq
  have hkx' : (h6.node x).kind = .tag := by rw [(sd x).1]; exact hk
  refine ⟨h6, a, o, b, by simp only [removeAll, hrun], ?_, ?_, ?_, ?_⟩
  · rw [textContents_outer hk]; exact h2
  · rw [textContents_outer hkx']; exact h3
  · rw [textContents_inner' ok hqb hkq]; exact h4
  · rw [textContents_inner' st.ok (Nat.lt_of_lt_of_le hqb st.size) hkq']; exact h5

theorem setText_kind (ok : HeapOk h D) (vo : VoiceOk v e) {x : Nat} (hx : x < h.size) (hk : (h.node x).kind = .tag) (hct : e.contentTag (h.node x).name = false)
    (s : List Char) : ∀ y < h.size, ((h.setText e x s).node y).kind = (h.node y).kind := by
  have hct' : e.contentTag (h.tagNames x) = false := by rw [tagNames_tag hk, vo.cased]; exact hct
  intro y hy
  by_cases hyx : y = x
  · subst hyx
    unfold Heap.setText
    rw [hk]
    simp only [hct', Bool.false_eq_true, if_false]
    split
    · exact ((setChilds_data _ _ _ _).1).trans hk
    · rw [(setChilds_data _ _ _ _).1]
      simp [Heap.alloc, Nat.ne_of_lt hy, hk]
  · obtain ⟨_, _, _, _, k2, _⟩ := C40_element (dec := fun _ => s) ok hx hk hct' s rfl
    rw [k2 y hy hyx]

theorem set_text_says (ok : HeapOk h D) (vo : VoiceOk v e) {x q : Nat} (hx : x < h.size) (hk : (h.node x).kind = .tag) (hct : e.contentTag (h.node x).name = false)
    (s : List Char) (hkq : (h.node q).kind = .tag) (hq : Within h q x) :
    ∃ a o t b, t = (if s = [] then [] else v.say false .text (some (e.encode s))) ∧ textContents v e h x = .ok o ∧ textContents v e h q = .ok (a ++ o ++ b) ∧
      textContents v e (h.setText e x s) x = .ok t ∧ textContents v e (h.setText e x s) q = .ok (a ++ t ++ b) := by
  have hqD := tag_live ok hkq
  have hqb := within_bound ok hqD hx hq
  have hct' : e.contentTag (h.tagNames x) = false := by rw [tagNames_tag hk, vo.cased]; exact hct
  obtain ⟨a, o, t, b, h0, h1, h2, h3, h4⟩ := C72_set_text (rd := v.quiet) ok hx hk hct hct' s hqD hq
  obtain ⟨h5, st⟩ := setText_step (e := e) ok (s := s) (show Usable e h D (.setText x s) from hx)
  have hrun := st.run
  simp only [Op.run, Except.ok.injEq] at hrun
  subst hrun
  have hkind := setText_kind ok vo hx hk hct s
  refine ⟨a, o, t, b, h0, ?_, ?_, ?_, ?_⟩
  · rw [textContents_inner' ok hx hk]; exact h1
  · rw [textContents_inner' ok hqb hkq]; exact h2
  · rw [textContents_inner' st.ok (Nat.lt_of_lt_of_le hx st.size) ((hkind x hx).trans hk)]; exact h3
  · rw [textContents_inner' st.ok (Nat.lt_of_lt_of_le hqb st.size) ((hkind q hqb).trans hkq)]; exact h4

/-- C87: after `set_text(s)` the text of an element is `s`, and in the text of every element around `s` stands where its old text was. -/
theorem C87_set_text (ok : HeapOk h D) (vo : VoiceOk v e) {x q : Nat} (hx : x < h.size) (hk : (h.node x).kind = .tag) (hct : e.contentTag (h.node x).name = false)
    {s : List Char} (hs : s = [] ∨ v.say false .text (some (e.encode s)) = s) (hkq : (h.node q).kind = .tag) (hq : Within h q x) :
    ∃ a o b, textContents v e h x = .ok o ∧ textContents v e h q = .ok (a ++ o ++ b) ∧ textContents v e (h.setText e x s) x = .ok s ∧
      textContents v e (h.setText e x s) q = .ok (a ++ s ++ b) := by
  obtain ⟨a, o, t, b, h0, h1⟩ := set_text_says ok vo hx hk hct s hkq hq
  have ht : t = s := by
    rw [h0]
    split
    · rename_i h5; exact h5.symm
    · rename_i h5; exact hs.resolve_left h5
  subst ht
  exact ⟨a, o, b, h1⟩

/-- C87: clones have the text of the originals. -/
theorem C87_clone {w : World} (wok : w.Ok) (hok : HeapOk h noneUsed) {X Y : List Nat} (hX : ∀ x ∈ X, x < h.size ∧ (h.node x).kind = .tag) {h' : Heap}
    (hc : copyAll w.copy h X = (h', Y)) : textJoin v e h' Y = textJoin v e h X := by
  obtain ⟨had, hall⟩ := copyAll_spec wok X h fun x hx => heapOk_finite hok (hX x hx).1
  rw [hc] at had hall
  dsimp only at had hall
  unfold textJoin
  refine flatMapR_two ?_
  clear hc
  induction hall with
  | nil => exact .nil
  | @cons x y X Y st _ ih =>
    refine .cons ?_ (ih fun z hz => hX z (by simp [hz]))
    obtain ⟨h1, h2⟩ := hX x (by simp)
    obtain ⟨_, h3⟩ := html_same (rd := v.quiet) (e := e) (heapOk_finite hok h1) had.size st.2.2
    have hk' : (h'.node y).kind = .tag := by
      rw [(st.2.2 1).1]
      exact h2
    rw [textContents_outer hk', textContents_outer h2]
    exact h3

open Classical in
/-- C87: `:contains` looks at the text: an element is found exactly when the searched text is in what its texts say together. -/
theorem C87_contains (ok : HeapOk h D) {r : Nat} (wf : TreeWF h r) (ev : Metas h r) {env : Env}
    (hv : ∀ x, Within h r x → (h.node x).kind = .tag → textContents v e h x = .ok (env.text x)) (t : List Char) {X : List Nat} (hX : Elems h r X) :
    filterQ h env X (sel1 (.contains t)) = .ok (X.filter fun x => decide (∃ a b, Spoken v e h false x (a ++ t ++ b))) := by
  rw [C11_contains_filter wf ev t hX]
  congr 1
  refine List.filter_congr fun x hx => ?_
  obtain ⟨h1, h2⟩ := hX x hx
  have hk : (h.node x).kind = .tag := by simpa [Heap.isElem] using h2
  have hb : x < h.size := wf.bound x h1
  obtain ⟨s, g1, g2, g3⟩ := C87_text (v := v) (e := e) ok hb hk
  rw [hv x h1 hk, Except.ok.injEq] at g1
  rw [decide_eq_decide]
  constructor
  · rintro ⟨a, b, h3⟩
    exact ⟨a, b, h3 ▸ g1 ▸ g2⟩
  · rintro ⟨a, b, h3⟩
    exact ⟨a, b, g1.trans (g3 _ h3).symm⟩

/-- C87, documents and fragments: their `text` is not what their texts say, it is the whole markup. -/
theorem C87_root {x : Nat} (hf : FiniteTree h x) (hk : (h.node x).kind = .root) : ∃ s, textContents v e h x = .ok s ∧ HtmlOf v.whole e h false x s := by
  have h1 : textContents v e h x = outerHtml v.whole e h x := by
    unfold textContents outerHtml
    rw [if_neg (by simp [Heap.isElem, hk])]
  obtain ⟨s, hs⟩ := outer_total (rd := v.whole) (e := e) hf
  exact ⟨s, by rw [h1]; exact (outerHtml_iff hf s).2 hs, hs⟩

end

/-- C87: `for_each` calls the closure on the texts in their order with their positions, until the end, until the closure answers `false`, or until it panics;
the texts behind are not visited. -/
theorem C87_each {step : Heap → Nat → Nat → R (Heap × Bool)} {i : Nat} {h hA : Heap} {A : List Nat} (hv : Visits step i h A hA) :
    textsEach step i h A = .ok hA ∧
    (∀ x B h', step hA (i + A.length) x = .ok (h', false) → textsEach step i h (A ++ x :: B) = .ok h') ∧
    (∀ x B p, step hA (i + A.length) x = .error p → textsEach step i h (A ++ x :: B) = .error p) := by
  induction hv with
  | none =>
    refine ⟨rfl, fun x B h' hs => ?_, fun x B p hs => ?_⟩ <;>
    · rw [List.length_nil, Nat.add_zero] at hs
      rw [List.nil_append, textsEach, hs]
  | @next i h h1 h' x xs hs hv ih =>
    obtain ⟨i1, i2, i3⟩ := ih
    refine ⟨by rw [textsEach, hs]; exact i1, fun y B h2 h3 => ?_, fun y B p h3 => ?_⟩ <;> rw [List.cons_append, textsEach, hs]
    · exact i2 y B h2 (by rw [← h3, List.length_cons]; congr 1; omega)
    · exact i3 y B p (by rw [← h3, List.length_cons]; congr 1; omega)

/-- C87: every call of `for_each` is of one of these three forms. -/
theorem C87_each_cases (step : Heap → Nat → Nat → R (Heap × Bool)) (i : Nat) (h : Heap) (L : List Nat) :
    (∃ h', Visits step i h L h') ∨ ∃ A x B hA, L = A ++ x :: B ∧ Visits step i h A hA ∧
      ((∃ h', step hA (i + A.length) x = .ok (h', false)) ∨ ∃ p, step hA (i + A.length) x = .error p) := by
  induction L generalizing i h with
  | nil => exact .inl ⟨h, .none⟩
  | cons x L ih =>
    rcases hs : step h i x with p | ⟨h1, b⟩
    · exact .inr ⟨[], x, L, h, rfl, .none, .inr ⟨p, hs⟩⟩
    · cases b with
      | false => exact .inr ⟨[], x, L, h, rfl, .none, .inl ⟨h1, hs⟩⟩
      | true =>
        rcases ih (i + 1) h1 with ⟨h', hv⟩ | ⟨A, y, B, hA, rfl, hv, hy⟩
        · exact .inl ⟨h', .next hs hv⟩
        · refine .inr ⟨x :: A, y, B, hA, rfl, .next hs hv, ?_⟩
          have : i + (x :: A).length = i + 1 + A.length := by rw [List.length_cons]; omega
          rwa [this]

/-! ### Examples -/

/-- Content tags whatever the letters. -/
def extT : Ext := { ext0 with contentTag := fun n => lowerStr n == "textarea".toList }

/-- Texts say their content, comments nothing. -/
def voice0 : Voice where
  say := fun _ k c => if k = .text ∨ k = .spaces then c.getD [] else []
  body := fun _ c => c.getD []
  whole := rd0

theorem voice0_ok : VoiceOk voice0 extT where
  text := by
    rintro k n m c (rfl | rfl) <;> simp [voice0, rd0]
  cased := fun n => by simp only [extT, lowerStr_idem]

/-- `<div>a<b>c</b><!--n--><textarea>t</textarea></div><p></p>`. -/
def talk : Heap := heapOf [rootN [1, 7], el "div" 0 0 [2, 3, 5, 6], txt "a" 1 0, el "b" 1 1 [4], txt "c" 3 0, { txt "n" 1 2 with kind := .comment },
  { el "textarea" 1 3 with content := some "t".toList }, el "p" 0 1]

theorem talk_ok : HeapOk talk noneUsed := okCheck_sound (by decide)

theorem talk_speech : SpeechOk voice0 extT talk [1, 3] := by
  have hall : ∀ y < 8, y = 0 ∨ (talk.node y).kind ≠ .root ∧ (extT.contentTag (lowerStr (talk.node y).name) = true → talk.kids y = []) ∧
    ((talk.node y).kind = .tag ∨ (talk.node y).kind = .text ∨ (talk.node y).kind = .spaces ∨ ∀ ct, voice0.say ct (talk.node y).kind (talk.node y).content = []) := by decide
  intro x hx
  have hx' : (x < talk.size ∧ (talk.node x).kind = .tag) := by
    simp only [List.mem_cons, List.not_mem_nil, or_false] at hx
    rcases hx with rfl | rfl <;> exact ⟨by decide, by decide⟩
  refine ⟨hx'.1, hx'.2, fun y hy => ?_⟩
  have hlt : y < 8 := (heapOk_finite_of talk_ok hx'.1 (tag_live talk_ok hx'.2)).1 y hy
  rcases hall y hlt with rfl | ⟨h1, h2, h3⟩
  · exact absurd (by decide) (live_inside talk_ok hx'.2 hy).2
  · exact ⟨h1, fun h4 => h2 h4.2, h3⟩

example : textContents voice0 extT talk 1 = .ok "act".toList ∧ textsAll talk extT.contentTag 0 [1, 3] = .ok [2, 4, 6, 4] ∧
    textJoin voice0 extT talk [1, 3] = .ok "actc".toList := ⟨by decide, by decide, by decide⟩

example : ∃ L parts, textsAll talk extT.contentTag 0 [1, 3] = .ok L ∧ List.Forall₂ (fun t p => textContents voice0 extT talk t = .ok p) L parts ∧
    textJoin voice0 extT talk [1, 3] = .ok parts.flatten := C87_join talk_ok voice0_ok talk_speech

theorem talk_one : SpeechOk voice0 extT talk [1] := fun x hx => talk_speech x (by simp_all)

/-- Brackets around every text. -/
example : ∃ h', textsEach (wrapStep ['['] [']']) 0 talk [2, 4, 6] = .ok h' ∧ textsAll h' extT.contentTag 0 [1] = .ok [2, 4, 6] ∧
    textJoin voice0 extT h' [1] = .ok "[a][c][t]".toList := by
  obtain ⟨h', h1, h2, h3⟩ := C87_wrap talk_ok voice0_ok talk_one (L := [2, 4, 6]) (by decide) (by decide) (by decide) ['['] [']']
  exact ⟨h', h1, h2, h3.trans (by decide)⟩

example : ∃ h', textsEach (setStep extT ['@']) 0 talk [2, 4, 6] = .ok h' ∧ textsAll h' extT.contentTag 0 [1] = .ok [2, 4, 6] ∧
    textJoin voice0 extT h' [1] = .ok "@@@".toList := by
  obtain ⟨h', h1, h2, h3⟩ := C87_set talk_ok voice0_ok talk_one (L := [2, 4, 6]) (by decide) (by decide) (by decide) (s := ['@']) (by decide)
  exact ⟨h', h1, h2, h3.trans (by decide)⟩

/-- Numbered texts. -/
example : ∃ h', textsEach (fun g i x => match (g.node x).content with
      | some c => .ok (g.upd x fun n => { n with content := some (Nat.digitChar i :: c) }, true)
      | none => .error .borrow) 0 talk [2, 4, 6] = .ok h' ∧ textsAll h' extT.contentTag 0 [1] = .ok [2, 4, 6] ∧ textJoin voice0 extT h' [1] = .ok "0a1c2t".toList := by
  obtain ⟨h', h1, h2, h3⟩ := C87_edit talk_ok voice0_ok talk_one (L := [2, 4, 6]) (by decide) (by decide) (by decide) (f := fun i c => Nat.digitChar i :: c)
    (step := fun g i x => match (g.node x).content with
      | some c => .ok (g.upd x fun n => { n with content := some (Nat.digitChar i :: c) }, true)
      | none => .error .borrow) (by intro g i x c _ _ hc; simp only [hc])
  exact ⟨h', h1, h2, h3.trans (by decide)⟩

example : ∃ h', textsRemove talk [2, 4, 6] = .ok h' ∧ textJoin voice0 extT h' [1] = .ok [] :=
  C87_remove talk_ok voice0_ok talk_one (by simp [ContentTag]; decide) (L := [2, 4, 6]) (by decide) (by decide)

/-- The `b` is taken out of the `div`. -/
example : ∃ h' a o b, removeAll talk [3] = .ok h' ∧ textContents voice0 extT talk 3 = .ok o ∧ textContents voice0 extT h' 3 = .ok o ∧
    textContents voice0 extT talk 1 = .ok (a ++ o ++ b) ∧ textContents voice0 extT h' 1 = .ok (a ++ b) :=
  C87_taken talk_ok (noneUsed_eq ▸ attachedB_sound (by decide)) (by decide) (by decide) (by decide) .self

/-- The `p` gets the `b`. -/
example : ∃ h' a s r b, talk.insertAdjacent extT .beforeEnd 7 3 = .ok h' ∧ textContents voice0 extT talk 7 = .ok s ∧ textContents voice0 extT talk 3 = .ok r ∧
    textContents voice0 extT talk 7 = .ok (a ++ s ++ b) ∧ textContents voice0 extT h' 7 = .ok (a ++ (s ++ r) ++ b) :=
  C87_inside_partial (pos := .beforeEnd) talk_ok ⟨noneUsed_eq ▸ attachedB_sound (by decide), noneUsed_eq ▸ attachedB_sound (by decide), id, by decide, by decide⟩
    ⟨by decide, by simp [IsDoc]; decide, by decide, by
      intro h1
      have h7 : talk.parent 7 = some 0 := by decide
      have h0 : talk.parent 0 = none := by decide
      rcases above_cases h1 h7 with h2 | h2
      · cases h2
      · cases h2 with
        | parent h3 => rw [h0] at h3; cases h3
        | step _ h3 => rw [h0] at h3; cases h3⟩ (.inr rfl) (by decide) (by decide) (by decide) (by decide) .self (by
    intro h1
    rcases within_cases h1 with h2 | ⟨c, hc, _⟩
    · cases h2
    · revert hc; simp [talk, heapOf, Heap.kids, el])

example : ∃ a o b, textContents voice0 extT talk 3 = .ok o ∧ textContents voice0 extT talk 1 = .ok (a ++ o ++ b) ∧
    textContents voice0 extT (talk.setText extT 3 ['x']) 3 = .ok ['x'] ∧ textContents voice0 extT (talk.setText extT 3 ['x']) 1 = .ok (a ++ ['x'] ++ b) :=
  C87_set_text talk_ok voice0_ok (by decide) (by decide) (by decide) (.inr (by decide)) (by decide) (.step .self (by decide))

example : ∃ s, textContents voice0 extT talk 1 = .ok s ∧ Spoken voice0 extT talk false 1 s ∧ ∀ s', Spoken voice0 extT talk false 1 s' → s' = s :=
  C87_text talk_ok (by decide) (by decide)

/-- The text of a clone of the `div` and of the `b`. -/
example : ∃ h' Y, copyAll world0.copy talk [1, 3] = (h', Y) ∧ textJoin voice0 extT h' Y = .ok "actc".toList :=
  ⟨_, _, rfl, (C87_clone (X := [1, 3]) world0_ok talk_ok (by decide) rfl).trans (by decide)⟩

/-- The texts as `:contains` sees them. -/
def talkEnv : Env := { env0 with text := fun x => match textContents voice0 extT talk x with | .ok s => s | .error _ => [] }

theorem talk_wf : TreeWF talk 0 := wfCheck_sound (by decide)

theorem talk_metas : Metas talk 0 := fun x hx _ => by
  have : ∀ x < 8, metaCheck (talk.node x).attrs = true := by decide
  exact metaCheck_sound (this x (talk_wf.bound x hx))

/-- The text `ct` is in the `div`, in two texts of it, and not in the `b`. -/
example : filterQ talk talkEnv [1, 3] (sel1 (.contains "ct".toList)) = .ok [1] ∧
    filterQ talk talkEnv [1, 3] (sel1 (.contains "ct".toList)) = .ok ([1, 3].filter fun x => @decide _ (Classical.propDecidable (∃ a b, Spoken voice0 extT talk false x (a ++ "ct".toList ++ b)))) :=
  ⟨by decide, C87_contains talk_ok talk_wf talk_metas (by
    intro x hx hk
    obtain ⟨s, h1, _⟩ := C87_text (v := voice0) (e := extT) talk_ok (talk_wf.bound x hx) hk
    simp only [talkEnv, h1]) _ (by
    intro x hx
    simp only [List.mem_cons, List.not_mem_nil, or_false] at hx
    rcases hx with rfl | rfl
    · exact ⟨.step .self (by decide), by decide⟩
    · exact ⟨.step (p := 1) (.step .self (by decide)) (by decide), by decide⟩)⟩

example : ∃ s, textContents voice0 extT talk 0 = .ok s ∧ HtmlOf voice0.whole extT talk false 0 s :=
  C87_root (heapOk_finite_of talk_ok (by decide) id) (by decide)

/-- C87 does not hold in full: the text of a document is its markup. -/
theorem C87_fails_root : textContents voice0 extT talk 0 = .ok "<div>a<b>c</b>n<textarea>t</textarea></div><p></p>".toList ∧
    textsOf talk extT.contentTag 0 0 = .ok [2, 4, 6] := ⟨by decide, by decide⟩

set_option maxRecDepth 100000 in
/-- The loop over the texts of `talk` that stops at position 1: the second text is still changed, the third is not. -/
example : ∃ h', textsEach (fun h i x => .ok (h.setText extT x ['z'], i == 0)) 0 talk ([2] ++ 4 :: [6]) = .ok h' ∧
    (h'.node 4).content = some ['z'] ∧ (h'.node 6).content = (talk.node 6).content :=
  ⟨_, (C87_each (step := fun h i x => .ok (h.setText extT x ['z'], i == 0)) (i := 0) (h := talk) (A := [2]) (.next rfl .none)).2.1 4 [6] _ rfl, by decide, by decide⟩

end Visdom
