import Verif.Model.Chars
import Verif.Spec.Chars
import Verif.Props.Speech
/-!
# C89: `text_chars` gives the texts as they are stored, `text` decodes them
-/
namespace Visdom
open Spec

section
variable {h : Heap} {D : Nat → Prop} {e : Ext} {v raw : Voice} {dec : List Char → List Char}

theorem textChars_eq (raw : Voice) (e : Ext) {x : Nat} (hk : (h.node x).kind ≠ .comment) : textChars raw e h x = textContents raw e h x := by
  unfold textChars textContents
  have : ((h.node x).kind == Kind.comment) = false := by simpa using hk
  rw [this, Bool.or_false]

/-- What a text of `texts(0)` says. -/
theorem says_text (ok : HeapOk h D) (vo : VoiceOk v e) {t : Nat} (hb : t < h.size) (tx : Textual e.contentTag h t) (hk0 : h.kids t = []) :
    textContents v e h t = .ok (if (h.node t).kind = .tag then v.body (h.node t).name (h.node t).content else v.say false (h.node t).kind (h.node t).content) := by
  rcases tx with tx | tx | tx
  · rw [textContents_text vo (.inl tx), if_neg (by rw [tx]; simp)]
  · rw [textContents_text vo (.inr tx), if_neg (by rw [tx]; simp)]
  · rw [if_pos tx.1]
    have hf := heapOk_finite_of ok hb (tag_live ok tx.1)
    exact (textContents_elem hf tx.1 (fun y hy => (live_inside ok tx.1 hy).2) _).2 (spoken_content vo tx.1 tx.2 hk0 false)

theorem parts_map {f : Nat → R (List Char)} {g : Nat → List Char} : ∀ {L : List Nat} {parts : List (List Char)}, List.Forall₂ (fun t p => f t = .ok p) L parts →
    (∀ t ∈ L, f t = .ok (g t)) → parts.flatten = L.flatMap g
  | _, _, .nil, _ => rfl
  | t :: L, p :: ps, .cons h1 h2, hg => by
    have := hg t (by simp)
    rw [h1, Except.ok.injEq] at this
    rw [List.flatten_cons, List.flatMap_cons, this, parts_map h2 fun t ht => hg t (by simp [ht])]

theorem says_stored (vb : Verbatim raw) {t : Nat} (tx : Textual e.contentTag h t) :
    (if (h.node t).kind = .tag then raw.body (h.node t).name (h.node t).content else raw.say false (h.node t).kind (h.node t).content) = stored h t := by
  unfold stored
  rcases tx with tx | tx | tx
  · rw [if_neg (by rw [tx]; simp), vb.text _ _ _ (.inl tx)]
  · rw [if_neg (by rw [tx]; simp), vb.text _ _ _ (.inr tx)]
  · rw [if_pos tx.1, vb.body]

theorem says_decoded (vb : Verbatim raw) (de : Decodes dec v raw) {t : Nat} (tx : Textual e.contentTag h t) :
    (if (h.node t).kind = .tag then v.body (h.node t).name (h.node t).content else v.say false (h.node t).kind (h.node t).content) = readOut dec h t := by
  unfold readOut stored
  rcases tx with tx | tx | tx
  · rw [if_neg (by rw [tx]; simp), if_neg (by rw [tx]; simp), de.text _ _ (.inl tx), vb.text _ _ _ (.inl tx)]
  · rw [if_neg (by rw [tx]; simp), if_neg (by rw [tx]; simp), de.text _ _ (.inr tx), vb.text _ _ _ (.inr tx)]
  · rw [if_pos tx.1, if_pos tx.1, de.body, vb.body]

theorem onlyTexts_of (de : Decodes dec v raw) {x : Nat} (ot : OnlyTexts raw e h x) : OnlyTexts v e h x := by
  intro y hy
  obtain ⟨h1, h2, h3⟩ := ot y hy
  refine ⟨h1, h2, ?_⟩
  by_cases k1 : (h.node y).kind = .text
  · exact .inr (.inl k1)
  by_cases k2 : (h.node y).kind = .spaces
  · exact .inr (.inr (.inl k2))
  rcases h3 with h3 | h3 | h3 | h3
  · exact .inl h3
  · exact absurd h3 k1
  · exact absurd h3 k2
  · exact .inr (.inr (.inr fun ct => (de.other ct _ _ k1 k2).trans (h3 ct)))

theorem textual_kind {t : Nat} (tx : Textual e.contentTag h t) : (h.node t).kind ≠ .comment := by
  rcases tx with tx | tx | tx
  · rw [tx]; simp
  · rw [tx]; simp
  · rw [tx.1]; simp

/-- C89: `text_chars` of an element is what is stored in its texts, one after the other in document order, and `text` is the same with every text decoded;
of the texts themselves likewise. -/
theorem C89_chars (ok : HeapOk h D) (vr : VoiceOk raw e) (vo : VoiceOk v e) (vb : Verbatim raw) (de : Decodes dec v raw) {x : Nat} (hx : x < h.size)
    (hk : (h.node x).kind = .tag) (ot : OnlyTexts raw e h x) :
    ∃ L, textsOf h e.contentTag 0 x = .ok L ∧ textChars raw e h x = .ok (L.flatMap (stored h)) ∧ textContents v e h x = .ok (L.flatMap (readOut dec h)) ∧
      ∀ t ∈ L, textChars raw e h t = .ok (stored h t) ∧ textContents v e h t = .ok (readOut dec h t) := by
  obtain ⟨L, ps, h1, h2, h3, h4⟩ := texts_join1 ok vr hx hk ot
  obtain ⟨L', qs, g1, _, g3, g4⟩ := texts_join1 ok vo hx hk (onlyTexts_of de ot)
  rw [h1] at g1
  cases g1
  have hb : ∀ t ∈ L, t < h.size := fun t ht => (heapOk_finite_of ok hx (tag_live ok hk)).1 t (h2 t ht).1
  have e1 : ∀ t ∈ L, textContents raw e h t = .ok (stored h t) := fun t ht => by
    rw [says_text ok vr (hb t ht) (h2 t ht).2.1 (h2 t ht).2.2, says_stored vb (h2 t ht).2.1]
  have e2 : ∀ t ∈ L, textContents v e h t = .ok (readOut dec h t) := fun t ht => by
    rw [says_text ok vo (hb t ht) (h2 t ht).2.1 (h2 t ht).2.2, says_decoded vb de (h2 t ht).2.1]
  refine ⟨L, h1, ?_, ?_, fun t ht => ⟨?_, e2 t ht⟩⟩
  · rw [textChars_eq raw e (by rw [hk]; simp), h4, parts_map h3 e1]
  · rw [g4, parts_map g3 e2]
  · rw [textChars_eq raw e (textual_kind (h2 t ht).2.1)]
    exact e1 t ht

/-- C89: where decoding changes nothing, `text` and `text_chars` are the same. -/
theorem C89_same (ok : HeapOk h D) (vr : VoiceOk raw e) (vo : VoiceOk v e) (vb : Verbatim raw) (de : Decodes dec v raw) {x : Nat} (hx : x < h.size)
    (hk : (h.node x).kind = .tag) (ot : OnlyTexts raw e h x)
    (hd : ∀ t, Below h x t → (h.node t).kind = .text ∨ (h.node t).kind = .spaces → dec (stored h t) = stored h t) : textChars raw e h x = textContents v e h x := by
  obtain ⟨L, ps, h1, h2, _, _⟩ := texts_join1 ok vr hx hk ot
  obtain ⟨L', g1, g2, g3, _⟩ := C89_chars ok vr vo vb de hx hk ot
  rw [h1] at g1
  cases g1
  rw [g2, g3]
  congr 1
  refine List.flatMap_congr fun t ht => ?_
  obtain ⟨w, tx, _⟩ := h2 t ht
  unfold readOut
  by_cases hkt : (h.node t).kind = .tag
  · rw [if_pos hkt]
  · rw [if_neg hkt]
    have hkt' : (h.node t).kind = .text ∨ (h.node t).kind = .spaces := by
      rcases tx with tx | tx | tx
      · exact .inl tx
      · exact .inr tx
      · exact absurd tx.1 hkt
    refine (hd t ?_ hkt').symm
    rcases within_cases w with rfl | hw
    · exact absurd hk hkt
    · exact hw

/-- One text that is changed. -/
theorem edited_one {f : List Char → List Char} {t : Nat} {L : List Nat} (hc : ∀ y ∈ L, (h.node y).content.isSome) :
    Edited (fun i c => if L[i]? = some t then f c else c) 0 L h (if t ∈ L then h.upd t fun n => { n with content := some (f (stored h t)) } else h) := by
  refine ⟨by split <;> rfl, fun y hy => ?_, fun j x hj => ?_⟩
  · split
    · rename_i ht
      have : y ≠ t := fun h1 => hy (h1 ▸ ht)
      simp [Heap.upd, this]
    · rfl
  · have hx := List.mem_of_getElem? hj
    obtain ⟨c, hcx⟩ := Option.isSome_iff_exists.1 (hc x hx)
    by_cases hxt : x = t
    · subst hxt
      rw [if_pos hx]
      simp [Heap.upd, hj, stored]
    · have h1 : (if t ∈ L then h.upd t fun n => { n with content := some (f (stored h t)) } else h).node x = h.node x := by
        split
        · simp [Heap.upd, hxt]
        · rfl
      rw [h1, if_neg (by rw [Nat.zero_add, hj]; simpa using hxt)]
      have h2 : some ((h.node x).content.getD []) = (h.node x).content := by rw [hcx]; rfl
      rw [h2]

theorem mapIdx_eq {α β : Type} {F : Nat → α → β} {G : α → β} {L : List α} (hF : ∀ i y, L[i]? = some y → F i y = G y) : L.mapIdx F = L.map G := by
  refine List.ext_getElem? fun i => ?_
  rw [List.getElem?_mapIdx, List.getElem?_map]
  cases hi : L[i]? with
  | none => rfl
  | some y => rw [Option.map_some, Option.map_some, hF i y hi]

theorem says_with (vb : Verbatim raw) {t : Nat} (tx : Textual e.contentTag h t) (c : List Char) : saysWith raw h t c = c := by
  unfold saysWith
  rcases tx with tx | tx | tx
  · rw [if_neg (by rw [tx]; simp), vb.text _ _ _ (.inl tx)]; rfl
  · rw [if_neg (by rw [tx]; simp), vb.text _ _ _ (.inr tx)]; rfl
  · rw [if_pos tx.1, vb.body]; rfl

/-- C89: `append_text(s)` and `prepend_text(s)` on a text in the element put exactly the characters `s` behind or before what is stored in it; all other texts
stay as they are, also in what `text_chars` of the element gives. -/
theorem C89_append (ok : HeapOk h D) (vr : VoiceOk raw e) (vb : Verbatim raw) {x : Nat} (hx : x < h.size)
    (hk : (h.node x).kind = .tag) (ot : OnlyTexts raw e h x) {L : List Nat} (hL : textsOf h e.contentTag 0 x = .ok L)
    (hc : ∀ y ∈ L, (h.node y).content.isSome) {t : Nat} (ht : t ∈ L) (atEnd : Bool) (s : List Char) :
    ∃ h', (if atEnd then h.appendText t s else h.prependText t s) = .ok h' ∧ textChars raw e h' t = .ok (if atEnd then stored h t ++ s else s ++ stored h t) ∧
      textChars raw e h' x = .ok (L.flatMap fun y => if y = t then (if atEnd then stored h y ++ s else s ++ stored h y) else stored h y) := by
  obtain ⟨L', ps, h1, h2, _, _⟩ := texts_join1 ok vr hx hk ot
  rw [hL] at h1
  cases h1
  let f : List Char → List Char := fun c => if atEnd then c ++ s else s ++ c
  have ed := edited_one (f := f) (t := t) hc
  rw [if_pos ht] at ed
  obtain ⟨c, hct⟩ := Option.isSome_iff_exists.1 (hc t ht)
  have hst : stored h t = c := by unfold stored; rw [hct]; rfl
  have hsp : SpeechOk raw e h [x] := fun y hy => by rw [List.mem_singleton.1 hy]; exact ⟨hx, hk, ot⟩
  have hall : textsAll h e.contentTag 0 [x] = .ok L := by unfold textsAll; rw [flatMapR, hL]; simp [flatMapR]
  obtain ⟨g1, g2⟩ := ed.join ok vr hsp hall
  refine ⟨h.upd t fun n => { n with content := some (f (stored h t)) }, ?_, ?_, ?_⟩
  · rw [hst]
    cases atEnd <;> simp only [Heap.appendText, Heap.prependText, hct] <;> rfl
  · obtain ⟨w, tx, hk0⟩ := h2 t ht
    have hkn := (ed.same t).1
    have tx' : Textual e.contentTag (h.upd t fun n => { n with content := some (f (stored h t)) }) t := by
      unfold Textual ContentTag at tx ⊢
      rw [hkn, (ed.same t).2.1]
      exact tx
    rw [textChars_eq raw e (textual_kind tx'), says_text (ed.heapOk ok) vr (by rw [ed.size]; exact (heapOk_finite_of ok hx (tag_live ok hk)).1 t w) tx' (by rw [ed.kids]; exact hk0),
      says_stored vb tx']
    simp [stored, Heap.upd, f]
  · have hkx : ((h.upd t fun n => { n with content := some (f (stored h t)) }).node x).kind ≠ .comment := by rw [(ed.same x).1, hk]; simp
    rw [textChars_eq raw e hkx]
    have : textJoin raw e (h.upd t fun n => { n with content := some (f (stored h t)) }) [x] = textContents raw e (h.upd t fun n => { n with content := some (f (stored h t)) }) x := by
      unfold textJoin
      simp only [flatMapR]
      cases textContents raw e (h.upd t fun n => { n with content := some (f (stored h t)) }) x <;> simp
    rw [← this, g2, mapIdx_eq (G := fun y => if y = t then (if atEnd then stored h y ++ s else s ++ stored h y) else stored h y)]
    · rw [List.flatMap_def]
    · intro i y hi
      rw [says_with vb (h2 y (List.mem_of_getElem? hi)).2.1, hi]
      by_cases hy : y = t
      · subst hy
        simp [f, stored]
      · simp [hy, stored]

/-- C89: after `set_text(s)` an element that is not a content tag stores the encoded text: `text_chars` of it is `encode s` (nothing for the empty text), and in `text_chars` of every element
around it that stands where its old characters were. -/
theorem C89_set_text (ok : HeapOk h D) (vr : VoiceOk raw e) (vb : Verbatim raw) {x q : Nat} (hx : x < h.size) (hk : (h.node x).kind = .tag)
    (hct : e.contentTag (h.node x).name = false) (s : List Char) (hkq : (h.node q).kind = .tag) (hq : Within h q x) :
    ∃ a o b, textChars raw e h x = .ok o ∧ textChars raw e h q = .ok (a ++ o ++ b) ∧ textChars raw e (h.setText e x s) x = .ok (if s = [] then [] else e.encode s) ∧
      textChars raw e (h.setText e x s) q = .ok (a ++ (if s = [] then [] else e.encode s) ++ b) := by
  obtain ⟨a, o, t, b, h0, h1, h2, h3, h4⟩ := set_text_says ok vr hx hk hct s hkq hq
  have ht : t = if s = [] then [] else e.encode s := by
    rw [h0, vb.text _ _ _ (.inl rfl)]
    rfl
  have hk' : ∀ y, y < h.size → (h.node y).kind = .tag → ((h.setText e x s).node y).kind ≠ .comment := fun y hy hk2 => by
    rw [setText_kind ok vr hx hk hct s y hy, hk2]
    simp
  subst ht
  refine ⟨a, o, b, ?_, ?_, ?_, ?_⟩
  · rw [textChars_eq raw e (by rw [hk]; simp)]; exact h1
  · rw [textChars_eq raw e (by rw [hkq]; simp)]; exact h2
  · rw [textChars_eq raw e (hk' x hx hk)]; exact h3
  · rw [textChars_eq raw e (hk' q (within_bound ok (tag_live ok hkq) hx hq) hkq)]; exact h4

/-- C89: of a comment `text_chars` is what stands in the source, with its brackets, while `text` is what a comment says. -/
theorem C89_comment {x : Nat} (hk : (h.node x).kind = .comment) :
    textChars raw e h x = .ok (raw.whole.leaf false .comment (h.node x).name (h.node x).attrs (h.node x).content) ∧
      textContents v e h x = .ok (v.say false .comment (h.node x).content) := by
  unfold textChars textContents Heap.fuel
  rw [if_neg (by simp [Heap.isElem, hk]), if_pos (by simp [hk])]
  simp only [pieceF, hk]
  exact ⟨trivial, rfl⟩

/-- C89: of a document or fragment `text_chars` is the whole markup, as it is written without decoding. -/
theorem C89_root {x : Nat} (hf : FiniteTree h x) (hk : (h.node x).kind = .root) : ∃ s, textChars raw e h x = .ok s ∧ HtmlOf raw.whole e h false x s := by
  rw [textChars_eq raw e (by rw [hk]; simp)]
  exact C87_root hf hk

end

theorem voice0_verbatim : Verbatim voice0 where
  text := by
    rintro ct k c (rfl | rfl) <;> simp [voice0]
  body := fun _ _ => rfl

/-- A decoder that reads `c` as `&`. -/
def decC (s : List Char) : List Char := s.map fun c => if c = 'c' then '&' else c

/-- The voice with that decoder. -/
def voiceC : Voice where
  say := fun ct k c => if k = .text ∨ k = .spaces then decC (voice0.say ct k c) else voice0.say ct k c
  body := voice0.body
  whole := { rd0 with leaf := fun ct k n m c => if k = .text ∨ k = .spaces then decC (rd0.leaf ct k n m c) else rd0.leaf ct k n m c }

theorem voiceC_ok : VoiceOk voiceC extT where
  text := by
    rintro k n m c (rfl | rfl) <;> simp [voiceC, voice0, rd0]
  cased := voice0_ok.cased

theorem voiceC_decodes : Decodes decC voiceC voice0 where
  text := by
    rintro k c (rfl | rfl) <;> simp [voiceC]
  other := fun ct k c h1 h2 => by simp [voiceC, h1, h2]
  body := rfl

theorem talk_texts : OnlyTexts voice0 extT talk 1 := (talk_one 1 (by simp)).2.2

/-- The text of the `div` is decoded, its characters are not. -/
example : textChars voice0 extT talk 1 = .ok "act".toList ∧ textContents voiceC extT talk 1 = .ok "a&t".toList := by
  obtain ⟨L, h1, h2, h3, _⟩ := C89_chars talk_ok voice0_ok voiceC_ok voice0_verbatim voiceC_decodes (x := 1) (by decide) (by decide) talk_texts
  have hL : textsOf talk extT.contentTag 0 1 = .ok [2, 4, 6] := by decide
  rw [hL] at h1
  cases h1
  exact ⟨h2.trans (by decide), h3.trans (by decide)⟩

/-- A decoder that changes no text of the `div`. -/
example : textChars voice0 extT talk 1 = textContents voice0 extT talk 1 :=
  C89_same (dec := id) talk_ok voice0_ok voice0_ok voice0_verbatim ⟨fun _ _ _ => rfl, fun _ _ _ _ _ => rfl, rfl⟩ (by decide) (by decide) talk_texts fun _ _ _ => rfl

/-- `append_text("&amp;")` on the text of the `b`. -/
example : ∃ h', talk.appendText 4 "&amp;".toList = .ok h' ∧ textChars voice0 extT h' 4 = .ok "c&amp;".toList ∧ textChars voice0 extT h' 1 = .ok "ac&amp;t".toList := by
  obtain ⟨h', h1, h2, h3⟩ := C89_append talk_ok voice0_ok voice0_verbatim (x := 1) (by decide) (by decide) talk_texts (L := [2, 4, 6]) (by decide) (by decide) (t := 4)
    (by decide) true "&amp;".toList
  exact ⟨h', h1, h2.trans (by decide), h3.trans (by decide)⟩

/-- `set_text` on the `b`, seen from the `div`. -/
example : ∃ a o b, textChars voice0 extT talk 3 = .ok o ∧ textChars voice0 extT talk 1 = .ok (a ++ o ++ b) ∧ textChars voice0 extT (talk.setText extT 3 ['x']) 3 = .ok (extT.encode ['x']) ∧
    textChars voice0 extT (talk.setText extT 3 ['x']) 1 = .ok (a ++ extT.encode ['x'] ++ b) :=
  C89_set_text talk_ok voice0_ok voice0_verbatim (by decide) (by decide) (by decide) ['x'] (by decide) (.step .self (by decide))

/-- C89 does not hold in full: of a comment `text_chars` is the markup and `text` is not, although there is nothing to decode. -/
theorem C89_fails_comment : textChars voice0 extT talk 5 = .ok "n".toList ∧ textContents voice0 extT talk 5 = .ok [] := ⟨by decide, by decide⟩

example : ∃ s, textChars voice0 extT talk 0 = .ok s ∧ HtmlOf voice0.whole extT talk false 0 s := C89_root (heapOk_finite_of talk_ok (by decide) id) (by decide)

end Visdom
