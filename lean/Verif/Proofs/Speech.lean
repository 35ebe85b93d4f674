import Verif.Proofs.Html
import Verif.Spec.Speech
/-!
# The text of an element is the text of its texts
-/
namespace Visdom
open Spec

section
variable {h h' : Heap} {e : Ext} {v : Voice}

mutual
theorem spoken_html {ct : Bool} {x : Nat} {s : List Char} : Spoken v e h ct x s → HtmlOf v.quiet e h ct x s
  | .leaf h1 h2 => .leaf h1 h2
  | .plain h1 h2 h3 => by
    have := HtmlOf.elem (rd := v.quiet) (e := e) (ct := ct) h1 (h2 ▸ spokenAll_html h3)
    simpa [startOf, endOf, bodyOf, Voice.quiet, h2] using this
  | .content h1 h2 h3 => by
    have := HtmlOf.elem (rd := v.quiet) (e := e) (ct := ct) h1 (h2 ▸ spokenAll_html h3)
    simpa [startOf, endOf, bodyOf, Voice.quiet, h2] using this

theorem spokenAll_html {ct : Bool} {l : List Nat} {s : List Char} : SpokenAll v e h ct l s → HtmlsOf v.quiet e h ct l s
  | .nil => .nil
  | .cons h1 h2 => .cons (spoken_html h1) (spokenAll_html h2)
end

mutual
theorem html_spoken {ct : Bool} {x : Nat} {s : List Char} : HtmlOf v.quiet e h ct x s → (∀ y, Within h x y → (h.node y).kind ≠ .root) → Spoken v e h ct x s
  | .leaf h1 h2, _ => .leaf h1 h2
  | .root h1 _, hn => absurd h1 (hn _ .self)
  | .elem h1 h2, hn => by
    have h3 := htmls_spoken h2 fun c hc y hy => hn y (hy.head hc)
    by_cases hb : e.contentTag (h.node x).name = true
    · rw [hb] at h3
      simpa [startOf, endOf, bodyOf, Voice.quiet, hb] using Spoken.content (ct := ct) h1 hb h3
    · rw [Bool.not_eq_true] at hb
      rw [hb] at h3
      simpa [startOf, endOf, bodyOf, Voice.quiet, hb] using Spoken.plain (ct := ct) h1 hb h3

theorem htmls_spoken {ct : Bool} {l : List Nat} {s : List Char} : HtmlsOf v.quiet e h ct l s → (∀ c ∈ l, ∀ y, Within h c y → (h.node y).kind ≠ .root) →
    SpokenAll v e h ct l s
  | .nil, _ => .nil
  | .cons h1 h2, hn => .cons (html_spoken h1 (hn _ (by simp))) (htmls_spoken h2 fun c hc => hn c (by simp [hc]))
end

theorem spoken_fun {ct : Bool} {x : Nat} {s t : List Char} (h1 : Spoken v e h ct x s) (h2 : Spoken v e h ct x t) : s = t :=
  htmlOf_fun (spoken_html h1) (spoken_html h2)

theorem spokenAll_append {ct : Bool} {l m : List Nat} {s t : List Char} (h1 : SpokenAll v e h ct l s) (h2 : SpokenAll v e h ct m t) :
    SpokenAll v e h ct (l ++ m) (s ++ t) := by
  induction l generalizing s with
  | nil => cases h1; exact h2
  | cons x l ih =>
    cases h1 with
    | cons a b => rw [List.cons_append, List.append_assoc]; exact .cons a (ih b)

/-- The text of an element is what its children say. -/
theorem textContents_elem {x : Nat} (hf : FiniteTree h x) (hk : (h.node x).kind = .tag) (hn : ∀ y, Within h x y → (h.node y).kind ≠ .root) (s : List Char) :
    textContents v e h x = .ok s ↔ Spoken v e h false x s := by
  have hb : textContents v e h x = outerHtml v.quiet e h x := by
    unfold textContents outerHtml
    rw [if_pos]
    simp [Heap.isElem, hk]
  rw [hb, outerHtml_iff hf]
  exact ⟨fun h1 => html_spoken h1 hn, spoken_html⟩

/-- The text of a text. -/
theorem textContents_text (ok : VoiceOk v e) {x : Nat} (hk : (h.node x).kind = .text ∨ (h.node x).kind = .spaces) :
    textContents v e h x = .ok (v.say false (h.node x).kind (h.node x).content) := by
  unfold textContents
  rw [if_neg (by rcases hk with hk | hk <;> simp [Heap.isElem, hk])]
  unfold Heap.fuel
  rw [pieceF]
  have hl := ok.text (h.node x).kind (h.node x).name (h.node x).attrs (h.node x).content hk
  rcases hk with hk | hk <;> rw [hk] at hl ⊢ <;> exact congrArg _ hl

theorem onlyTexts_down {x y : Nat} (ot : OnlyTexts v e h x) (hw : Within h x y) : OnlyTexts v e h y := fun z hz => ot z (hw.trans hz)

theorem tagNames_tag {x : Nat} (hk : (h.node x).kind = .tag) : h.tagNames x = lowerStr (h.node x).name := by
  unfold Heap.tagNames
  rw [if_pos (by simp [Heap.isElem, hk])]

/-- A content tag says its content. -/
theorem spoken_content (ok : VoiceOk v e) {x : Nat} (hk : (h.node x).kind = .tag) (hc : e.contentTag (lowerStr (h.node x).name) = true) (he : h.kids x = []) (ct : Bool) :
    Spoken v e h ct x (v.body (h.node x).name (h.node x).content) := by
  have := Spoken.content (v := v) (e := e) (ct := ct) hk (by rw [← ok.cased]; exact hc) (s := []) (by rw [he]; exact .nil)
  simpa using this

theorem forall₂_append' {α β : Type} {P : α → β → Prop} {a c : List α} {b d : List β} (h1 : List.Forall₂ P a b) (h2 : List.Forall₂ P c d) :
    List.Forall₂ P (a ++ c) (b ++ d) := by
  induction h1 with
  | nil => exact h2
  | cons h _ ih => exact .cons h ih

/-- What the walk of `texts(0)` collects says together what the element says. -/
theorem loop_join (ok : VoiceOk v e) : ∀ (k depth x : Nat) (L : List Nat), textsLoop h e.contentTag none (fun _ _ => true) (fun _ => true) k depth x = .ok L →
    (h.node x).kind = .tag → OnlyTexts v e h x →
    (∀ t ∈ L, Within h x t ∧ Textual e.contentTag h t ∧ h.kids t = [] ∨ Within h x t ∧ ((h.node t).kind = .text ∨ (h.node t).kind = .spaces)) ∧
    ∃ parts, List.Forall₂ (fun t p => Spoken v e h false t p) L parts ∧ Spoken v e h false x parts.flatten
  | 0, _, _, _, hr, _, _ => by simp [textsLoop] at hr
  | k + 1, depth, x, L, hr, hk, ot => by
    rw [textsLoop] at hr
    by_cases he : h.kids x = []
    · rw [if_pos (by simp [he]), tagNames_tag hk] at hr
      by_cases hc : e.contentTag (lowerStr (h.node x).name) = true
      · simp only [hc, Bool.and_self, if_true, Except.ok.injEq] at hr
        subst hr
        refine ⟨fun t ht => ?_, [_], .cons (spoken_content ok hk hc he false) .nil, by simpa using spoken_content ok hk hc he false⟩
        rw [List.mem_singleton] at ht
        subst ht
        exact .inl ⟨.self, .inr (.inr ⟨hk, hc⟩), he⟩
      · simp only [hc, Bool.false_and, Bool.false_eq_true, if_false, Except.ok.injEq] at hr
        subst hr
        refine ⟨by simp, [], .nil, ?_⟩
        refine .plain hk ?_ (he ▸ .nil)
        rw [← ok.cased]
        simpa using hc
    · rw [if_neg (by simpa using he)] at hr
      have hnc : e.contentTag (h.node x).name = false := by
        rw [← ok.cased, Bool.eq_false_iff]
        intro hc
        exact he ((ot x .self).2.1 ⟨hk, hc⟩)
      have key : ∀ (l : List Nat) (M : List Nat), (∀ c ∈ l, c ∈ h.kids x) →
          flatMapR (fun c => if h.isText c then .ok (if (fun _ _ => true) depth c = true then [c] else [])
            else if h.isElem c then
              if e.contentTag (h.tagNames c) then .ok (if (fun _ _ => true) depth c = true then [c] else [])
              else if belowLimit none (depth + 1) && (fun _ => true) c then
                textsLoop h e.contentTag none (fun _ _ => true) (fun _ => true) k (depth + 1) c
              else .ok []
            else .ok []) l = .ok M →
          (∀ t ∈ M, Within h x t ∧ Textual e.contentTag h t ∧ h.kids t = [] ∨ Within h x t ∧ ((h.node t).kind = .text ∨ (h.node t).kind = .spaces)) ∧
          ∃ parts, List.Forall₂ (fun t p => Spoken v e h false t p) M parts ∧ SpokenAll v e h false l parts.flatten := by
        intro l
        induction l with
        | nil =>
          intro M _ hM
          rw [flatMapR] at hM
          cases hM
          exact ⟨by simp, [], .nil, .nil⟩
        | cons c l ih =>
          intro M hl hM
          rw [flatMapR] at hM
          split at hM
          · cases hM
          · rename_i A hA
            split at hM
            · cases hM
            · rename_i B hB
              cases hM
              obtain ⟨b0, parts, b1, b2⟩ := ih B (fun y hy => hl y (by simp [hy])) hB
              have hcx := hl c (by simp)
              have hwc : Within h x c := .step .self hcx
              obtain ⟨o1, o2, o3⟩ := ot c hwc
              have hA' : (∀ t ∈ A, Within h x t ∧ Textual e.contentTag h t ∧ h.kids t = [] ∨ Within h x t ∧ ((h.node t).kind = .text ∨ (h.node t).kind = .spaces)) ∧
                  ∃ ps, List.Forall₂ (fun t p => Spoken v e h false t p) A ps ∧ Spoken v e h false c ps.flatten := by
                by_cases ht : h.isText c = true
                · rw [if_pos ht] at hA
                  simp only [if_true, Except.ok.injEq] at hA
                  subst hA
                  have ht' : (h.node c).kind = .text ∨ (h.node c).kind = .spaces := by simpa [Heap.isText] using ht
                  have hs : Spoken v e h false c _ := .leaf (by rcases ht' with h1 | h1 <;> rw [h1] <;> simp) (by rcases ht' with h1 | h1 <;> rw [h1] <;> simp)
                  refine ⟨fun t h1 => ?_, [_], .cons hs .nil, by simpa using hs⟩
                  rw [List.mem_singleton] at h1
                  subst h1
                  exact .inr ⟨hwc, ht'⟩
                · rw [if_neg ht] at hA
                  by_cases hel : h.isElem c = true
                  · rw [if_pos hel] at hA
                    have hkc : (h.node c).kind = .tag := by simpa [Heap.isElem] using hel
                    by_cases hcc : e.contentTag (h.tagNames c) = true
                    · rw [if_pos hcc] at hA
                      simp only [if_true, Except.ok.injEq] at hA
                      subst hA
                      rw [tagNames_tag hkc] at hcc
                      have hec := o2 ⟨hkc, hcc⟩
                      have hs := spoken_content ok hkc hcc hec false
                      refine ⟨fun t h1 => ?_, [_], .cons hs .nil, by simpa using hs⟩
                      rw [List.mem_singleton] at h1
                      subst h1
                      exact .inl ⟨hwc, .inr (.inr ⟨hkc, hcc⟩), hec⟩
                    · rw [if_neg hcc] at hA
                      simp only [belowLimit, Bool.and_self, if_true] at hA
                      obtain ⟨i1, i2⟩ := loop_join ok k (depth + 1) c A hA hkc (onlyTexts_down ot hwc)
                      exact ⟨fun t h1 => (i1 t h1).imp (fun h2 => ⟨hwc.trans h2.1, h2.2⟩) fun h2 => ⟨hwc.trans h2.1, h2.2⟩, i2⟩
                  · rw [if_neg hel] at hA
                    cases hA
                    have hkc : (h.node c).kind ≠ .tag := by simpa [Heap.isElem] using hel
                    refine ⟨by simp, [], .nil, ?_⟩
                    have hs : Spoken v e h false c _ := .leaf o1 hkc
                    rcases o3 with o3 | o3 | o3 | o3
                    · exact absurd o3 hkc
                    · simp [Heap.isText, o3] at ht
                    · simp [Heap.isText, o3] at ht
                    · rw [o3] at hs
                      exact hs
              obtain ⟨a0, ps, a1, a2⟩ := hA'
              refine ⟨fun t ht => ?_, ps ++ parts, forall₂_append' a1 b1, ?_⟩
              · rcases List.mem_append.1 ht with ht | ht
                · exact a0 t ht
                · exact b0 t ht
              · rw [List.flatten_append]
                exact .cons a2 b2
      obtain ⟨k0, parts, k1, k2⟩ := key (h.kids x) L (fun _ h1 => h1) hr
      exact ⟨k0, parts, k1, .plain hk hnc k2⟩

/-- `texts` of a finite tree ends. -/
theorem textsLoop_total (ct : List Char → Bool) (lim : Option Nat) (handle : Nat → Nat → Bool) (recH : Nat → Bool) : ∀ (n : Nat) (anc : List Nat) (depth x : Nat),
    FiniteTree h x → anc.Nodup → (∀ a ∈ anc, a < h.size ∧ Below h a x) → h.size + 1 ≤ n + anc.length → ∃ L, textsLoop h ct lim handle recH n depth x = .ok L
  | 0, anc, _, x, _, hn, ha, hl => by
    have := nodup_bound hn fun a h1 => (ha a h1).1
    omega
  | n + 1, anc, depth, x, hf, hn, ha, hl => by
    have hx : x ∉ anc := fun hm => acc_not_below hf.2 (ha x hm).2
    rw [textsLoop]
    split
    · exact ⟨_, rfl⟩
    · refine flatMapR_total fun c hc => ?_
      obtain ⟨M, hM⟩ := textsLoop_total ct lim handle recH n (x :: anc) (depth + 1) c ⟨fun y hy => hf.1 y (hy.head hc), hf.2.inv hc⟩ (List.nodup_cons.2 ⟨hx, hn⟩) (by
        intro a hm
        rcases List.mem_cons.1 hm with rfl | hm
        · exact ⟨hf.1 _ .self, .of_child hc⟩
        · exact ⟨(ha a hm).1, Below.snoc (ha a hm).2.within hc⟩) (by simp only [List.length_cons]; omega)
      rw [hM]
      repeat' split
      all_goals exact ⟨_, rfl⟩

theorem textsOf_total (ct : List Char → Bool) (limit : Nat) {x : Nat} (hf : FiniteTree h x) : ∃ L, textsOf h ct limit x = .ok L :=
  textsLoop_total ct _ _ _ h.fuel [] 0 x hf (by simp) (by simp) (by simp [Heap.fuel])

/-- `texts(0)` leaves no text out. -/
theorem loop_all (hleaf : ∀ y, (h.node y).kind ≠ .root → (h.node y).kind ≠ .tag → h.kids y = []) : ∀ (k depth x : Nat) (L : List Nat),
    textsLoop h e.contentTag none (fun _ _ => true) (fun _ => true) k depth x = .ok L → OnlyTexts v e h x → ∀ y, Below h x y → Textual e.contentTag h y → y ∈ L
  | 0, _, _, _, hr, _, _, _, _ => by simp [textsLoop] at hr
  | k + 1, depth, x, L, hr, ot, y, ⟨c, hc, hw⟩, ht => by
    rw [textsLoop, if_neg (by intro h1; rw [List.isEmpty_iff] at h1; rw [h1] at hc; cases hc)] at hr
    have hwc : Within h x c := .step .self hc
    obtain ⟨o1, o2, o3⟩ := ot c hwc
    obtain ⟨heach, hmem⟩ := flatMapR_mem hr
    rcases within_cases hw with rfl | hb
    · refine (hmem c).2 ⟨c, hc, [c], ?_, by simp⟩
      rcases ht with ht | ht | ht
      · simp [Heap.isText, ht]
      · simp [Heap.isText, ht]
      · have : h.isText c = false := by simp [Heap.isText, ht.1]
        rw [this, if_neg (by simp), if_pos (by simp [Heap.isElem, ht.1]), tagNames_tag ht.1, if_pos ht.2]
        simp
    · have hne : h.kids c ≠ [] := by
        obtain ⟨d, hd, _⟩ := hb
        intro h1
        rw [h1] at hd
        cases hd
      have hkc : (h.node c).kind = .tag := by
        by_contra h1
        exact hne (hleaf c o1 h1)
      have hnt : h.isText c = false := by simp [Heap.isText, hkc]
      have hcc : ¬ e.contentTag (h.tagNames c) = true := fun h1 => hne (o2 ⟨hkc, by rwa [tagNames_tag hkc] at h1⟩)
      obtain ⟨M, hM⟩ : ∃ M, textsLoop h e.contentTag none (fun _ _ => true) (fun _ => true) k (depth + 1) c = .ok M := by
        obtain ⟨M, hM⟩ := heach c hc
        rw [hnt, if_neg (by simp), if_pos (by simp [Heap.isElem, hkc]), if_neg hcc] at hM
        simp only [belowLimit, Bool.and_self, if_true] at hM
        exact ⟨M, hM⟩
      refine (hmem y).2 ⟨c, hc, M, ?_, loop_all hleaf k (depth + 1) c M hM (onlyTexts_down ot hwc) y hb ht⟩
      rw [hnt, if_neg (by simp), if_pos (by simp [Heap.isElem, hkc]), if_neg hcc]
      simpa only [belowLimit, Bool.and_self, if_true] using hM

/-! ## Changing the texts -/

/-- The texts at the positions from `i` on have the new contents, everything else is as before. -/
structure Edited (f : Nat → List Char → List Char) (i : Nat) (L : List Nat) (h h' : Heap) : Prop where
  size : h'.size = h.size
  other : ∀ y, y ∉ L → h'.node y = h.node y
  at_ : ∀ j x, L[j]? = some x → h'.node x = { h.node x with content := some (f (i + j) ((h.node x).content.getD [])) }

theorem textsEach_edits {f : Nat → List Char → List Char} {step : Heap → Nat → Nat → R (Heap × Bool)} : ∀ (L : List Nat) (i : Nat) (h : Heap),
    L.Nodup → (∀ x ∈ L, (h.node x).content.isSome) →
    (∀ (g : Heap) (i x : Nat) (c : List Char), x ∈ L → g.node x = h.node x → (g.node x).content = some c →
      step g i x = .ok (g.upd x fun n => { n with content := some (f i c) }, true)) →
    ∃ h', textsEach step i h L = .ok h' ∧ Edited f i L h h'
  | [], i, h, _, _, _ => ⟨h, rfl, rfl, fun _ _ => rfl, by simp⟩
  | x :: L, i, h, hn, hc, hs => by
    rw [List.nodup_cons] at hn
    obtain ⟨c, hcx⟩ := Option.isSome_iff_exists.1 (hc x (by simp))
    have h1 := hs h i x c (by simp) rfl hcx
    have hne : ∀ y ∈ L, y ≠ x := fun y hy h2 => hn.1 (h2 ▸ hy)
    have hnode : ∀ y, y ≠ x → (h.upd x fun n => { n with content := some (f i c) }).node y = h.node y := fun y hy => by rw [upd_node, if_neg hy]
    obtain ⟨h', r1, r2⟩ := textsEach_edits (step := step) (f := f) L (i + 1) (h.upd x fun n => { n with content := some (f i c) }) hn.2
      (fun y hy => by rw [hnode y (hne y hy)]; exact hc y (by simp [hy]))
      (fun g j y d hy hg hd => hs g j y d (by simp [hy]) (by rw [hg, hnode y (hne y hy)]) hd)
    refine ⟨h', by rw [textsEach, h1]; exact r1, r2.size, fun y hy => ?_, fun j y hj => ?_⟩
    · rw [List.mem_cons, not_or] at hy
      rw [r2.other y hy.2, hnode y hy.1]
    · cases j with
      | zero =>
        simp only [List.getElem?_cons_zero, Option.some.injEq] at hj
        subst hj
        rw [r2.other x hn.1, upd_node, if_pos rfl]
        simp [hcx]
      | succ j =>
        simp only [List.getElem?_cons_succ] at hj
        have hy := List.mem_of_getElem? hj
        rw [r2.at_ j y hj, hnode y (hne y hy)]
        rw [show i + 1 + j = i + (j + 1) by omega]

theorem Edited.same {f : Nat → List Char → List Char} {i : Nat} {L : List Nat} (ed : Edited f i L h h') (y : Nat) :
    (h'.node y).kind = (h.node y).kind ∧ (h'.node y).name = (h.node y).name ∧ (h'.node y).childs = (h.node y).childs := by
  by_cases hy : y ∈ L
  · obtain ⟨j, hj⟩ := List.getElem?_of_mem hy
    rw [ed.at_ j y hj]
    exact ⟨rfl, rfl, rfl⟩
  · rw [ed.other y hy]
    exact ⟨rfl, rfl, rfl⟩

theorem Edited.kids {f : Nat → List Char → List Char} {i : Nat} {L : List Nat} (ed : Edited f i L h h') (y : Nat) : h'.kids y = h.kids y := by
  unfold Heap.kids
  rw [(ed.same y).2.2]

/-- Where the texts are does not depend on what they say. -/
theorem Edited.texts {f : Nat → List Char → List Char} {i : Nat} {L : List Nat} (ed : Edited f i L h h') (ct : List Char → Bool) (limit : Nat) (x : Nat) :
    textsOf h' ct limit x = textsOf h ct limit x := by
  have hloop : ∀ (k depth x : Nat) (lim : Option Nat), textsLoop h' ct lim (fun _ _ => true) (fun _ => true) k depth x =
      textsLoop h ct lim (fun _ _ => true) (fun _ => true) k depth x := by
    intro k
    induction k with
    | zero => intro depth x lim; rfl
    | succ k ih =>
      intro depth x lim
      have ht : ∀ y, h'.isText y = h.isText y := fun y => by unfold Heap.isText; rw [(ed.same y).1]
      have hel : ∀ y, h'.isElem y = h.isElem y := fun y => by unfold Heap.isElem; rw [(ed.same y).1]
      have htn : ∀ y, h'.tagNames y = h.tagNames y := fun y => by unfold Heap.tagNames; rw [hel, (ed.same y).2.1]
      rw [textsLoop, textsLoop, ed.kids, htn]
      simp only [ht, hel, htn, ih]
  unfold textsOf textsBy textsByRec Heap.fuel
  rw [ed.size]
  exact hloop _ _ _ _

theorem within_kids (hk : ∀ y, h'.kids y = h.kids y) {x y : Nat} (hw : Within h' x y) : Within h x y := by
  induction hw with
  | self => exact .self
  | step _ hc ih => exact .step ih (hk _ ▸ hc)

theorem Edited.finite {f : Nat → List Char → List Char} {i : Nat} {L : List Nat} (ed : Edited f i L h h') {x : Nat} (hf : FiniteTree h x) : FiniteTree h' x := by
  refine ⟨fun y hy => by rw [ed.size]; exact hf.1 y (within_kids ed.kids hy), ?_⟩
  have : (fun c p => c ∈ h'.kids p) = (fun c p => c ∈ h.kids p) := by funext c p; rw [ed.kids]
  rw [this]
  exact hf.2

end

end Visdom
