import Verif.Model.Value
import Verif.Spec.Value
import Verif.Proofs.Checked
import Verif.Proofs.Desc
import Verif.Proofs.Cands
import Verif.Props.Pseudo
/-!
# C48: `value` and `val`

The theorems are about `val` of a set whose first element is `x`; the rest of the set does not matter.
-/
namespace Visdom
open Spec

variable {h : Heap} {r : Nat}

/-- Is the node an option with the attribute `selected` (in the terms of the model). -/
def selB (h : Heap) (c : Nat) : Bool := match hasAttr h c "selected".toList with | .ok b => b | .error _ => false
def optB (h : Heap) (c : Nat) : Bool := h.isElem c && isEqualChars (tagNames h c) "option".toList

/-- The selected options at or below a child. -/
def selOpts (h : Heap) : Nat → Nat → List Nat
  | 0, _ => []
  | k + 1, x => (h.kids x).flatMap fun c =>
      if h.isElem c then
        if isEqualChars (tagNames h c) "option".toList then (if selB h c then [c] else []) else selOpts h k c
      else []

theorem optB_iff {c : Nat} : optB h c = true ↔ Named h "option".toList c := by
  unfold optB
  rw [Bool.and_eq_true]
  constructor
  · rintro ⟨h1, h2⟩; exact (tagNames_eq h1 (by decide) (by decide)).1 h2
  · intro h1; exact ⟨h1.1, (tagNames_eq h1.1 (by decide) (by decide)).2 h1⟩

theorem attrValueOr_ok {x : Nat} (hm : MetaWF (h.node x).attrs) (key : List Char) :
    attrValueOr h x key = .ok (attrText h key x) := by
  obtain ⟨v, hv⟩ := getAttribute_ok hm key
  unfold attrValueOr attrText viewOf
  rw [hv]
  cases v with
  | none => rfl
  | some v => cases v <;> rfl

theorem hasAttr_of {x : Nat} (hm : MetaWF (h.node x).attrs) (key : List Char) :
    ∃ b, hasAttr h x key = .ok b ∧ (b = true ↔ HasAttr h key x) := by
  obtain ⟨v, hv⟩ := getAttribute_ok hm key
  refine ⟨v.isSome, by unfold hasAttr; rw [hv]; rfl, ?_⟩
  unfold HasAttr viewOf
  rw [hv]
  cases v with
  | none => simp [seen]
  | some v => cases v <;> simp [seen]

theorem selB_ok {x : Nat} (hm : MetaWF (h.node x).attrs) : hasAttr h x "selected".toList = .ok (selB h x) := by
  obtain ⟨b, hb, _⟩ := hasAttr_of hm "selected".toList
  unfold selB
  rw [hb]

theorem selB_iff {x : Nat} (hm : MetaWF (h.node x).attrs) : selB h x = true ↔ HasAttr h "selected".toList x := by
  obtain ⟨b, hb, hi⟩ := hasAttr_of hm "selected".toList
  unfold selB
  rw [hb]; exact hi

/-- What a step, or several, add: `S` are the selected options they meet, `d` the first option that may be the default. -/
structure Adds (val : Nat → List Char) (multiple : Bool) (level : Nat) (S : List Nat) (d : Option (List Char)) (s s' : Collected) : Prop where
  values : ∃ w, s'.values = s.values ++ w ∧ (multiple = true → w = S.map val) ∧ w.head? = (S.map val).head?
  deep : level ≠ 0 → s'.dflt = s.dflt
  top : level = 0 → S = [] → s'.dflt = s.dflt.or d

theorem breakLoop_adds {val : Nat → List Char} {multiple : Bool} {level : Nat} {S : Nat → List Nat} {d : Nat → Option (List Char)}
    {step : Nat → Collected → R (Collected × Bool)} {brk : Nat → Prop} {l : List Nat}
    (hstep : ∀ A c B, l = A ++ c :: B → (∀ a ∈ A, ¬ brk a) → ∀ s, ∃ s' b, step c s = .ok (s', b) ∧ Adds val multiple level (S c) (d c) s s' ∧
      (b = true → multiple = false ∧ S c ≠ []) ∧ (b = false → ¬ brk c)) (s : Collected) :
    ∃ s', breakLoop step l s = .ok s' ∧ Adds val multiple level (l.flatMap S) (l.findSome? d) s s' := by
  induction l generalizing s with
  | nil => exact ⟨s, rfl, ⟨⟨[], by simp, by simp, by simp⟩, fun _ => rfl, fun _ _ => by simp⟩⟩
  | cons c l ih =>
    obtain ⟨s1, b, h1, a1, hb, hnb⟩ := hstep [] c l rfl (by simp) s
    obtain ⟨w, e1, e2, e3⟩ := a1.values
    cases b with
    | true =>
      obtain ⟨hm, hS⟩ := hb rfl
      obtain ⟨y, ys, hy⟩ := List.exists_cons_of_ne_nil hS
      refine ⟨s1, by simp only [breakLoop, h1], ⟨⟨w, e1, by simp [hm], ?_⟩, a1.deep, fun h0 hn => ?_⟩⟩
      · rw [e3]; simp [hy]
      · simp [hy] at hn
    | false =>
      obtain ⟨s2, h2, a2⟩ := ih (fun A c' B hl hA => hstep (c :: A) c' B (by rw [hl]; rfl) (by
        intro a ha
        rcases List.mem_cons.1 ha with rfl | ha
        · exact hnb rfl
        · exact hA a ha)) s1
      obtain ⟨w2, f1, f2, f3⟩ := a2.values
      refine ⟨s2, by simp only [breakLoop, h1, h2], ⟨⟨w ++ w2, by rw [f1, e1, List.append_assoc], fun hm => ?_, ?_⟩, fun h0 => ?_,
        fun h0 hn => ?_⟩⟩
      · rw [e2 hm, f2 hm]; simp
      · rw [List.head?_append, e3, f3]
        rw [List.flatMap_cons, List.map_append, List.head?_append]
      · rw [a2.deep h0, a1.deep h0]
      · rw [List.flatMap_cons, List.append_eq_nil_iff] at hn
        rw [a2.top h0 hn.2, a1.top h0 hn.1, Option.or_assoc]
        congr 1
        simp only [List.findSome?_cons]
        cases d c <;> rfl

/-- A loop that reaches a failing step. -/
theorem breakLoop_error {step : Nat → Collected → R (Collected × Bool)} {e : Panic} {A B : List Nat} {c : Nat}
    (hc : ∀ s, step c s = .error e) (hA : ∀ a ∈ A, ∀ s, step a s = .error e ∨ ∃ s', step a s = .ok (s', false)) (s : Collected) :
    breakLoop step (A ++ c :: B) s = .error e := by
  induction A generalizing s with
  | nil => simp only [List.nil_append, breakLoop, hc]
  | cons a A ih =>
    rcases hA a (.head _) s with h1 | ⟨s', h1⟩
    · simp only [List.cons_append, breakLoop, h1]
    · simp only [List.cons_append, breakLoop, h1]
      exact ih (fun a ha => hA a (.tail _ ha)) s'

theorem levels_within {x d y : Nat} (hl : Levels h x d y) : Within h x y := by
  induction hl with
  | zero => exact .self
  | down hc _ ih => exact (Below.within ⟨_, hc, ih⟩)

theorem select_value (text : Nat → List Char) {x : Nat} (hn : Named h "select".toList x) : formValue h text x = selectValue h x := by
  have e := (C03_equal_chars _ _).1 ((tagNames_eq hn.1 (by decide) (by decide)).2 hn)
  unfold formValue
  rw [e, if_neg (by decide), if_pos (by decide)]

section
variable (wf : TreeWF h r) (metas : ∀ x, Within h r x → h.isElem x = true → MetaWF (h.node x).attrs)
include wf metas

/-- The walk answers unless it gets 256 elements deep. -/
theorem collectOptions_both (multiple : Bool) {n level x : Nat} {π : List Nat} (hx : At h r π x) (hn : h.size ≤ π.length + n)
    (hlev : level ≤ 255) :
    (¬ Deep h multiple (256 - level) x → ∀ s, ∃ s', collectOptions h multiple n level x s = .ok s' ∧
      Adds (attrText h "value".toList) multiple level (selOpts h n x)
        ((h.kids x).findSome? fun c => if optB h c then some (attrText h "value".toList c) else none) s s') ∧
    (Deep h multiple (256 - level) x → ∀ s, collectOptions h multiple n level x s = .error .overflow) := by
  induction n generalizing x π level with
  | zero => have := path_length wf hx; omega
  | succ n ih =>
    have hlevel : 256 - level = (255 - level) + 1 := by omega
    constructor
    · intro hd s
      simp only [collectOptions, selOpts]
      refine breakLoop_adds (brk := fun a => multiple = false ∧ Named h "option".toList a ∧ HasAttr h "selected".toList a) (fun A c B hk hA s => ?_) s
      have hc : c ∈ h.kids x := by rw [hk]; simp
      have hcw : Within h r c := .step hx.within hc
      cases hce : h.isElem c with
      | false =>
        refine ⟨s, false, by simp, ⟨⟨[], by simp, by simp, by simp⟩, fun _ => rfl, fun _ _ => ?_⟩, by simp, fun _ hb => ?_⟩
        · simp [optB, hce]
        · rw [hb.2.1.1] at hce; cases hce
      | true =>
        have hopt := tagNames_eq hce (w := "option".toList) (by decide) (by decide)
        cases hco : isEqualChars (tagNames h c) "option".toList with
        | true =>
          simp only [if_true, selB_ok (metas c hcw hce), attrValueOr_ok (metas c hcw hce)]
          cases hs : selB h c with
          | true =>
            simp only [Bool.true_or, if_true]
            refine ⟨_, _, rfl, ⟨⟨[attrText h "value".toList c], rfl, by simp, by simp⟩, fun _ => rfl, by simp⟩, ?_, ?_⟩
            · cases multiple <;> simp
            · intro hb hb'; rw [hb'.1] at hb; cases hb
          | false =>
            have hns : ¬ HasAttr h "selected".toList c := fun e => by rw [(selB_iff (metas c hcw hce)).2 e] at hs; cases hs
            simp only [Bool.false_or, Bool.false_eq_true, if_false]
            cases hb : s.dflt.isNone && level == 0 with
            | true =>
              rw [Bool.and_eq_true] at hb
              have h0 : level = 0 := by simpa using hb.2
              have hnone : s.dflt = none := by simpa using hb.1
              refine ⟨_, _, rfl, ⟨⟨[], by simp, by simp, by simp⟩, fun h1 => absurd h0 h1, fun _ _ => ?_⟩, by simp, fun _ h1 => hns h1.2.2⟩
              rw [hnone, show optB h c = true by rw [optB, hce, hco]; rfl]
              rfl
            | false =>
              refine ⟨_, _, rfl, ⟨⟨[], by simp, by simp, by simp⟩, fun h1 => rfl, fun h0 _ => ?_⟩, by simp, fun _ h1 => hns h1.2.2⟩
              subst h0
              cases hv : s.dflt with
              | none => rw [hv] at hb; simp at hb
              | some v => rfl
        | false =>
          have hno : ¬ Named h "option".toList c := fun e => by rw [hopt.2 e] at hco; cases hco
          have hnd : ¬ Deep h multiple (255 - level) c := fun e => hd (hlevel ▸ .down hk hce hno (by
            cases multiple with
            | true => exact .inl rfl
            | false => exact .inr fun a ha hb => hA a ha ⟨rfl, hb⟩) e)
          have hl : level + 1 < 256 := by
            refine Nat.lt_of_not_le fun hge => hnd ?_
            rw [show 255 - level = 0 by omega]; exact .zero
          obtain ⟨i, hi⟩ := List.getElem?_of_mem hc
          obtain ⟨s', h1, a⟩ := (ih (level := level + 1) (.step hx hi) (by simp; omega) (by omega)).1
            (by rw [show 256 - (level + 1) = 255 - level by omega]; exact hnd) s
          refine ⟨s', false, by simp [hl, h1, Except.map], ?_, by simp, fun _ h1 => hno h1.2.1⟩
          simp only [if_true, Bool.false_eq_true, if_false]
          refine ⟨a.values, fun _ => a.deep (by omega), fun _ _ => ?_⟩
          rw [a.deep (by omega)]
          rw [show optB h c = false by rw [optB, hce, hco]; rfl]
          simp
    · intro hd s
      rw [hlevel] at hd
      cases hd with
      | @down _ c _ A B hk hce hno hbefore hd =>
      have hopt := tagNames_eq hce (w := "option".toList) (by decide) (by decide)
      have hco : isEqualChars (tagNames h c) "option".toList = false := by
        cases e : isEqualChars (tagNames h c) "option".toList with
        | false => rfl
        | true => exact absurd (hopt.1 e) hno
      -- one step into an element that is no option
      have hinto : ∀ a ∈ h.kids x, (Deep h multiple (255 - level) a → ∀ s, (if level + 1 < 256 then
            (collectOptions h multiple n (level + 1) a s).map (·, false) else .error .overflow) = (.error .overflow : R (Collected × Bool))) ∧
          (¬ Deep h multiple (255 - level) a → ∀ s, ∃ s', (if level + 1 < 256 then
            (collectOptions h multiple n (level + 1) a s).map (·, false) else .error .overflow) = (.ok (s', false) : R (Collected × Bool))) := by
        intro a ha
        obtain ⟨i, hi⟩ := List.getElem?_of_mem ha
        by_cases hl : level + 1 < 256
        · have := ih (level := level + 1) (.step hx hi) (by simp; omega) (by omega)
          rw [show 256 - (level + 1) = 255 - level by omega] at this
          refine ⟨fun h1 s => by simp [hl, this.2 h1 s, Except.map], fun h1 s => ?_⟩
          obtain ⟨s', h2, -⟩ := this.1 h1 s
          exact ⟨s', by simp [hl, h2, Except.map]⟩
        · refine ⟨fun _ s => by simp [hl], fun h1 => absurd ?_ h1⟩
          rw [show 255 - level = 0 by omega]; exact .zero
      simp only [collectOptions]
      rw [hk]
      refine breakLoop_error (fun s => ?_) (fun a ha s => ?_) s
      · simp only [hce, hco, if_true, Bool.false_eq_true, if_false]
        exact (hinto c (by rw [hk]; simp)).1 hd s
      · have hak : a ∈ h.kids x := by rw [hk]; simp [ha]
        have haw : Within h r a := .step hx.within hak
        cases hae : h.isElem a with
        | false => exact .inr ⟨s, by simp⟩
        | true =>
          cases hao : isEqualChars (tagNames h a) "option".toList with
          | true =>
            simp only [if_true, selB_ok (metas a haw hae), attrValueOr_ok (metas a haw hae)]
            cases hs : selB h a with
            | true =>
              have hm : multiple = true := hbefore.resolve_right fun e =>
                e a ha ⟨(tagNames_eq hae (by decide) (by decide)).1 hao, (selB_iff (metas a haw hae)).1 hs⟩
              simp only [Bool.true_or, if_true, hm]
              exact .inr ⟨_, rfl⟩
            | false =>
              simp only [Bool.false_or, Bool.false_eq_true, if_false]
              cases s.dflt.isNone && level == 0 with
              | true => exact .inr ⟨_, rfl⟩
              | false => exact .inr ⟨_, rfl⟩
          | false =>
            simp only [if_true, Bool.false_eq_true, if_false]
            by_cases hda : Deep h multiple (255 - level) a
            · exact .inl ((hinto a hak).1 hda s)
            · exact .inr ((hinto a hak).2 hda s)

theorem mem_selOpts {n x : Nat} {π : List Nat} (hx : At h r π x) (hn : h.size ≤ π.length + n) (y : Nat) :
    y ∈ selOpts h n x ↔ SelectedOf h x y := by
  induction n generalizing x π with
  | zero => have := path_length wf hx; omega
  | succ n ih =>
    have hxw := hx.within
    simp only [selOpts, List.mem_flatMap]
    constructor
    · rintro ⟨c, hc, hy⟩
      have hcw : Within h r c := .step hxw hc
      obtain ⟨i, hi⟩ := List.getElem?_of_mem hc
      split at hy
      · rename_i hce
        split at hy
        · rename_i hco
          split at hy
          · rename_i hs
            obtain rfl := List.mem_singleton.1 hy
            refine ⟨⟨(tagNames_eq hce (by decide) (by decide)).1 hco, .of_child hc, ?_⟩, (selB_iff (metas y hcw hce)).1 hs⟩
            rintro z ⟨c', hc', hz⟩ hzy _
            obtain ⟨j, hj⟩ := List.getElem?_of_mem hc'
            have hz' : Within h c' y := hz.trans hzy.within
            by_cases hij : i = j
            · subst hij
              rw [hi] at hj
              cases hj
              rcases within_cases hz with rfl | hyz
              · exact before_irrefl wf hcw (Or.inl hzy)
              · exact before_asymm wf (hcw.trans hz) hcw (Or.inl hzy) (Or.inl hyz)
            · rcases Nat.lt_or_gt_of_ne hij with hlt | hlt
              · exact branches_apart wf hxw hlt hi hj .self hz'
              · exact branches_apart wf hxw hlt hj hi hz' .self
          · cases hy
        · rename_i hco
          obtain ⟨⟨h1, h2, h3⟩, h4⟩ := (ih (.step hx hi) (by simp; omega)).1 hy
          refine ⟨⟨h1, (Below.of_child hc).trans h2, ?_⟩, h4⟩
          rintro z ⟨c', hc', hz⟩ hzy hzn
          obtain ⟨j, hj⟩ := List.getElem?_of_mem hc'
          have hz' : Within h c' y := hz.trans hzy.within
          by_cases hij : i = j
          · subst hij
            rw [hi] at hj
            cases hj
            rcases within_cases hz with rfl | hb
            · exact hco ((tagNames_eq hce (by decide) (by decide)).2 hzn)
            · exact h3 z hb hzy hzn
          · rcases Nat.lt_or_gt_of_ne hij with hlt | hlt
            · exact branches_apart wf hxw hlt hi hj h2.within hz'
            · exact branches_apart wf hxw hlt hj hi hz' h2.within
      · cases hy
    · rintro ⟨⟨h1, ⟨c, hc, hw⟩, h3⟩, h4⟩
      have hcw : Within h r c := .step hxw hc
      obtain ⟨i, hi⟩ := List.getElem?_of_mem hc
      refine ⟨c, hc, ?_⟩
      rcases within_cases hw with rfl | hb
      · rw [if_pos h1.1, if_pos ((tagNames_eq h1.1 (by decide) (by decide)).2 h1), if_pos ((selB_iff (metas c hcw h1.1)).2 h4)]
        exact .head _
      · have hce : h.isElem c = true := by
          obtain ⟨d, hd, _⟩ := hb
          exact elem_of_kid wf hcw hd (child_ne_root wf hxw hc)
        have hco : ¬ isEqualChars (tagNames h c) "option".toList = true := fun e =>
          h3 c (.of_child hc) hb ((tagNames_eq hce (by decide) (by decide)).1 e)
        rw [if_pos hce, if_neg hco]
        exact (ih (.step hx hi) (by simp; omega)).2 ⟨⟨h1, hb, fun z hz => h3 z ((Below.of_child hc).trans hz)⟩, h4⟩

theorem selOpts_sorted {n x : Nat} {π : List Nat} (hx : At h r π x) (hn : h.size ≤ π.length + n) :
    DocSorted h r (selOpts h n x) := by
  induction n generalizing x π with
  | zero => exact .nil
  | succ n ih =>
    have hxw := hx.within
    unfold DocSorted
    simp only [selOpts]
    rw [List.pairwise_flatMap]
    have hin : ∀ (c i : Nat), (h.kids x)[i]? = some c → ∀ y ∈ (if h.isElem c then
        if isEqualChars (tagNames h c) "option".toList then (if selB h c then [c] else []) else selOpts h n c else []), Within h c y := by
      intro c i hi y hy
      split at hy
      · split at hy
        · split at hy
          · obtain rfl := List.mem_singleton.1 hy; exact .self
          · cases hy
        · exact ((mem_selOpts wf metas (.step hx hi) (by simp; omega) y).1 hy).1.2.1.within
      · cases hy
    constructor
    · intro c hc
      obtain ⟨i, hi⟩ := List.getElem?_of_mem hc
      split
      · split
        · split <;> simp
        · exact ih (.step hx hi) (by simp; omega)
      · exact .nil
    · refine List.Pairwise.imp_of_mem ?_ (kids_positions x)
      rintro a b ha hb ⟨i, j, hij, hia, hjb⟩ y hy z hz
      exact Or.inr ⟨x, i, j, a, b, hxw, hij, hia, hjb, hin a i hia y hy, hin b j hjb z hz⟩

/-- C48, `input` and `option`: the value attribute. -/
theorem C48_input (text : Nat → List Char) {x : Nat} {X : List Nat} (hx : Within h r x) (hn : Named h "input".toList x ∨ Named h "option".toList x) :
    valOf h text (x :: X) = .ok (.single (attrText h "value".toList x)) := by
  have he : h.isElem x = true := by rcases hn with hn | hn <;> exact hn.1
  rw [valOf, formValue]
  rw [if_pos, attrValueOr_ok (metas x hx he)]
  · rfl
  · rw [Bool.or_eq_true, tagNames_eq he (by decide) (by decide), tagNames_eq he (by decide) (by decide)]
    exact hn

/-- C48, a `select` with the attribute `multiple`: the values of exactly the selected options, in document order. Missing: an option
without a value attribute counts as "" rather than its text (`C48_fails_text`); elements nested 256 levels deep
(`C48_fails_deep`). -/
theorem C48_multiple_partial (text : Nat → List Char) {x : Nat} {X : List Nat} (hx : Within h r x) (hn : Named h "select".toList x)
    (hm : HasAttr h "multiple".toList x) (hd : ¬ Deep h true 256 x) :
    ∃ L, valOf h text (x :: X) = .ok (.multiple (L.map (attrText h "value".toList))) ∧ DocSorted h r L ∧
      ∀ y, y ∈ L ↔ SelectedOf h x y := by
  obtain ⟨π, hπ⟩ := hx.path
  have hf : h.size ≤ π.length + h.fuel := by unfold Heap.fuel; omega
  obtain ⟨s, h1, a⟩ := (collectOptions_both wf metas true (level := 0) hπ hf (by omega)).1 hd ⟨none, []⟩
  obtain ⟨b, hb, hbi⟩ := hasAttr_of (metas x hx hn.1) "multiple".toList
  obtain rfl := hbi.2 hm
  obtain ⟨w, e1, e2, _⟩ := a.values
  refine ⟨selOpts h h.fuel x, ?_, selOpts_sorted wf metas hπ hf, mem_selOpts wf metas hπ hf⟩
  rw [valOf, select_value text hn, selectValue, hb]
  simp only [h1, if_true, e1, e2 rfl, List.nil_append]

theorem firstWith_find {x : Nat} (hx : Within h r x) {P : Nat → Bool} {y : Nat} (hf : (h.kids x).find? P = some y) :
    FirstWith h r (fun z => z ∈ h.kids x ∧ P z = true) y := by
  rw [List.find?_eq_some_iff_append] at hf
  obtain ⟨hy, A, B, hk, hA⟩ := hf
  refine ⟨⟨by rw [hk]; simp, hy⟩, ?_⟩
  rintro z ⟨hz, hPz⟩
  rw [hk, List.mem_append, List.mem_cons] at hz
  rcases hz with hz | rfl | hz
  · have := hA z hz; rw [hPz] at this; cases this
  · exact .inl rfl
  · obtain ⟨i, hi⟩ := List.getElem?_of_mem hz
    refine .inr (.inr ⟨x, A.length, A.length + (i + 1), y, z, hx, by omega, ?_, ?_, .self, .self⟩)
    · rw [hk]; simp
    · rw [hk, List.getElem?_append_right (by omega)]; simpa using hi

/-- C48: `val` of a `select` overflows if there is a way over 256 elements down from it; with `C48_multiple_partial` and
`C48_single_partial`, if and only if. -/
theorem C48_deep (text : Nat → List Char) {x : Nat} {X : List Nat} {multiple : Bool} (hx : Within h r x) (hn : Named h "select".toList x)
    (hm : HasAttr h "multiple".toList x ↔ multiple = true) (hd : Deep h multiple 256 x) : valOf h text (x :: X) = .error .overflow := by
  obtain ⟨π, hπ⟩ := hx.path
  have hf : h.size ≤ π.length + h.fuel := by unfold Heap.fuel; omega
  obtain ⟨b, hb, hbi⟩ := hasAttr_of (metas x hx hn.1) "multiple".toList
  obtain rfl : b = multiple := Bool.eq_iff_iff.2 (hbi.trans hm)
  rw [valOf, select_value text hn, selectValue, hb]
  simp only [(collectOptions_both wf metas b (level := 0) hπ hf (by omega)).2 hd]

/-- C48, a `select` without `multiple`: the value of the first selected option in document order; if there is none, of the first
`option` among its children; if there is none either, "". Missing: the default should be the first option that is not disabled, also
inside an `optgroup` (`C48_fails_disabled`, `C48_fails_group`); and as in `C48_multiple_partial`. -/
theorem C48_single_partial (text : Nat → List Char) {x : Nat} {X : List Nat} (hx : Within h r x) (hn : Named h "select".toList x)
    (hm : ¬ HasAttr h "multiple".toList x) (hd : ¬ Deep h false 256 x) :
    ∃ v, valOf h text (x :: X) = .ok (.single v) ∧
      ((∃ y, FirstWith h r (SelectedOf h x) y ∧ v = attrText h "value".toList y) ∨
       ((¬ ∃ y, SelectedOf h x y) ∧ ∃ y, FirstWith h r (fun z => z ∈ h.kids x ∧ Named h "option".toList z) y ∧
          v = attrText h "value".toList y) ∨
       ((¬ ∃ y, SelectedOf h x y) ∧ (¬ ∃ z, z ∈ h.kids x ∧ Named h "option".toList z) ∧ v = [])) := by
  obtain ⟨π, hπ⟩ := hx.path
  have hf : h.size ≤ π.length + h.fuel := by unfold Heap.fuel; omega
  obtain ⟨s, h1, a⟩ := (collectOptions_both wf metas false (level := 0) hπ hf (by omega)).1 hd ⟨none, []⟩
  obtain ⟨b, hb, hbi⟩ := hasAttr_of (metas x hx hn.1) "multiple".toList
  have hbf : b = false := by
    cases b with
    | false => rfl
    | true => exact absurd (hbi.1 rfl) hm
  subst hbf
  obtain ⟨w, e1, _, e3⟩ := a.values
  rw [List.nil_append] at e1
  have hmem := mem_selOpts wf metas hπ hf
  have hsort := selOpts_sorted wf metas hπ hf
  rw [valOf, select_value text hn, selectValue, hb]
  simp only [h1, Bool.false_eq_true, if_false, e1]
  cases hS : selOpts h h.fuel x with
  | cons y ys =>
    rw [hS] at e3 hmem hsort
    cases w with
    | nil => simp at e3
    | cons v w =>
      refine ⟨v, rfl, .inl ⟨y, ⟨(hmem y).1 (.head _), fun z hz => ?_⟩, by simpa using e3⟩⟩
      rcases List.mem_cons.1 ((hmem z).2 hz) with rfl | hz
      · exact .inl rfl
      · exact .inr ((List.pairwise_cons.1 hsort).1 z hz)
  | nil =>
    rw [hS] at e3 hmem
    have hno : ¬ ∃ y, SelectedOf h x y := by
      rintro ⟨y, hy⟩; have := (hmem y).2 hy; cases this
    cases w with
    | cons v w => simp at e3
    | nil =>
      have ht := a.top rfl hS
      refine ⟨_, rfl, .inr ?_⟩
      have hfs : ∀ l : List Nat, (l.findSome? fun c => if optB h c then some (attrText h "value".toList c) else none) =
          (l.find? (optB h)).map (attrText h "value".toList) := by
        intro l
        induction l with
        | nil => rfl
        | cons c l ih =>
          rw [List.findSome?_cons, List.find?_cons]
          cases optB h c with
          | true => rfl
          | false => exact ih
      rw [ht, hfs]
      cases hfd : (h.kids x).find? (optB h) with
      | some y =>
        refine .inl ⟨hno, y, ?_, rfl⟩
        have := firstWith_find wf metas hx hfd
        simpa only [optB_iff] using this
      | none =>
        refine .inr ⟨hno, ?_, rfl⟩
        rintro ⟨z, hz, hz2⟩
        rw [List.find?_eq_none] at hfd
        exact hfd z hz (optB_iff.2 hz2)

end

/-- C48, `textarea`: its text. -/
theorem C48_textarea (text : Nat → List Char) {x : Nat} {X : List Nat} (hn : Named h "textarea".toList x) :
    valOf h text (x :: X) = .ok (.single (text x)) := by
  have e := (C03_equal_chars _ _).1 ((tagNames_eq hn.1 (by decide) (by decide)).2 hn)
  rw [valOf, formValue]
  rw [e, if_neg (by decide), if_neg (by decide), if_pos (by decide)]

/-- C48, other elements have the empty value. -/
theorem C48_other (text : Nat → List Char) {x : Nat} {X : List Nat} (he : h.isElem x = true) (hi : ¬ Named h "input".toList x)
    (ho : ¬ Named h "option".toList x) (hs : ¬ Named h "select".toList x) (ht : ¬ Named h "textarea".toList x) :
    valOf h text (x :: X) = .ok (.single []) := by
  rw [valOf, formValue]
  rw [if_neg, if_neg, if_neg]
  · rwa [tagNames_eq he (by decide) (by decide)]
  · rwa [tagNames_eq he (by decide) (by decide)]
  · rw [Bool.or_eq_true, tagNames_eq he (by decide) (by decide), tagNames_eq he (by decide) (by decide)]
    exact fun h1 => h1.elim hi ho

/-- An attribute table with the value `v` and possibly an attribute without a value. -/
def valued (v : String) (k : Option String := none) : Meta :=
  match k with
  | none => { attrs := [{ key := some "value".toList, value := some v.toList }], lcMap := [("value".toList, 0)] }
  | some k => { attrs := [{ key := some "value".toList, value := some v.toList }, { key := some k.toList }],
                lcMap := [("value".toList, 0), (k.toList, 1)] }

/-- `<select multiple><option value=a><optgroup><option value=b selected></optgroup><option value=c selected></select>`
`<select><option value=d disabled><option value=e></select><select><optgroup><option value=f></optgroup></select>`
`<select><option>t</option></select><input value=i><textarea></textarea>` -/
def selects : Heap := heapOf
  [rootN [1, 6, 9, 12, 15, 16],
   el "select" 0 0 [2, 3, 5] (flag "multiple"), el "option" 1 0 [] (valued "a"), el "optgroup" 1 1 [4],
   el "option" 3 0 [] (valued "b" "selected"), el "option" 1 2 [] (valued "c" "selected"),
   el "select" 0 1 [7, 8], el "option" 6 0 [] (valued "d" "disabled"), el "option" 6 1 [] (valued "e"),
   el "select" 0 2 [10], el "optgroup" 9 0 [11], el "option" 10 0 [] (valued "f"),
   el "select" 0 3 [13], el "option" 12 0 [14], txt "t" 13 0,
   el "input" 0 4 [] (valued "i"), el "textarea" 0 5]

set_option maxRecDepth 100000 in
theorem selects_wf : TreeWF selects 0 := wfCheck_sound (by decide)
set_option maxRecDepth 100000 in
theorem selects_env : EnvOk selects 0 env0 := envCheck_sound selects_wf (by decide) (fun i e h => by cases h)

theorem levels_bound {d : Nat} (hb : ∀ x < d, ∀ c ∈ h.kids x, x < c ∧ c < d) {x k y : Nat} (hx : x < d) (hl : Levels h x k y) : x + k ≤ y := by
  induction hl with
  | zero => omega
  | down hc _ ih =>
    have := hb _ hx _ hc
    have := ih this.2
    omega

theorem selects_shallow {x : Nat} (hx : x < 17) : ∀ d y, Levels selects x d y → selects.isElem y = true → d ≤ 255 := by
  intro d y hl he
  have h1 := levels_bound (h := selects) (d := 17) (by decide) hx hl
  have h2 : y < 17 := by
    by_contra hy
    have : selects.node y = {} := by
      show (List.getD _ y {} : Node) = {}
      rw [List.getD_eq_getElem?_getD, List.getElem?_eq_none (by simpa using hy)]
      rfl
    unfold Heap.isElem at he
    rw [this] at he
    cases he
  omega

theorem deep_levels {m : Bool} {d x : Nat} (hx : h.isElem x = true) (hd : Deep h m d x) : ∃ y, Levels h x d y ∧ h.isElem y = true := by
  induction hd with
  | zero => exact ⟨_, .zero, hx⟩
  | down hk hc _ _ _ ih =>
    obtain ⟨y, h1, h2⟩ := ih hc
    exact ⟨y, .down (by rw [hk]; simp) h1, h2⟩

/-- The selects of the sample are not deep. -/
example (m : Bool) : ¬ Deep selects m 256 1 ∧ ¬ Deep selects m 256 6 := by
  constructor <;>
  · intro hd
    obtain ⟨y, h1, h2⟩ := deep_levels (by decide) hd
    have := selects_shallow (by decide) _ _ h1 h2
    omega

set_option maxRecDepth 100000 in
/-- The hypotheses of `C48_multiple_partial` and of `C48_single_partial` are met; the values. -/
example : valOf selects (fun _ => []) [] = .ok (.single []) ∧ valOf selects (fun _ => []) [15, 1] = .ok (.single "i".toList) ∧ (Within selects 0 1 ∧ Named selects "select".toList 1 ∧ HasAttr selects "multiple".toList 1 ∧
      formValue selects (fun _ => []) 1 = .ok (.multiple ["b".toList, "c".toList])) ∧
    (Within selects 0 6 ∧ Named selects "select".toList 6 ∧ ¬ HasAttr selects "multiple".toList 6 ∧
      formValue selects (fun _ => []) 6 = .ok (.single "d".toList)) ∧
    formValue selects (fun _ => []) 15 = .ok (.single "i".toList) ∧
    formValue selects (fun _ => "t".toList) 16 = .ok (.single "t".toList) := by
  refine ⟨rfl, by decide, ⟨wfCheck_within [0] (by decide) rfl, ⟨by decide, by decide⟩, by unfold HasAttr; decide, by decide⟩,
    ⟨wfCheck_within [0] (by decide) rfl, ⟨by decide, by decide⟩, by unfold HasAttr; decide, by decide⟩, by decide, by decide⟩

set_option maxRecDepth 100000 in
/-- C48 does not hold in full: the default is a disabled option. -/
theorem C48_fails_disabled : HasAttr selects "disabled".toList 7 ∧ ¬ HasAttr selects "disabled".toList 8 ∧
    formValue selects (fun _ => []) 6 = .ok (.single (attrText selects "value".toList 7)) ∧
    attrText selects "value".toList 7 ≠ attrText selects "value".toList 8 :=
  ⟨by unfold HasAttr; decide, by unfold HasAttr; decide, by decide, by decide⟩

set_option maxRecDepth 100000 in
/-- C48 does not hold in full: an option inside an `optgroup` is not taken as the default. -/
theorem C48_fails_group : OptionOf selects 9 11 ∧ attrText selects "value".toList 11 = "f".toList ∧
    formValue selects (fun _ => []) 9 = .ok (.single []) := by
  refine ⟨⟨⟨by decide, by decide⟩, ⟨10, by decide, .step .self (by decide)⟩, ?_⟩, by decide, by decide⟩
  rintro z ⟨c, hc, hz⟩ hb hn
  have hc10 : c = 10 := by
    have : selects.kids 9 = [10] := by decide
    rw [this] at hc; simpa using hc
  subst hc10
  rcases within_cases hz with rfl | ⟨c, hc, hz⟩
  · have : ¬ ((selects.node 10).name.map lowerCode = "option".toList.map lowerCode) := by decide
    exact this hn.2
  · have hc11 : c = 11 := by
      have : selects.kids 10 = [11] := by decide
      rw [this] at hc; simpa using hc
    subst hc11
    rcases within_cases hz with rfl | ⟨c, hc, hz⟩
    · obtain ⟨c, hc, _⟩ := hb
      have : selects.kids 11 = [] := by decide
      rw [this] at hc; cases hc
    · have : selects.kids 11 = [] := by decide
      rw [this] at hc; cases hc

set_option maxRecDepth 100000 in
/-- C48 does not hold in full: `<option>t</option>` has the value "", not its text. -/
theorem C48_fails_text : (selects.node 14).content = some "t".toList ∧ selects.kids 13 = [14] ∧
    formValue selects (fun _ => []) 12 = .ok (.single []) := ⟨by decide, by decide, by decide⟩

/-- A `select` with 256 elements nested in it. -/
def tower : Heap where
  size := 258
  node := fun i => if i = 0 then rootN [1] else if i = 1 then el "select" 0 0 [2] else if i = 257 then el "b" 256 0
    else el "b" (i - 1) 0 [i + 1]

set_option maxRecDepth 100000 in
/-- C48 does not hold in full: the depth counter overflows. -/
theorem C48_fails_deep : formValue tower (fun _ => []) 1 = .error .overflow := by decide

theorem tower_deep (m : Bool) : ∀ k, k ≤ 256 → Deep tower m k (257 - k)
  | 0, _ => .zero
  | k + 1, hk => by
    have h1 : 257 - (k + 1) ≠ 0 := by omega
    have h2 : 257 - (k + 1) ≠ 257 := by omega
    have hkid : tower.kids (257 - (k + 1)) = [] ++ (257 - k) :: [] := by
      unfold Heap.kids tower
      by_cases h3 : 257 - (k + 1) = 1
      · have : k = 255 := by omega
        subst this; rfl
      · simp only [h1, h2, h3, if_false, if_true]
        rw [show 257 - (k + 1) + 1 = 257 - k by omega]; rfl
    have hb : tower.node (257 - k) = if k = 0 then el "b" 256 0 else el "b" (257 - k - 1) 0 [257 - k + 1] := by
      unfold tower
      have h4 : 257 - k ≠ 0 := by omega
      have h5 : 257 - k ≠ 1 := by omega
      by_cases h6 : k = 0
      · subst h6; rfl
      · have : 257 - k ≠ 257 := by omega
        simp only [h4, h5, h6, this, if_false]
    refine .down hkid ?_ ?_ (.inr (by simp)) (tower_deep m k (by omega))
    · unfold Heap.isElem; rw [hb]; split <;> rfl
    · rintro ⟨-, hn⟩
      rw [hb] at hn
      split at hn <;> exact absurd (show SameIgnoringCase "b".toList "option".toList from hn) (by decide)

/-- The hypothesis of `C48_deep` is met. -/
example : Deep tower false 256 1 := tower_deep false 256 (by omega)

end Visdom
