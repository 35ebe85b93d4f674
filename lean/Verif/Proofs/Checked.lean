import Verif.Proofs.Rules
/-!
# `:checked`
-/
namespace Visdom
open Spec
variable {h : Heap} {r : Nat}

section
variable (wf : TreeWF h r)
include wf

theorem laterSib_trans {x y z : Nat} (h1 : LaterSib h r x y) (h2 : LaterSib h r y z) : LaterSib h r x z := by
  obtain ⟨p, i, j, hp, hij, hi, hj⟩ := h1
  obtain ⟨q, a, b, hq, hab, ha, hb⟩ := h2
  obtain ⟨a1, a2⟩ := wf.link _ _ _ hp hj
  obtain ⟨b1, b2⟩ := wf.link _ _ _ hq ha
  rw [a1] at b1
  obtain rfl := Option.some.inj b1
  exact ⟨p, i, b, hp, by omega, hi, hb⟩

theorem exists_prevSib {x y : Nat} (hs : LaterSib h r y x) (hy : h.isElem y = true) :
    ∃ e, NextSib h r e x ∧ h.isElem e = true ∧ (e = y ∨ LaterSib h r y e) := by
  obtain ⟨p, i, j, hp, hij, hi, hj⟩ := hs
  obtain ⟨g, hg⟩ : ∃ g, g = j - i := ⟨_, rfl⟩
  induction g using Nat.strongRecOn generalizing i y with
  | _ g ih =>
    by_cases hz : ∃ k z : Nat, i < k ∧ k < j ∧ (h.kids p)[k]? = some z ∧ h.isElem z = true
    · obtain ⟨k, z, h1, h2, h3, h4⟩ := hz
      obtain ⟨e, he1, he2, he3⟩ := ih (j - k) (by omega) h4 k h2 h3 rfl
      refine ⟨e, he1, he2, Or.inr ?_⟩
      have hyz : LaterSib h r y z := ⟨p, i, k, hp, h1, hi, h3⟩
      rcases he3 with rfl | he3
      · exact hyz
      · exact laterSib_trans wf hyz he3
    · refine ⟨y, ⟨p, i, j, hp, hij, hi, hj, ?_⟩, hy, Or.inl rfl⟩
      intro k z h1 h2 h3
      cases hze : h.isElem z with
      | false => rfl
      | true => exact absurd ⟨k, z, h1, h2, h3, hze⟩ hz

theorem exists_nextSib {x y : Nat} (hs : LaterSib h r x y) (hy : h.isElem y = true) :
    ∃ e, NextSib h r x e ∧ h.isElem e = true ∧ (e = y ∨ LaterSib h r e y) := by
  obtain ⟨p, i, j, hp, hij, hi, hj⟩ := hs
  obtain ⟨g, hg⟩ : ∃ g, g = j - i := ⟨_, rfl⟩
  induction g using Nat.strongRecOn generalizing j y with
  | _ g ih =>
    by_cases hz : ∃ k z : Nat, i < k ∧ k < j ∧ (h.kids p)[k]? = some z ∧ h.isElem z = true
    · obtain ⟨k, z, h1, h2, h3, h4⟩ := hz
      obtain ⟨e, he1, he2, he3⟩ := ih (k - i) (by omega) h4 k h1 h3 rfl
      refine ⟨e, he1, he2, Or.inr ?_⟩
      have hyz : LaterSib h r z y := ⟨p, k, j, hp, h2, h3, hj⟩
      rcases he3 with rfl | he3
      · exact hyz
      · exact laterSib_trans wf he3 hyz
    · refine ⟨y, ⟨p, i, j, hp, hij, hi, hj, ?_⟩, hy, Or.inl rfl⟩
      intro k z h1 h2 h3
      cases hze : h.isElem z with
      | false => rfl
      | true => exact absurd ⟨k, z, h1, h2, h3, hze⟩ hz

theorem kids_length {p : Nat} (hp : Within h r p) : (h.kids p).length ≤ h.size := by
  have hn : (h.kids p).Nodup := kids_nodup wf hp
  have hs : h.kids p ⊆ List.range h.size := fun c hc => List.mem_range.2 (wf.bound _ (.step hp hc))
  simpa using (hn.subperm hs).length_le

theorem index_size {x : Nat} (hx : Within h r x) (hne : x ≠ r) : h.index x < h.size := by
  obtain ⟨p, _, hp, hi⟩ := parent_inv wf hx hne
  have := (List.getElem?_eq_some_iff.1 hi).1
  have := kids_length wf hp
  omega

theorem optionBefore_ok {n x : Nat} (hx : Within h r x) (he : h.isElem x = true) (hn : h.index x < n) :
    ∃ b, optionBefore h n x = .ok b ∧ (b = true ↔ ∃ y, LaterSib h r y x ∧ Named h "option".toList y) := by
  induction n generalizing x with
  | zero => omega
  | succ n ih =>
    obtain ⟨o, ho, hoe⟩ := prevElem_ok wf hx
    simp only [optionBefore, ho]
    cases o with
    | none =>
      refine ⟨false, rfl, ?_⟩
      simp only [Bool.false_eq_true, false_iff]
      rintro ⟨y, hy, hn'⟩
      obtain ⟨e, h1, h2, _⟩ := exists_prevSib wf hy hn'.1
      exact absurd ((hoe e).2 ⟨h1, h2⟩) (by simp)
    | some p =>
      obtain ⟨h1, h2⟩ := (hoe p).1 rfl
      have hl := nextSib_later h1
      have hpw := (laterSib_within hl).1
      have hlt := ((laterSib_index wf).1 hl).2.2.2
      cases ht : isEqualChars (tagNames h p) "option".toList with
      | true =>
        refine ⟨true, by show (if _ then _ else _) = _; rw [if_pos ht], ?_⟩
        simp only [true_iff]
        exact ⟨p, hl, (tagNames_eq h2 (by decide) (by decide)).1 ht⟩
      | false =>
        obtain ⟨b, hb, hiff⟩ := ih hpw h2 (by omega)
        refine ⟨b, by show (if _ then _ else _) = _; rw [if_neg (by rw [ht]; simp)]; exact hb, ?_⟩
        rw [hiff]
        constructor
        · rintro ⟨y, hy, hyn⟩; exact ⟨y, laterSib_trans wf hy hl, hyn⟩
        · rintro ⟨y, hy, hyn⟩
          obtain ⟨e, e1, e2, e3⟩ := exists_prevSib wf hy hyn.1
          have := (hoe e).2 ⟨e1, e2⟩
          obtain rfl := Option.some.inj this
          rcases e3 with rfl | e3
          · have := (tagNames_eq h2 (by decide) (by decide)).2 hyn
            rw [ht] at this
            cases this
          · exact ⟨y, e3, hyn⟩
end

section
variable {env : Env} (ev : Metas h r) (wf : TreeWF h r)
include ev wf

open Classical in
theorem selectedOption_ok {n x : Nat} {π : List Nat} (hx : At h r π x) (he : h.isElem x = true)
    (hn : h.size < π.length + n) : ∃ b, selectedOption h n x = .ok b ∧ (b = true ↔ SelectedIn h x) := by
  induction n generalizing x π with
  | zero => have := path_length wf hx; omega
  | succ n ih =>
    simp only [selectedOption]
    cases ht : isEqualChars (tagNames h x) "option".toList with
    | true =>
      have hname := (tagNames_eq he (by decide) (by decide)).1 ht
      obtain ⟨b, hb, hiff⟩ := hasAttr_ok ev hx.within he "selected".toList
      refine ⟨b, by rw [if_pos rfl]; exact hb, ?_⟩
      rw [hiff]
      constructor
      · exact fun ha => .here hname ha
      · intro hs
        cases hs with
        | here _ ha => exact ha
        | inside hno => exact absurd hname hno
    | false =>
      have hname : ¬ Named h "option".toList x := fun hc => by
        have := (tagNames_eq he (by decide) (by decide)).2 hc
        rw [ht] at this
        cases this
      have hk : ∀ c ∈ h.children x, selectedOption h n c = .ok (decide (SelectedIn h c)) := by
        intro c hc
        obtain ⟨hck, hce⟩ := mem_children.1 hc
        obtain ⟨i, hi⟩ := List.getElem?_of_mem hck
        obtain ⟨b, hb, hiff⟩ := ih (.step hx hi) hce (by simp; omega)
        rw [hb]
        congr 1
        rw [Bool.eq_iff_iff, hiff, decide_eq_true_eq]
      refine ⟨_, by rw [if_neg (by simp)]; exact anyR_ok hk, ?_⟩
      rw [List.any_eq_true]
      constructor
      · rintro ⟨c, hc, hs⟩
        obtain ⟨hck, hce⟩ := mem_children.1 hc
        exact .inside hname hck hce (of_decide_eq_true hs)
      · intro hs
        cases hs with
        | here hyes => exact absurd hyes hname
        | inside _ hck hce hs => exact ⟨_, mem_children.2 ⟨hck, hce⟩, decide_eq_true hs⟩

theorem selectedAfter_ok {n x p : Nat} (hx : Within h r x) (hp : h.parent x = some p)
    (hn : (h.kids p).length < h.index x + n) : ∃ b, selectedAfter h n x = .ok b ∧
      (b = true ↔ ∃ y, LaterSib h r x y ∧ h.isElem y = true ∧ SelectedIn h y) := by
  induction n generalizing x with
  | zero =>
    obtain ⟨_, hi⟩ := parent_some wf hx hp
    have := (List.getElem?_eq_some_iff.1 hi).1
    omega
  | succ n ih =>
    simp only [selectedAfter]
    cases ho : h.nextElem x with
    | none =>
      refine ⟨false, rfl, ?_⟩
      simp only [Bool.false_eq_true, false_iff]
      rintro ⟨y, hy, hye, _⟩
      obtain ⟨e, h1, h2, _⟩ := exists_nextSib wf hy hye
      have := (mem_nextElem wf hx).2 ⟨h1, h2⟩
      rw [ho] at this
      cases this
    | some y =>
      obtain ⟨h1, h2⟩ := (mem_nextElem wf hx).1 ho
      have hl := nextSib_later h1
      obtain ⟨_, hyw, ⟨q, hq1, hq2⟩, hlt⟩ := (laterSib_index wf).1 hl
      rw [hp] at hq1
      obtain rfl := Option.some.inj hq1
      obtain ⟨π, hπ, hfu⟩ := dfs_path wf hyw
      obtain ⟨b, hb, hbi⟩ := selectedOption_ok ev wf hπ h2 hfu
      simp only [hb]
      cases b with
      | true => exact ⟨true, rfl, by simp only [true_iff]; exact ⟨y, hl, h2, hbi.1 rfl⟩⟩
      | false =>
        obtain ⟨b, hb, hiff⟩ := ih hyw hq2 (by omega)
        refine ⟨b, hb, ?_⟩
        rw [hiff]
        constructor
        · rintro ⟨z, hz, hze⟩; exact ⟨z, laterSib_trans wf hl hz, hze⟩
        · rintro ⟨z, hz, hze, hzs⟩
          obtain ⟨e, e1, e2, e3⟩ := exists_nextSib wf hz hze
          have := (mem_nextElem wf hx).2 ⟨e1, e2⟩
          rw [ho] at this
          obtain rfl := Option.some.inj this
          rcases e3 with rfl | e3
          · exact absurd (hbi.2 hzs) (by simp)
          · exact ⟨z, e3, hze, hzs⟩

theorem defaultOption_ok {x : Nat} (hx : Within h r x) (he : h.isElem x = true) :
    ∃ b, defaultOption h x = .ok b ∧ (b = true ↔
      ((∃ p, Within h r p ∧ x ∈ h.kids p ∧ Named h "select".toList p ∧ ¬ HasAttr h "multiple".toList p) ∧
      (∀ y, LaterSib h r y x → ¬ Named h "option".toList y) ∧
      ∀ y, LaterSib h r x y → h.isElem y = true → ¬ SelectedIn h y)) := by
  obtain ⟨p, hxp, hp, hxi⟩ := parent_inv wf hx (elem_ne_root wf he)
  have hmem := List.mem_of_getElem? hxi
  have huniq : ∀ q, Within h r q → x ∈ h.kids q → q = p := by
    intro q hq hxq
    have := parent_of_child wf hq hxq
    rw [hxp] at this
    exact (Option.some.inj this).symm
  unfold defaultOption
  simp only [hxp]
  cases hpe : h.isElem p with
  | false =>
    have htn : isEqualChars (tagNames h p) "select".toList = false := by
      unfold tagNames
      rw [hpe, if_neg (by simp)]
      decide
    refine ⟨false, by rw [if_neg (by rw [htn]; simp)], ?_⟩
    simp only [Bool.false_eq_true, false_iff]
    rintro ⟨⟨q, hq, hxq, hn, _⟩, _⟩
    rw [huniq q hq hxq] at hn
    rw [hn.1] at hpe
    cases hpe
  | true =>
    cases ht : isEqualChars (tagNames h p) "select".toList with
    | false =>
      refine ⟨false, if_neg (by simp), ?_⟩
      simp only [Bool.false_eq_true, false_iff]
      rintro ⟨⟨q, hq, hxq, hn, _⟩, _⟩
      rw [huniq q hq hxq] at hn
      have := (tagNames_eq hpe (by decide) (by decide)).2 hn
      rw [ht] at this
      cases this
    | true =>
      have hname := (tagNames_eq hpe (by decide) (by decide)).1 ht
      obtain ⟨b, hb, hbi⟩ := hasAttr_ok ev hp hpe "multiple".toList
      simp only [hb, if_true]
      cases b with
      | true =>
        refine ⟨false, rfl, ?_⟩
        simp only [Bool.false_eq_true, false_iff]
        rintro ⟨⟨q, hq, hxq, _, hm⟩, _⟩
        rw [huniq q hq hxq] at hm
        exact hm (hbi.1 rfl)
      | false =>
        have hnm : ¬ HasAttr h "multiple".toList p := fun hc => by simpa using hbi.2 hc
        have hsel : (∃ p, Within h r p ∧ x ∈ h.kids p ∧ Named h "select".toList p ∧ ¬ HasAttr h "multiple".toList p) :=
          ⟨p, hp, hmem, hname, hnm⟩
        obtain ⟨b1, hb1, hi1⟩ := optionBefore_ok wf hx he (n := h.fuel)
          (by have := index_size wf hx (elem_ne_root wf he); unfold Heap.fuel; omega)
        simp only [hb1]
        cases b1 with
        | true =>
          refine ⟨false, rfl, ?_⟩
          simp only [Bool.false_eq_true, false_iff]
          rintro ⟨_, hall, _⟩
          obtain ⟨y, hy, hyn⟩ := hi1.1 rfl
          exact hall y hy hyn
        | false =>
          obtain ⟨b2, hb2, hi2⟩ := selectedAfter_ok ev wf hx hxp (n := h.fuel)
            (by have := kids_length wf hp; unfold Heap.fuel; omega)
          refine ⟨!b2, by simp only [hb2]; rfl, ?_⟩
          constructor
          · intro hb3
            refine ⟨hsel, fun y hy hyn => ?_, fun y hy hye hys => ?_⟩
            · have := hi1.2 ⟨y, hy, hyn⟩; simp at this
            · rw [hi2.2 ⟨y, hy, hye, hys⟩] at hb3; simp at hb3
          · rintro ⟨_, _, hall⟩
            cases b2 with
            | false => rfl
            | true =>
              obtain ⟨y, hy, hye, hys⟩ := hi2.1 rfl
              exact absurd hys (hall y hy hye)

theorem checked_ok : OneOk h r (checkedMatcher h) (Checked h r) where
  one := by
    refine ⟨_, rfl, fun x hw he => ?_⟩
    have hname : ∀ {w : List Char}, w.map asciiLower = w → w ≠ [] →
        (Named h w x ↔ isEqualChars (tagNames h x) w = true) := fun h1 h2 => (tagNames_eq he h1 h2).symm
    have hne : ¬ (Named h "input".toList x ∧ Named h "option".toList x) := by
      rintro ⟨⟨_, h1⟩, ⟨_, h2⟩⟩
      have : SameIgnoringCase "input".toList "option".toList := Eq.trans (Eq.symm h1) h2
      revert this
      unfold SameIgnoringCase
      decide
    unfold checkedOne Checked
    by_cases hin : Named h "input".toList x
    · have hop : ¬ Named h "option".toList x := fun hc => hne ⟨hin, hc⟩
      rw [if_pos ((hname (by decide) (by decide)).1 hin)]
      obtain ⟨v, hv⟩ := getAttribute_ok (ev x hw he) "type".toList
      have hvo : viewOf (h.node x).attrs "type".toList = seen v := by unfold viewOf; rw [hv]
      simp only [hv, hvo, hin, hop, true_and, false_and, or_false]
      cases v with
      | none => exact ⟨false, rfl, by simp only [seen]; simp⟩
      | some v =>
        cases v with
        | tru => exact ⟨false, rfl, by simp only [seen]; simp⟩
        | value t q =>
          have hl : ∀ w : List Char, lowerStr w = w → (lowerStr t = w ↔ SameIgnoringCase t w) := by
            intro w hw'
            rw [← lowerStr_eq_iff, hw']
          simp only [seen, Option.some.injEq, hl "checkbox".toList (by decide), hl "radio".toList (by decide)]
          by_cases ht : SameIgnoringCase t "checkbox".toList ∨ SameIgnoringCase t "radio".toList
          · obtain ⟨b, hb, hbi⟩ := hasAttr_ok ev hw he "checked".toList
            refine ⟨b, by simp only [if_pos ht, hb], ?_⟩
            rw [hbi]
            exact ⟨fun ha => ⟨⟨t, rfl, ht⟩, ha⟩, fun ha => ha.2⟩
          · refine ⟨false, by simp only [if_neg ht], ?_⟩
            simp only [Bool.false_eq_true, false_iff]
            rintro ⟨⟨t', rfl, ht'⟩, _⟩
            exact ht ht'
    · rw [if_neg (fun hc => hin ((hname (by decide) (by decide)).2 hc))]
      simp only [hin, false_and, false_or]
      by_cases hop : Named h "option".toList x
      · rw [if_pos ((hname (by decide) (by decide)).1 hop)]
        obtain ⟨b, hb, hbi⟩ := hasAttr_ok ev hw he "selected".toList
        simp only [hb, hop, true_and]
        cases b with
        | true => exact ⟨true, rfl, by simp only [true_iff]; exact Or.inl (hbi.1 rfl)⟩
        | false =>
          obtain ⟨b, hb, hiff⟩ := defaultOption_ok ev wf hw he
          refine ⟨b, hb, ?_⟩
          rw [hiff, ← hbi]
          simp only [Bool.false_eq_true, false_or]
      · rw [if_neg (fun hc => hop ((hname (by decide) (by decide)).2 hc))]
        refine ⟨false, rfl, ?_⟩
        simp only [hop, false_and, Bool.false_eq_true]
  all := rfl
  cache := rfl
end
end Visdom
