import Verif.Props.TextsHtml
/-!
# C90: `set_html` twice on the same text
-/
namespace Visdom
open Spec

section
variable {h : Heap} {D : Nat → Prop} {e : Ext}

/-- `set_html` on a text whose position may be stale: the node that stands at the position is replaced. -/
theorem setHtml_stale (P : ParseOk e) {x p r : Nat} {s : List Char} {g : Heap} {parsed cs : List Nat} (hk : (h.node x).kind = .text ∨ (h.node x).kind = .spaces)
    (hpar : h.parent x = some p) (hkp : (h.node p).kind = .tag) (hct : e.contentTag (h.node p).name = false) (hxb : x < h.size) (hpb : p < h.size)
    (hp : e.parse h s = .ok (g, r)) (hch : (g.node r).childs = some parsed) (hc : (h.node p).childs = some cs) (hpc : p ∉ cs) (hnew : ∀ c ∈ parsed, h.size ≤ c) :
    (cs.length ≤ h.index x → h.setHtml e x s = .error (if cs = [] then .overflow else .outOfBounds)) ∧
    (h.index x < cs.length → ∃ h1, h.setHtml e x s = .ok h1 ∧
      (h1.node p).childs = some (cs.take (h.index x) ++ parsed.filter (e.allow (h.node p).name) ++ cs.drop (h.index x + 1)) ∧
      (∀ q < h.size, q ≠ p → h1.kids q = h.kids q) ∧ h.size ≤ h1.size ∧ h1.parent x = some p ∧
      (x ∉ cs.drop (h.index x + 1) → h1.index x = h.index x) ∧
      ∀ y < h.size, (h1.node y).kind = (h.node y).kind ∧ (h1.node y).name = (h.node y).name) := by
  have htg : h.htmlTarget x = some p := by
    unfold Heap.htmlTarget
    rcases hk with hk | hk <;> rw [hk] <;> exact hpar
  have hel : h.isElem p = true := by unfold Heap.isElem; rw [hkp]; rfl
  have hex : h.isElem x = false := by unfold Heap.isElem; rcases hk with hk | hk <;> rw [hk] <;> rfl
  obtain ⟨p1, p2, p3, p4, p5, p6⟩ := P h s g r hp
  have hE : ∀ y < h.size, (g.setChilds r (some [])).node y = h.node y := fun y hy => parse_old P hp hy
  obtain ⟨b, hb, -⟩ := removeNotAllowed_eq (e.allow (h.node p).name) parsed
  obtain ⟨g1, g2, g3, g4, g5⟩ := setParent_fields p (parsed.filter (e.allow (h.node p).name)) (g.setChilds r (some []))
  have hxi : ((g.setChilds r (some [])).setParent p (parsed.filter (e.allow (h.node p).name))).index x = h.index x := by
    rw [g5]; unfold Heap.index; rw [hE x hxb]
  have hcp : (((g.setChilds r (some [])).setParent p (parsed.filter (e.allow (h.node p).name))).node p).childs = some cs := by
    rw [g2, hE p hpb, hc]
  have hxn : x ∉ parsed.filter (e.allow (h.node p).name) := fun hm => by have := hnew x (List.mem_filter.1 hm).1; omega
  have hpd : p ∉ cs.drop (h.index x + 1) := fun hm => hpc (List.mem_of_mem_drop hm)
  unfold Heap.setHtml
  simp only [htg, hel, hex, hct, hp, hch, hE p hpb, hb, hcp, hxi, Bool.not_true, Bool.false_eq_true, if_false]
  constructor
  · intro hle
    by_cases h0 : cs = []
    · rw [if_pos (by simp [h0]), if_pos h0]
    · rw [if_neg (by simpa using h0), if_pos hle, if_neg h0]
  · intro hlt
    rw [if_neg (by omega), if_neg (by omega), if_neg hpd]
    refine ⟨_, rfl, by rw [setChilds_childs, if_pos rfl], fun q hq hqp => ?_, ?_, ?_, fun hxd => ?_, fun y hy => ?_⟩
    · rw [setChilds_kids, if_neg hqp]
      refine (kids_of_childs ?_).trans (kids_old (hE q hq))
      rw [(resetIndex_fields _ _ _).2.1]
      split
      · rw [(resetIndex_fields _ _ _).2.1, g2]
      · rw [g2]
    · have : ∀ (k : Heap) (c : Option (List Nat)), (k.setChilds p c).size = k.size := fun _ _ => rfl
      rw [this, (resetIndex_fields _ _ _).1]
      split
      · rw [(resetIndex_fields _ _ _).1, g1]; exact p1
      · rw [g1]; exact p1
    · rw [setChilds_parent, (resetIndex_fields _ _ _).2.2.1]
      have : ((g.setChilds r (some [])).setParent p (parsed.filter (e.allow (h.node p).name))).parent x = some p := by
        rw [g3, if_neg hxn]; unfold Heap.parent; rw [hE x hxb]; exact hpar
      split
      · rw [(resetIndex_fields _ _ _).2.2.1, this]
      · exact this
    · rw [setChilds_index, (resetIndex_fields _ _ _).2.2.2.2.1 x hxn]
      split
      · rw [(resetIndex_fields _ _ _).2.2.2.2.1 x hxd, hxi]
      · exact hxi
    · have h0 : SameData (g.setChilds r (some [])) (((if h.index x < cs.length - 1 then
          ((g.setChilds r (some [])).setParent p (parsed.filter (e.allow (h.node p).name))).resetIndex (h.index x + (parsed.filter (e.allow (h.node p).name)).length)
            (cs.drop (h.index x + 1)) else (g.setChilds r (some [])).setParent p (parsed.filter (e.allow (h.node p).name))).resetIndex (h.index x)
            (parsed.filter (e.allow (h.node p).name))).setChilds p (some (cs.take (h.index x) ++ parsed.filter (e.allow (h.node p).name) ++ cs.drop (h.index x + 1)))) := by
        refine SameData.trans ?_ (setChilds_data _ _ _)
        refine SameData.trans ?_ (resetIndex_fields _ _ _).2.2.2.1
        split
        · exact g4.trans (resetIndex_fields _ _ _).2.2.2.1
        · exact g4
      have h1 := h0 y
      rw [hE y hy] at h1
      exact ⟨h1.1, h1.2.1⟩

/-- C90 fails for every text that is given twice: the first call replaces the text by new nodes; the text keeps its parent and its position, so the second call takes
out the first of these (or the node behind, if there is none), and puts its own nodes in front of the others; if nothing stands there, it panics. -/
theorem C90_twice (ok : HeapOk h D) (P : ParseOk e) {x p : Nat} {s s' : List Char} (px : PlainText e h D x) {A B : List Nat} (hpar : h.parent x = some p)
    (hkp : h.kids p = A ++ x :: B) (ht : ∀ h, (∃ r, e.parse h s = .ok r) ∧ ∃ r, e.parse h s' = .ok r)
    (hl : ∀ h h1 r, e.parse h s = .ok (h1, r) ∨ e.parse h s' = .ok (h1, r) → (h1.node r).childs ≠ none) :
    ∃ h1 N, h.setHtml e x s = .ok h1 ∧ h1.kids p = A ++ N ++ B ∧ (∀ c ∈ N, h.size ≤ c) ∧
      (N ++ B = [] → h1.setHtml e x s' = .error (if A = [] then .overflow else .outOfBounds)) ∧
      ∀ y C, N ++ B = y :: C → ∃ h2 M, h1.setHtml e x s' = .ok h2 ∧ h2.kids p = A ++ M ++ C ∧ (∀ c ∈ M, h1.size ≤ c) ∧ y ∉ h2.kids p := by
  obtain ⟨hxb, hk, ha, p', hpar', hkt, hct⟩ := px
  rw [hpar] at hpar'; cases hpar'
  obtain ⟨hD, hi⟩ := ha p hpar
  have hpb := (ok.bound _ _ hpar).2
  have hidx : h.index x = A.length := (ok.link p A.length x hD (by rw [hkp]; simp)).2
  have hnd := ok.kids_nodup hD
  have hpk : p ∉ h.kids p := fun h2 => ok.parent_ne (ok.kid_parent hD h2) rfl
  have hc : (h.node p).childs = some (A ++ x :: B) := by
    rw [childs_of_kid (h := h) (p := p) (i := A.length) (c := x) (by rw [hkp]; simp), hkp]
  rw [hkp] at hnd hpk
  have hxB : x ∉ B := (List.nodup_cons.1 (List.nodup_append.1 hnd).2.1).1
  have fresh : ∀ {k g : Heap} {r : Nat} {s : List Char} {l : List Nat}, HeapOk k D → e.parse k s = .ok (g, r) → (g.node r).childs = some l → ∀ c ∈ l, k.size ≤ c := by
    intro k g r s l okk hp hch c hcl
    obtain ⟨p1, p2, p3, p4, p5, p6⟩ := P k s g r hp
    have okg := p6 D okk
    have hcl' := new_closed (h' := g) okg (fun y hy => (okk.dead y hy).2) (n := k.size) (fun y hy q hpp => by
      unfold Heap.parent at hpp
      rw [p2 y hy] at hpp
      exact (okk.bound y q hpp).2) r p3 c
    exact hcl' (by unfold Heap.kids; rw [hch]; exact hcl)
  obtain ⟨⟨g, r⟩, hp⟩ := (ht h).1
  cases hch : (g.node r).childs with
  | none => exact absurd hch (hl h g r (.inl hp))
  | some parsed =>
  have hnew := fresh ok hp hch
  obtain ⟨h1, r1, k1, k2, k3, k4, k5, k6⟩ := (setHtml_stale P hk hpar hkt hct hxb hpb hp hch hc hpk hnew).2 (by rw [hidx]; simp)
  have hdr : (A ++ x :: B).drop (A.length + 1) = B := by simp
  have htk : (A ++ x :: B).take A.length = A := by simp
  rw [hidx, hdr] at k5
  rw [hidx, hdr, htk] at k1
  have hx1 := k5 hxB
  have u : Usable e h D (.setHtml x s) := ⟨hxb, fun _ => ha, (ht h).1, fun q hq _ => by rw [hpar] at hq; cases hq; exact hkt⟩
  obtain ⟨h1', st⟩ := setHtml_step ok P u
  have hst : h1' = h1 := by
    have := st.run
    simp only [Op.run, r1, Except.ok.injEq] at this
    exact this.symm
  subst hst
  have ok1 : HeapOk h1' D := st.ok
  have hkid1 : h1'.kids p = A ++ parsed.filter (e.allow (h.node p).name) ++ B := by unfold Heap.kids; rw [k1]; rfl
  have hpk1 : p ∉ h1'.kids p := fun h2 => ok1.parent_ne (ok1.kid_parent hD h2) rfl
  rw [hkid1] at hpk1
  have hnd1 := ok1.kids_nodup hD
  rw [hkid1, List.append_assoc] at hnd1
  obtain ⟨⟨g', r'⟩, hp'⟩ := (ht h1').2
  cases hch' : (g'.node r').childs with
  | none => exact absurd hch' (hl h1' g' r' (.inr hp'))
  | some parsed' =>
  have hnew' := fresh ok1 hp' hch'
  obtain ⟨e1, e2⟩ := setHtml_stale P (by rw [(k6 x hxb).1]; exact hk) k4 (by rw [(k6 p hpb).1]; exact hkt) (by rw [(k6 p hpb).2]; exact hct)
    (Nat.lt_of_lt_of_le hxb k3) (Nat.lt_of_lt_of_le hpb k3) hp' hch' k1 hpk1 hnew'
  rw [hx1] at e1 e2
  refine ⟨h1', parsed.filter (e.allow (h.node p).name), r1, hkid1, fun c hc => hnew c (List.mem_filter.1 hc).1, fun h0 => ?_, fun y C hy => ?_⟩
  · rw [List.append_assoc, h0, List.append_nil] at e1
    exact e1 (Nat.le_refl _)
  · rw [List.append_assoc, hy] at e2
    rw [hy] at hnd1
    obtain ⟨h2, r2, l1, -⟩ := e2 (by simp)
    have hdr' : (A ++ y :: C).drop (A.length + 1) = C := by simp
    have htk' : (A ++ y :: C).take A.length = A := by simp
    rw [hdr', htk'] at l1
    have hkid2 : h2.kids p = A ++ parsed'.filter (e.allow (h1'.node p).name) ++ C := by unfold Heap.kids; rw [l1]; rfl
    refine ⟨h2, _, r2, hkid2, fun c hc => hnew' c (List.mem_filter.1 hc).1, fun hm => ?_⟩
    rw [hkid2] at hm
    have hyb : y < h1'.size := (ok1.bound y p (ok1.kid_parent hD (by rw [hkid1, List.append_assoc, hy]; simp))).1
    simp only [List.mem_append] at hm
    rcases hm with (hm | hm) | hm
    · exact (List.nodup_append.1 hnd1).2.2 y hm y (by simp) rfl
    · have := hnew' y (List.mem_filter.1 hm).1; omega
    · exact (List.nodup_cons.1 (List.nodup_append.1 hnd1).2.1).1 hm

end

/-- The text of the `div` of `talk`, twice. -/
example : ∃ h1 N, talk.setHtml extT 2 "x".toList = .ok h1 ∧ h1.kids 1 = N ++ [3, 5, 6] ∧
    ∀ y C, N ++ [3, 5, 6] = y :: C → ∃ h2 M, h1.setHtml extT 2 "y".toList = .ok h2 ∧ h2.kids 1 = M ++ C ∧ y ∉ h2.kids 1 := by
  obtain ⟨h1, N, r1, r2, -, -, r3⟩ := C90_twice (e := extT) talk_ok extT_parse (x := 2) (p := 1) (s := "x".toList) (s' := "y".toList)
    ⟨by decide, .inl (by decide), by rw [noneUsed_eq]; exact attachedB_sound (by decide), 1, by decide, by decide, by decide⟩ (A := []) (B := [3, 5, 6])
    (by decide) (by decide) (fun h => ⟨(extT_parsesTo (by decide)).total h, (extT_parsesTo (by decide)).total h⟩) (by
      rintro h h1 r (hp | hp)
      · exact extT_listed (by decide) hp
      · exact extT_listed (by decide) hp)
  exact ⟨h1, N, r1, r2, fun y C hy => let ⟨h2, M, q1, q2, _, q3⟩ := r3 y C hy; ⟨h2, M, q1, q2, q3⟩⟩

end Visdom
