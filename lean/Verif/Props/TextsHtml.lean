import Verif.Props.SetHtml
import Verif.Props.Speech
import Verif.Model.TextsHtml
import Verif.Spec.TextsHtml
/-!
# C90: `set_html` on every text of a set of texts
-/
namespace Visdom
open Spec

section
variable {h h' : Heap} {D : Nat → Prop} {e : Ext} {v : Voice}

/-- A text in an element that is not a content tag. -/
structure PlainText (e : Ext) (h : Heap) (D : Nat → Prop) (t : Nat) : Prop where
  bound : t < h.size
  kind : (h.node t).kind = .text ∨ (h.node t).kind = .spaces
  att : Attached h D t
  inside : ∃ p, h.parent t = some p ∧ (h.node p).kind = .tag ∧ e.contentTag (h.node p).name = false

/-- The name of the parent. -/
def hostName (h : Heap) (t : Nat) : List Char := (h.node ((h.parent t).getD 0)).name

theorem setHtml_one_text (ok : HeapOk h D) (P : ParseOk e) {s : List Char} {F : List Shape} {al : List Char → Shape → Bool} (pt : ParsesTo e s F al)
    (hl : ∀ h h1 r, e.parse h s = .ok (h1, r) → (h1.node r).childs ≠ none) {x : Nat} (px : PlainText e h D x) :
    ∃ h1 N, h.setHtml e x s = .ok h1 ∧ HeapOk h1 D ∧ h.size ≤ h1.size ∧
      (∀ q < h.size, ¬ D q → h1.kids q = (h.kids q).flatMap fun c => if c = x then N else [c]) ∧
      (∀ c ∈ N, h.size ≤ c ∧ c < h1.size) ∧ ShapesOf h1 N (F.filter (al (hostName h x))) ∧
      (∀ y < h.size, h1.parent y = h.parent y ∧ (h1.node y).kind = (h.node y).kind ∧ (h1.node y).name = (h.node y).name ∧
        (h1.node y).attrs = (h.node y).attrs ∧ (h1.node y).content = (h.node y).content) ∧
      (∀ y < h.size, y ≠ x → Attached h D y → Attached h1 D y) := by
  obtain ⟨hx, hk, ha, p, hpar, hkp, hct⟩ := px
  have hkt : (h.node x).kind ≠ .tag := by rcases hk with hk | hk <;> rw [hk] <;> simp
  have u : Usable e h D (.setHtml x s) := ⟨hx, fun _ => ha, pt.total h, fun q hq _ => by rw [hpar] at hq; cases hq; exact hkp⟩
  obtain ⟨h1, st⟩ := setHtml_step ok P u
  obtain ⟨h2, hrun, hc⟩ := setHtml_cases ok P u
  have he : h1 = h2 := by
    have := st.run
    simp only [Op.run, hrun, Except.ok.injEq] at this
    exact this.symm
  subst he
  have ok1 : HeapOk h1 D := st.ok
  have htg : h.htmlTarget x = some p := by
    unfold Heap.htmlTarget
    rcases hk with hk | hk <;> rw [hk] <;> exact hpar
  rcases hc with ⟨h2, _⟩ | ⟨t', h2, hpb, _, hc⟩
  · rw [htg] at h2; cases h2
  rw [htg] at h2
  cases h2
  rcases hc with ⟨h2, _⟩ | ⟨_, g, r, hp, hc⟩
  · rw [hct] at h2; cases h2
  rcases hc with ⟨hn, _⟩ | ⟨parsed, hch, hs⟩
  · exact absurd hn (hl h g r hp)
  rw [if_neg hkt] at hs
  obtain ⟨p1, p2, p3, p4, p5, p6⟩ := P h s g r hp
  have okg := p6 D ok
  have hDlt : ∀ y, D y → y < h.size := fun y hy => (ok.dead y hy).2
  have hgp : ∀ y < h.size, ∀ q, g.parent y = some q → q < h.size := fun y hy q hpp => by
    unfold Heap.parent at hpp
    rw [p2 y hy] at hpp
    exact (ok.bound y q hpp).2
  have hcl := new_closed okg hDlt hgp
  have hkr : ∀ c ∈ g.kids r, h.size ≤ c := hcl r p3
  have hshape := shapesOf_filter (p := e.allow (h.node p).name) (q := al (h.node p).name) (pt.shapes h g r hp)
    fun c hc S hS => pt.allow h g r hp c hc S hS _
  have hkn : g.kids r = parsed := by unfold Heap.kids; rw [hch]; rfl
  rw [hkn] at hshape hkr
  have hnew : ∀ c ∈ parsed.filter (e.allow (h.node p).name), h.size ≤ c := fun c hc => hkr c (List.mem_filter.1 hc).1
  have hE : ∀ y < h.size, (g.setChilds r (some [])).node y = h.node y := fun y hy => parse_old P hp hy
  have hDp : ¬ D p := (ha p hpar).1
  obtain ⟨hsp, hil⟩ := split_at (ha p hpar).2
  have hnd := ok.kids_nodup hDp
  refine ⟨h1, parsed.filter (e.allow (h.node p).name), hrun, ok1, st.size, fun q hq hDq => ?_, fun c hc => ⟨hnew c hc, ?_⟩, ?_, fun y hy => ?_,
    fun y hy hyx hya => st.attached y hy hya ?_⟩
  · by_cases hqp : q = p
    · subst hqp
      rw [hs.new]
      have hflat : ∀ l : List Nat, x ∉ l → (l.flatMap fun c => if c = x then parsed.filter (e.allow (h.node q).name) else [c]) = l := by
        intro l hxl
        induction l with
        | nil => rfl
        | cons a l ih =>
          simp only [List.mem_cons, not_or] at hxl
          rw [List.flatMap_cons, if_neg (fun h2 => hxl.1 h2.symm), ih hxl.2]; rfl
      have hnd' := hnd
      rw [hsp] at hnd'
      have hA : x ∉ (h.kids q).take (h.index x) := fun hm => by
        rw [List.append_assoc, List.nodup_append] at hnd'
        exact hnd'.2.2 x hm x (by simp) rfl
      have hB : x ∉ (h.kids q).drop (h.index x + 1) := fun hm => by
        rw [List.nodup_append] at hnd'
        exact hnd'.2.2 x (by simp) x hm rfl
      conv_rhs => rw [hsp]
      rw [List.flatMap_append, List.flatMap_append, hflat _ hA, hflat _ hB]
      simp
    · rw [hs.other q hqp, kids_old (hE q hq)]
      have hxq : x ∉ h.kids q := fun hm => hqp (by have := ok.kid_parent hDq hm; rw [hpar] at this; cases this; rfl)
      generalize h.kids q = l at hxq
      induction l with
      | nil => rfl
      | cons a l ih =>
        simp only [List.mem_cons, not_or] at hxq
        rw [List.flatMap_cons, if_neg (fun h2 => hxq.1 h2.symm), ← ih hxq.2]; rfl
  · have hm : c ∈ h1.kids p := by rw [hs.new]; simp only [List.mem_append]; exact .inl (.inr hc)
    exact (ok1.bound c p (ok1.kid_parent hDp hm)).1
  · rw [hostName, hpar, Option.getD_some]
    refine shapesOf_frame (Q := fun y => h.size ≤ y ∧ y ≠ r) (h := g) ?_ ?_ hshape ?_
    · intro y hy c hc
      refine ⟨hcl y hy.1 c hc, ?_⟩
      rintro rfl
      exact okg.kid y c (fun hd => by have := hDlt y hd; omega) hc p5
    · intro y hy
      obtain ⟨c1, c2, c3, c4, _⟩ := hs.data y
      have hg : (g.setChilds r (some [])).node y = g.node y := by rw [Heap.setChilds, upd_node, if_neg hy.2]
      have hyx : y ≠ p := by omega
      exact ⟨(hs.other y hyx).trans (kids_old hg), by rw [c1, hg], by rw [c2, hg], by rw [c3, hg], by rw [c4, hg]⟩
    · intro c hc
      have hm : c ∈ g.kids r := by rw [hkn]; exact (List.mem_filter.1 hc).1
      refine ⟨hnew c hc, ?_⟩
      rintro rfl
      exact okg.kid c c (fun hd => by have := hDlt c hd; omega) hm p5
  · obtain ⟨d1, d2, d3, d4, _⟩ := hs.data y
    have hyn : y ∉ parsed.filter (e.allow (h.node p).name) := fun hm => by have := hnew y hm; omega
    refine ⟨?_, by rw [d1, hE y hy], by rw [d2, hE y hy], by rw [d3, hE y hy], by rw [d4, hE y hy]⟩
    rw [hs.parent, if_neg hyn]; unfold Heap.parent; rw [hE y hy]
  · rintro (hm | ⟨_, hm | ⟨q, g', r', _, hp', hn, _⟩⟩)
    · rw [ok.leaf x (by rcases hk with hk | hk <;> rw [hk] <;> simp) hkt] at hm; cases hm
    · exact hyx hm
    · rw [hp] at hp'; cases hp'; rw [hch] at hn; cases hn

/-- The text is not changed by replacing another one. -/
theorem PlainText.later {x y : Nat} (p : PlainText e h D y)
    (hf : ∀ y < h.size, h'.parent y = h.parent y ∧ (h'.node y).kind = (h.node y).kind ∧ (h'.node y).name = (h.node y).name ∧
        (h'.node y).attrs = (h.node y).attrs ∧ (h'.node y).content = (h.node y).content)
    (hs : h.size ≤ h'.size) (ha : ∀ y < h.size, y ≠ x → Attached h D y → Attached h' D y) (ok : HeapOk h D) (hyx : y ≠ x) :
    PlainText e h' D y ∧ hostName h' y = hostName h y := by
  obtain ⟨hb, hk, hya, q, hq, hkq, hcq⟩ := p
  have hqb := (ok.bound y q hq).2
  refine ⟨⟨by omega, by rw [(hf y hb).2.1]; exact hk, ha y hb hyx hya, q, by rw [(hf y hb).1, hq], by rw [(hf q hqb).2.1, hkq], by
    rw [(hf q hqb).2.2.1, hcq]⟩, ?_⟩
  unfold hostName
  rw [(hf y hb).1, hq, Option.getD_some, (hf q hqb).2.2.1]

theorem setHtml_texts (P : ParseOk e) (vo : VoiceOk v e) (f : Nat → List Char → List Char) (F : Nat → List Shape) (al : List Char → Shape → Bool) :
    ∀ (L : List Nat) (i : Nat) (h : Heap), HeapOk h D → L.Nodup → (∀ t ∈ L, PlainText e h D t) →
      (∀ j t, L[j]? = some t → ParsesTo e (f (i + j) (v.say false (h.node t).kind (h.node t).content)) (F t) al) →
      (∀ j t, L[j]? = some t → ∀ g g1 r, e.parse g (f (i + j) (v.say false (h.node t).kind (h.node t).content)) = .ok (g1, r) → (g1.node r).childs ≠ none) →
      ∃ h' N, textsEach (htmlStep v e f) i h L = .ok h' ∧ HeapOk h' D ∧ h.size ≤ h'.size ∧ TextsReplaced h h' D L N ∧
        (∀ y < h.size, h'.parent y = h.parent y) ∧
        (∀ t ∈ L, (∀ c ∈ N t, c < h'.size) ∧ ShapesOf h' (N t) ((F t).filter (al (hostName h t)))) ∧
        ∀ y < h.size, y ∉ L → Attached h D y → Attached h' D y
  | [], i, h, ok, _, _, _, _ => by
    refine ⟨h, fun _ => [], rfl, ok, Nat.le_refl _, ⟨fun q _ _ => ?_, by simp, fun _ _ => rfl, fun _ _ => rfl, fun _ _ => rfl, fun _ _ => rfl⟩, fun _ _ => rfl, by simp,
      fun _ _ _ h2 => h2⟩
    simp
  | x :: L, i, h, ok, hnd, hL, hp, hl => by
    rw [List.nodup_cons] at hnd
    have px := hL x (by simp)
    obtain ⟨h1, N1, r1, ok1, s1, k1, n1, sh1, f1, a1⟩ := setHtml_one_text ok P (hp 0 x (by simp)) (hl 0 x (by simp)) px
    have hne : ∀ t ∈ L, t ≠ x := fun t ht h2 => hnd.1 (h2 ▸ ht)
    have hlater := fun t ht => (hL t (by simp [ht])).later f1 s1 a1 ok (hne t ht)
    have hsay : ∀ t ∈ L, v.say false (h1.node t).kind (h1.node t).content = v.say false (h.node t).kind (h.node t).content := fun t ht => by
      obtain ⟨_, e1, _, _, e2⟩ := f1 t (hL t (by simp [ht])).bound
      rw [e1, e2]
    obtain ⟨h2, N2, r2, ok2, s2, T2, p2, sh2, a2⟩ := setHtml_texts P vo f F al L (i + 1) h1 ok1 hnd.2 (fun t ht => (hlater t ht).1)
      (fun j t ht => by
        rw [hsay t (List.mem_of_getElem? ht)]
        have := hp (j + 1) t (by simpa using ht)
        rwa [Nat.add_assoc, Nat.add_comm 1 j])
      (fun j t ht => by
        rw [hsay t (List.mem_of_getElem? ht)]
        have := hl (j + 1) t (by simpa using ht)
        rwa [Nat.add_assoc, Nat.add_comm 1 j])
    have hLb : ∀ t ∈ L, t < h.size := fun t ht => (hL t (by simp [ht])).bound
    have hN1L : ∀ c ∈ N1, c ∉ L := fun c hc hm => by have := (n1 c hc).1; have := hLb c hm; omega
    have hpar1 : ∀ z < h.size, ∀ q, h1.parent z = some q → q < h.size := fun z hz q hq => (ok.bound z q (by rw [← hq, (f1 z hz).1])).2
    have hDlt : ∀ y, D y → y < h.size := fun y hy => (ok.dead y hy).2
    have hcl := new_closed ok1 hDlt hpar1
    refine ⟨h2, fun t => if t = x then N1 else N2 t, ?_, ok2, by omega, ⟨fun q hq hDq => ?_, fun t ht c hc => ?_, fun y hy => ?_, fun y hy => ?_, fun y hy => ?_,
      fun y hy => ?_⟩, fun y hy => ?_, fun t ht => ?_, fun y hy hyn hya => ?_⟩
    · rw [textsEach, htmlStep, textContents_text vo px.kind]
      simp only [Nat.add_zero] at r1
      simp only [r1, r2]
    · rw [T2.kids q (by omega) hDq, k1 q hq hDq]
      generalize h.kids q = l
      induction l with
      | nil => rfl
      | cons a l ih =>
        rw [List.flatMap_cons, List.flatMap_cons, List.flatMap_append, ih]
        congr 1
        by_cases hax : a = x
        · subst hax
          simp only [if_true, List.mem_cons, true_or]
          clear ih sh1 k1 r1
          induction N1 with
          | nil => rfl
          | cons b B ihB =>
            rw [List.flatMap_cons, if_neg (hN1L b (by simp)), ihB (fun c hc => n1 c (by simp [hc])) (fun c hc => hN1L c (by simp [hc]))]; rfl
        · simp only [if_neg hax, List.mem_cons, hax, false_or]
          simp
    · by_cases htx : t = x
      · rw [if_pos htx] at hc; exact (n1 c hc).1
      · rw [if_neg htx] at hc
        have := T2.new t (by simpa [htx] using ht) c hc
        omega
    · rw [T2.kind y (by omega), (f1 y hy).2.1]
    · rw [T2.name y (by omega), (f1 y hy).2.2.1]
    · rw [T2.attrs y (by omega), (f1 y hy).2.2.2.1]
    · rw [T2.content y (by omega), (f1 y hy).2.2.2.2]
    · rw [p2 y (by omega), (f1 y hy).1]
    · by_cases htx : t = x
      · subst htx
        simp only [if_true]
        refine ⟨fun c hc => by have := (n1 c hc).2; omega, ?_⟩
        refine shapesOf_frame (Q := fun z => h.size ≤ z ∧ z < h1.size) ?_ ?_ sh1 n1
        · intro z hz c hcz
          exact ⟨hcl z hz.1 c hcz, (ok1.bound c z (ok1.kid_parent (fun hd => by have := hDlt z hd; omega) hcz)).1⟩
        · intro z hz
          have hzD : ¬ D z := fun hd => by have := hDlt z hd; omega
          refine ⟨?_, T2.kind z hz.2, T2.name z hz.2, T2.attrs z hz.2, T2.content z hz.2⟩
          rw [T2.kids z hz.2 hzD]
          have hnew := hcl z hz.1
          generalize h1.kids z = l at hnew
          induction l with
          | nil => rfl
          | cons b B ihB =>
            have : b ∉ L := fun hm => by have := hLb b hm; have := hnew b (by simp); omega
            rw [List.flatMap_cons, if_neg this, ihB fun c hc => hnew c (by simp [hc])]; rfl
      · have htL : t ∈ L := by simpa [htx] using ht
        simp only [if_neg htx]
        rw [← (hlater t htL).2]
        exact sh2 t htL
    · simp only [List.mem_cons, not_or] at hyn
      exact a2 y (by omega) hyn.2 (a1 y hy hyn.1 hya)

/-- C90, the part that holds: `for_each` over distinct texts that stand in elements that are not content tags, with a closure that calls `set_html` with
markup made of the position and of the text. It answers; every text is replaced where it stands by new nodes, which look like those parsed from its markup
that may stand in the element; the nodes around, and everything else about the old nodes, stay; all links are right. Missing: a text that is listed twice
(`C90_fails_repeated`), and what `C41_fails_empty` and `C41_fails_root` say about a single text. -/
theorem C90_set_html_partial (ok : HeapOk h D) (P : ParseOk e) (vo : VoiceOk v e) {L : List Nat} (hnd : L.Nodup) (hL : ∀ t ∈ L, PlainText e h D t)
    (f : Nat → List Char → List Char) {F : Nat → List Shape} {al : List Char → Shape → Bool}
    (hp : ∀ j t, L[j]? = some t → ParsesTo e (f j (v.say false (h.node t).kind (h.node t).content)) (F t) al)
    (hl : ∀ j t, L[j]? = some t → ∀ g g1 r, e.parse g (f j (v.say false (h.node t).kind (h.node t).content)) = .ok (g1, r) → (g1.node r).childs ≠ none) :
    ∃ h' N, textsEach (htmlStep v e f) 0 h L = .ok h' ∧ TextsReplaced h h' D L N ∧ LinksRight h' D ∧
      ∀ t ∈ L, ShapesOf h' (N t) ((F t).filter (al (hostName h t))) := by
  obtain ⟨h', N, h1, h2, _, h4, _, h6, _⟩ := setHtml_texts P vo f F al L 0 h ok hnd hL (by simpa using hp) (by simpa using hl)
  exact ⟨h', N, h1, h4, h2.right, fun t ht => (h6 t ht).2⟩

mutual
theorem shape_spoken : ∀ {x : Nat} {S : Shape}, ShapeOf h x S → (∀ y, Within h x y → (h.node y).kind ≠ .root) → ∀ ct, Spoken v e h ct x (S.says v e ct)
  | x, _, .mk (l := l) hl, hr, ct => by
    have hall : ∀ ct, SpokenAll v e h ct (h.kids x) (Shape.sayAll v e ct l) := fun ct =>
      shapes_spoken hl (fun c hc y hy => hr y (Within.trans (.step .self hc) hy)) ct
    cases hk : (h.node x).kind with
    | tag =>
      rw [Shape.says]
      cases hc : e.contentTag (h.node x).name with
      | true => exact .content hk hc (hall true)
      | false => exact .plain hk hc (by simpa using hall false)
    | root => exact absurd hk (hr x .self)
    | _ =>
      rw [Shape.says, ← hk]
      · exact .leaf (by rw [hk]; simp) (by rw [hk]; simp)
      · simp

theorem shapes_spoken : ∀ {l : List Nat} {F : List Shape}, ShapesOf h l F → (∀ x ∈ l, ∀ y, Within h x y → (h.node y).kind ≠ .root) →
    ∀ ct, SpokenAll v e h ct l (Shape.sayAll v e ct F)
  | _, _, .nil, _, ct => by rw [Shape.sayAll]; exact .nil
  | _, _, .cons h1 h2, hr, ct => by
    rw [Shape.sayAll]
    exact .cons (shape_spoken h1 (hr _ (by simp)) ct) (shapes_spoken h2 (fun x hx => hr x (by simp [hx])) ct)
end

section
variable {L : List Nat} {N : Nat → List Nat} {w : Nat → List Char}

mutual
/-- What is said after the replacement. -/
theorem spokenWith_after (ok : HeapOk h D) (T : TextsReplaced h h' D L N) (hL : ∀ t ∈ L, PlainText e h D t)
    (hN : ∀ t ∈ L, SpokenAll v e h' false (N t) (w t)) :
    ∀ {ct : Bool} {x : Nat} {s : List Char}, SpokenWith v e h L w ct x s → x ∉ L → x < h.size → Spoken v e h' ct x s
  | _, _, _, .new hx, hn, _ => absurd hx hn
  | ct, x, _, .leaf _ h1 h2, _, hb => by
    have := Spoken.leaf (v := v) (e := e) (h := h') (ct := ct) (x := x) (by rw [T.kind x hb]; exact h1) (by rw [T.kind x hb]; exact h2)
    rwa [T.kind x hb, T.content x hb] at this
  | ct, x, _, .plain _ h1 h2 h3, _, hb => by
    refine .plain (by rw [T.kind x hb, h1]) (by rw [T.name x hb, h2]) ?_
    rw [T.kids x hb (tag_live ok h1)]
    exact spokenWithAll_after ok T hL hN h3 (fun c hc => (ok.bound c x (ok.kid_parent (tag_live ok h1) hc)).1) (by simp)
  | ct, x, _, .content _ h1 h2 h3, _, hb => by
    have h4 := spokenWithAll_after ok T hL hN h3 (fun c hc => (ok.bound c x (ok.kid_parent (tag_live ok h1) hc)).1) fun _ c hc hm => by
      obtain ⟨p, hp, _, hcp⟩ := (hL c hm).inside
      have := ok.kid_parent (tag_live ok h1) hc
      rw [hp] at this
      cases this
      rw [h2] at hcp
      cases hcp
    rw [← T.kids x hb (tag_live ok h1)] at h4
    have := Spoken.content (v := v) (e := e) (h := h') (ct := ct) (x := x) (by rw [T.kind x hb, h1]) (by rw [T.name x hb, h2]) h4
    rwa [T.name x hb, T.content x hb] at this

theorem spokenWithAll_after (ok : HeapOk h D) (T : TextsReplaced h h' D L N) (hL : ∀ t ∈ L, PlainText e h D t)
    (hN : ∀ t ∈ L, SpokenAll v e h' false (N t) (w t)) :
    ∀ {ct : Bool} {l : List Nat} {s : List Char}, SpokenWithAll v e h L w ct l s → (∀ c ∈ l, c < h.size) → (ct = true → ∀ c ∈ l, c ∉ L) →
      SpokenAll v e h' ct (l.flatMap fun c => if c ∈ L then N c else [c]) s
  | _, _, _, .nil, _, _ => .nil
  | ct, x :: xs, _, .cons h1 h2, hb, hc => by
    rw [List.flatMap_cons]
    refine spokenAll_append ?_ (spokenWithAll_after ok T hL hN h2 (fun c hm => hb c (by simp [hm])) fun h3 c hm => hc h3 c (by simp [hm]))
    by_cases hx : x ∈ L
    · rw [if_pos hx]
      cases ct with
      | true => exact absurd hx (hc rfl x (by simp))
      | false =>
        cases h1 with
        | new => exact hN x hx
        | leaf h3 => exact absurd hx h3
        | plain h3 => exact absurd hx h3
        | content h3 => exact absurd hx h3
    · rw [if_neg hx]
      have := spokenWith_after ok T hL hN h1 hx (hb x (by simp))
      simpa using SpokenAll.cons this .nil
end

theorem spokenWith_total {x : Nat} (hacc : Acc (fun c p => c ∈ h.kids p) x) (hn : ∀ y, Within h x y → (h.node y).kind ≠ .root) (ct : Bool) :
    ∃ s, SpokenWith v e h L w ct x s := by
  induction hacc generalizing ct with
  | intro x _ ih =>
    by_cases hx : x ∈ L
    · exact ⟨_, .new hx⟩
    by_cases hk : (h.node x).kind = .tag
    · have hall : ∀ ct (l : List Nat), (∀ c ∈ l, c ∈ h.kids x) → ∃ s, SpokenWithAll v e h L w ct l s := by
        intro ct l
        induction l with
        | nil => exact fun _ => ⟨[], .nil⟩
        | cons c l ihl =>
          intro hl
          obtain ⟨s, hs⟩ := ih c (hl c (by simp)) (fun y hy => hn y (Within.trans (.step .self (hl c (by simp))) hy)) ct
          obtain ⟨t, ht⟩ := ihl fun c hc => hl c (by simp [hc])
          exact ⟨_, .cons hs ht⟩
      cases hc : e.contentTag (h.node x).name with
      | true => obtain ⟨s, hs⟩ := hall true _ fun c hc => hc; exact ⟨_, .content hx hk hc hs⟩
      | false => obtain ⟨s, hs⟩ := hall false _ fun c hc => hc; exact ⟨_, .plain hx hk hc hs⟩
    · exact ⟨_, .leaf hx (hn x .self) hk⟩

end

/-- C90, the texts afterwards: under the same conditions, the text of every old element is what it was with, in the place of each of the texts, what
the nodes that replaced it say. -/
theorem C90_text_partial (ok : HeapOk h D) (P : ParseOk e) (vo : VoiceOk v e) {L : List Nat} (hnd : L.Nodup) (hL : ∀ t ∈ L, PlainText e h D t)
    (f : Nat → List Char → List Char) {F : Nat → List Shape} {al : List Char → Shape → Bool}
    (hp : ∀ j t, L[j]? = some t → ParsesTo e (f j (v.say false (h.node t).kind (h.node t).content)) (F t) al)
    (hl : ∀ j t, L[j]? = some t → ∀ g g1 r, e.parse g (f j (v.say false (h.node t).kind (h.node t).content)) = .ok (g1, r) → (g1.node r).childs ≠ none) :
    ∃ h', textsEach (htmlStep v e f) 0 h L = .ok h' ∧ ∀ q < h.size, (h.node q).kind = .tag →
      ∃ s, SpokenWith v e h L (fun t => Shape.sayAll v e false ((F t).filter (al (hostName h t)))) false q s ∧ textContents v e h' q = .ok s := by
  obtain ⟨h', N, h1, ok', h3, T, _, h6, _⟩ := setHtml_texts P vo f F al L 0 h ok hnd hL (by simpa using hp) (by simpa using hl)
  refine ⟨h', h1, fun q hq hk => ?_⟩
  have hN : ∀ t ∈ L, SpokenAll v e h' false (N t) (Shape.sayAll v e false ((F t).filter (al (hostName h t)))) := fun t ht => by
    refine shapes_spoken (h6 t ht).2 (fun x hx y hy => ?_) false
    obtain ⟨p, hpt, hkp, _⟩ := (hL t ht).inside
    have hpb := (ok.bound t p hpt).2
    have hm : x ∈ h'.kids p := by
      rw [T.kids p hpb (tag_live ok hkp)]
      exact List.mem_flatMap.2 ⟨t, List.mem_of_getElem? ((hL t ht).att p hpt).2, by rw [if_pos ht]; exact hx⟩
    exact (live_inside ok' (x := p) (by rw [T.kind p hpb, hkp]) (Within.trans (.step .self hm) hy)).2
  have hkq : (h'.node q).kind = .tag := by rw [T.kind q hq, hk]
  obtain ⟨s, hs⟩ := spokenWith_total (v := v) (e := e) (L := L) (w := fun t => Shape.sayAll v e false ((F t).filter (al (hostName h t))))
    (heapOk_finite_of ok hq (tag_live ok hk)).2 (fun y hy => (live_inside ok hk hy).2) false
  have hqL : q ∉ L := fun hm => by rcases (hL q hm).kind with h2 | h2 <;> rw [hk] at h2 <;> cases h2
  exact ⟨s, hs, (textContents_elem (heapOk_finite_of ok' (by omega) (tag_live ok' hkq)) hkq (fun y hy => (live_inside ok' hkq hy).2) s).2
    (spokenWith_after ok T hL hN hs hqL hq)⟩

end

/-! ### Examples -/

theorem talk_plain : ∀ t ∈ [2, 4], PlainText extT talk noneUsed t := by
  intro t ht
  simp only [List.mem_cons, List.not_mem_nil, or_false] at ht
  rcases ht with rfl | rfl
  · exact ⟨by decide, .inl (by decide), by rw [noneUsed_eq]; exact attachedB_sound (by decide), 1, by decide, by decide, by decide⟩
  · exact ⟨by decide, .inl (by decide), by rw [noneUsed_eq]; exact attachedB_sound (by decide), 3, by decide, by decide, by decide⟩

theorem extT_parse : ParseOk extT := ext0_parse

theorem extT_parsesTo {s : List Char} (hs : s ≠ []) : ParsesTo extT s [.mk .text [] {} (some s) []] (fun name _ => name != "br".toList) :=
  ⟨(ext0_parsesTo hs).total, (ext0_parsesTo hs).shapes, (ext0_parsesTo hs).allow⟩

theorem extT_listed {s : List Char} (hs : s ≠ []) {g g1 : Heap} {r : Nat} (hp : extT.parse g s = .ok (g1, r)) : (g1.node r).childs ≠ none := by
  simp only [extT, ext0, parse0] at hp
  rw [if_neg (by simpa using hs)] at hp
  cases hp
  simp

theorem talk_marks : ∀ j t, ([2, 4] : List Nat)[j]? = some t →
    ParsesTo extT (Nat.digitChar j :: voice0.say false (talk.node t).kind (talk.node t).content)
      [Shape.mk .text [] {} (some (if t = 2 then "0a".toList else "1c".toList)) []] (fun name _ => name != "br".toList)
  | 0, t, ht => by cases ht; exact extT_parsesTo (by simp)
  | 1, t, ht => by cases ht; exact extT_parsesTo (by simp)
  | j + 2, t, ht => by simp at ht

/-- Both texts get a mark; the one in the `b` is replaced in the `b`. -/
example : ∃ h' N, textsEach (htmlStep voice0 extT fun i s => Nat.digitChar i :: s) 0 talk [2, 4] = .ok h' ∧ TextsReplaced talk h' noneUsed [2, 4] N ∧
    LinksRight h' noneUsed ∧ ∀ t ∈ [2, 4], ShapesOf h' (N t) (([Shape.mk .text [] {} (some (if t = 2 then "0a".toList else "1c".toList)) []]).filter
      fun _ => hostName talk t != "br".toList) :=
  C90_set_html_partial talk_ok extT_parse voice0_ok (by decide) talk_plain _ talk_marks fun _ _ _ _ _ _ hp => extT_listed (by simp) hp

example : ∃ h', textsEach (htmlStep voice0 extT fun i s => Nat.digitChar i :: s) 0 talk [2, 4] = .ok h' ∧ ∀ q < talk.size, (talk.node q).kind = .tag →
    ∃ s, SpokenWith voice0 extT talk [2, 4] (fun t => Shape.sayAll voice0 extT false (([Shape.mk .text [] {} (some (if t = 2 then "0a".toList else "1c".toList)) []]).filter
      fun _ => hostName talk t != "br".toList)) false q s ∧ textContents voice0 extT h' q = .ok s :=
  C90_text_partial talk_ok extT_parse voice0_ok (by decide) talk_plain _ talk_marks fun _ _ _ _ _ _ hp => extT_listed (by simp) hp

set_option maxRecDepth 100000 in
example : (match textsEach (htmlStep voice0 extT fun i s => Nat.digitChar i :: s) 0 talk [2, 4] with
    | .ok h' => textContents voice0 extT h' 1
    | .error p => .error p) = .ok "0a1ct".toList := by decide

/-- A parser that makes two texts of every text: the text and a mark. -/
def parseTwo (h : Heap) (s : List Char) : R (Heap × Nat) :=
  .ok ({ size := h.size + 3, node := fun y =>
    if y = h.size then { kind := .root, childs := some [h.size + 1, h.size + 2], root := some h.size }
    else if y = h.size + 1 then { kind := .text, content := some s, parent := some h.size, root := some h.size }
    else if y = h.size + 2 then { kind := .text, content := some ['!'], parent := some h.size, index := 1, root := some h.size }
    else h.node y }, h.size)

set_option maxRecDepth 100000 in
/-- C90 does not hold in full: of a text that is listed twice the second call replaces the first of the nodes the first call has made, by both of its own: instead of
`a` and `!` there are `a`, `!`, `!`. -/
theorem C90_fails_repeated : (match textsEach (htmlStep voice0 { extT with parse := parseTwo } fun _ s => s) 0 talk [2, 2] with
      | .ok h' => textContents voice0 extT h' 1
      | .error p => .error p) = .ok "a!!ct".toList ∧
    (match textsEach (htmlStep voice0 { extT with parse := parseTwo } fun _ s => s) 0 talk [2] with
      | .ok h' => textContents voice0 extT h' 1
      | .error p => .error p) = .ok "a!ct".toList := ⟨by decide, by decide⟩

end Visdom
