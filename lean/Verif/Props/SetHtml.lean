import Verif.Props.Html
import Verif.Spec.Shape
import Verif.Model.Copy
/-!
# C67: `set_html` on a set
-/
namespace Visdom
open Spec

section
variable {h h' : Heap} {D : Nat → Prop} {e : Ext}

theorem Spec.Untouched.refl (h : Heap) (y : Nat) : Untouched h h y := ⟨rfl, rfl, rfl, rfl, rfl, rfl, rfl, rfl⟩
theorem Spec.Untouched.trans {h1 h2 h3 : Heap} {y : Nat} (a : Untouched h1 h2 y) (b : Untouched h2 h3 y) : Untouched h1 h3 y :=
  ⟨b.kids.trans a.kids, b.parent.trans a.parent, b.index.trans a.index, b.kind.trans a.kind, b.name.trans a.name, b.attrs.trans a.attrs,
    b.content.trans a.content, b.root.trans a.root⟩
theorem untouched_of_node {y : Nat} (hn : h'.node y = h.node y) : Untouched h h' y := by
  constructor <;> simp only [Heap.kids, Heap.parent, Heap.index, hn]

mutual
/-- The shape only depends on the nodes of the subtree. -/
theorem shapeOf_frame {Q : Nat → Prop} (hc : ∀ y, Q y → ∀ c ∈ h.kids y, Q c)
    (hQ : ∀ y, Q y → h'.kids y = h.kids y ∧ (h'.node y).kind = (h.node y).kind ∧ (h'.node y).name = (h.node y).name ∧
      (h'.node y).attrs = (h.node y).attrs ∧ (h'.node y).content = (h.node y).content) :
    ∀ {x : Nat} {S : Shape}, ShapeOf h x S → Q x → ShapeOf h' x S
  | x, _, .mk hl, hx => by
    have h1 := shapesOf_frame hc hQ hl (hc x hx)
    obtain ⟨e1, e2, e3, e4, e5⟩ := hQ x hx
    rw [← e1] at h1
    have := ShapeOf.mk h1
    rwa [e2, e3, e4, e5] at this

theorem shapesOf_frame {Q : Nat → Prop} (hc : ∀ y, Q y → ∀ c ∈ h.kids y, Q c)
    (hQ : ∀ y, Q y → h'.kids y = h.kids y ∧ (h'.node y).kind = (h.node y).kind ∧ (h'.node y).name = (h.node y).name ∧
      (h'.node y).attrs = (h.node y).attrs ∧ (h'.node y).content = (h.node y).content) :
    ∀ {l : List Nat} {F : List Shape}, ShapesOf h l F → (∀ c ∈ l, Q c) → ShapesOf h' l F
  | _, _, .nil, _ => .nil
  | _, _, .cons h1 h2, hl => .cons (shapeOf_frame hc hQ h1 (hl _ (by simp))) (shapesOf_frame hc hQ h2 fun c hc' => hl c (by simp [hc']))
end

theorem shapesOf_filter {p : Nat → Bool} {q : Shape → Bool} : ∀ {l : List Nat} {F : List Shape}, ShapesOf h l F →
    (∀ c ∈ l, ∀ S, ShapeOf h c S → p c = q S) → ShapesOf h (l.filter p) (F.filter q)
  | _, _, .nil, _ => .nil
  | _, _, .cons (x := x) (s := S) h1 h2, hp => by
    have h3 := shapesOf_filter h2 fun c hc => hp c (by simp [hc])
    have h4 := hp x (by simp) S h1
    cases hq : q S with
    | true => rw [hq] at h4; rw [List.filter_cons_of_pos h4, List.filter_cons_of_pos hq]; exact .cons h1 h3
    | false => rw [hq] at h4; rw [List.filter_cons_of_neg (by simp [h4]), List.filter_cons_of_neg (by simp [hq])]; exact h3

/-- What `set_html` makes of one element. -/
structure HtmlSet (e : Ext) (s : List Char) (F : List Shape) (al : List Char → Shape → Bool) (h h' : Heap) (x : Nat) : Prop where
  list : e.contentTag (h.node x).name = false → ShapesOf h' (h'.kids x) (F.filter (al (h.node x).name))
  new : e.contentTag (h.node x).name = false → ∀ c ∈ h'.kids x, h.size ≤ c
  keptKids : e.contentTag (h.node x).name = true → h'.kids x = h.kids x
  content : (h'.node x).content = if e.contentTag (h.node x).name then some s else (h.node x).content
  parent : h'.parent x = h.parent x
  index : h'.index x = h.index x
  kind : (h'.node x).kind = (h.node x).kind
  name : (h'.node x).name = (h.node x).name
  attrs : (h'.node x).attrs = (h.node x).attrs
  root : (h'.node x).root = (h.node x).root

theorem new_closed (ok : HeapOk h' D) {n : Nat} (hD : ∀ y, D y → y < n) (hpar : ∀ y < n, ∀ p, h'.parent y = some p → p < n) :
    ∀ y, n ≤ y → ∀ c ∈ h'.kids y, n ≤ c := by
  intro y hy c hc
  by_contra hlt
  have := ok.kid_parent (fun hd => by have := hD y hd; omega) hc
  have := hpar c (by omega) y this
  omega

theorem setHtml_one (ok : HeapOk h D) (P : ParseOk e) {s : List Char} {F : List Shape} {al : List Char → Shape → Bool}
    (pt : ParsesTo e s F al) {x : Nat} (hx : x < h.size) (hk : (h.node x).kind = .tag) :
    ∃ h1, h.setHtml e x s = .ok h1 ∧ HeapOk h1 D ∧ h.size ≤ h1.size ∧ (∀ y < h.size, y ≠ x → Untouched h h1 y) ∧ HtmlSet e s F al h h1 x := by
  have u : Usable e h D (.setHtml x s) := ⟨hx, fun h1 => absurd hk h1, pt.total h, fun p _ h1 => absurd hk h1⟩
  obtain ⟨h1, st⟩ := setHtml_step ok P u
  obtain ⟨h2, hrun, hc⟩ := setHtml_cases ok P u
  have he : h1 = h2 := by
    have := st.run
    simp only [Op.run, hrun, Except.ok.injEq] at this
    exact this.symm
  subst he
  refine ⟨h1, hrun, st.ok, st.size, ?_⟩
  have htg : h.htmlTarget x = some x := by unfold Heap.htmlTarget; rw [hk]
  rcases hc with ⟨h2, _⟩ | ⟨t, h2, htb, htk, hc⟩
  · rw [htg] at h2; cases h2
  rw [htg] at h2
  cases h2
  rcases hc with ⟨hct, rfl⟩ | ⟨hct, g, r, hp, hc⟩
  · refine ⟨fun y _ hy => untouched_of_node (by rw [upd_node, if_neg hy]), ?_⟩
    constructor <;> simp [hct, Heap.kids, Heap.parent, Heap.index, upd_node]
  obtain ⟨p1, p2, p3, p4, p5, p6⟩ := P h s g r hp
  have okg := p6 D ok
  have hDlt : ∀ y, D y → y < h.size := fun y hy => (ok.dead y hy).2
  have hgp : ∀ y < h.size, ∀ p, g.parent y = some p → p < h.size := fun y hy p hpp => by
    unfold Heap.parent at hpp
    rw [p2 y hy] at hpp
    exact (ok.bound y p hpp).2
  have hcl := new_closed okg hDlt hgp
  have hkr : ∀ c ∈ g.kids r, h.size ≤ c := hcl r p3
  have hshape := shapesOf_filter (p := e.allow (h.node x).name) (q := al (h.node x).name) (pt.shapes h g r hp)
    fun c hc S hS => pt.allow h g r hp c hc S hS _
  have hxr : x ≠ r := by omega
  rcases hc with ⟨hn, rfl⟩ | ⟨parsed, hch, hs⟩
  · have hkn : g.kids r = [] := by unfold Heap.kids; rw [hn]; rfl
    rw [hkn] at hshape
    refine ⟨fun y hy hyx => untouched_of_node (by rw [Heap.setChilds, upd_node, if_neg hyx, p2 y hy]), ?_⟩
    have hkx : (g.setChilds x none).kids x = [] := by rw [setChilds_kids, if_pos rfl]; rfl
    constructor
    · intro _
      rw [hkx]
      cases hF : F.filter (al (h.node x).name) with
      | nil => exact .nil
      | cons a b => rw [hF] at hshape; cases hshape
    · intro _; rw [hkx]; simp
    · rw [hct]; simp
    · rw [(setChilds_data _ _ _ x).2.2.2.1, p2 x hx, hct]; rfl
    · rw [setChilds_parent]; unfold Heap.parent; rw [p2 x hx]
    · rw [setChilds_index]; unfold Heap.index; rw [p2 x hx]
    · rw [(setChilds_data _ _ _ x).1, p2 x hx]
    · rw [(setChilds_data _ _ _ x).2.1, p2 x hx]
    · rw [(setChilds_data _ _ _ x).2.2.1, p2 x hx]
    · rw [(setChilds_data _ _ _ x).2.2.2.2, p2 x hx]
  · rw [if_pos hk] at hs
    have hkn : g.kids r = parsed := by unfold Heap.kids; rw [hch]; rfl
    rw [hkn] at hshape hkr
    have hnew : ∀ c ∈ parsed.filter (e.allow (h.node x).name), h.size ≤ c := fun c hc => hkr c (List.mem_filter.1 hc).1
    have hE : ∀ y < h.size, (g.setChilds r (some [])).node y = h.node y := fun y hy => parse_old P hp hy
    have hlist : h1.kids x = parsed.filter (e.allow (h.node x).name) := by rw [hs.new]; simp
    refine ⟨fun y hy hyx => ?_, ?_⟩
    · obtain ⟨d1, d2, d3, d4, d5⟩ := hs.data y
      have hyn : y ∉ parsed.filter (e.allow (h.node x).name) := fun hm => by have := hnew y hm; omega
      refine ⟨?_, ?_, ?_, ?_, ?_, ?_, ?_, ?_⟩
      · rw [hs.other y hyx]; exact kids_old (hE y hy)
      · rw [hs.parent, if_neg hyn]; unfold Heap.parent; rw [hE y hy]
      · rw [hs.indexOther y (by simpa using hyn)]; unfold Heap.index; rw [hE y hy]
      · rw [d1, hE y hy]
      · rw [d2, hE y hy]
      · rw [d3, hE y hy]
      · rw [d4, hE y hy]
      · rw [d5, hE y hy]
    · obtain ⟨d1, d2, d3, d4, d5⟩ := hs.data x
      have hxn : x ∉ parsed.filter (e.allow (h.node x).name) := fun hm => by have := hnew x hm; omega
      constructor
      · intro _
        rw [hlist]
        refine shapesOf_frame (Q := fun y => h.size ≤ y ∧ y ≠ r) (h := g) ?_ ?_ hshape ?_
        · intro y hy c hc
          refine ⟨hcl y hy.1 c hc, ?_⟩
          rintro rfl
          exact okg.kid y c (fun hd => by have := hDlt y hd; omega) hc p5
        · intro y hy
          obtain ⟨c1, c2, c3, c4, _⟩ := hs.data y
          have hg : (g.setChilds r (some [])).node y = g.node y := by rw [Heap.setChilds, upd_node, if_neg hy.2]
          have hyx : y ≠ x := by omega
          exact ⟨(hs.other y hyx).trans (kids_old hg), by rw [c1, hg], by rw [c2, hg], by rw [c3, hg], by rw [c4, hg]⟩
        · intro c hc
          have hm : c ∈ g.kids r := by rw [hkn]; exact (List.mem_filter.1 hc).1
          refine ⟨hnew c hc, ?_⟩
          rintro rfl
          exact okg.kid c c (fun hd => by have := hDlt c hd; omega) hm p5
      · intro _; rw [hlist]; exact hnew
      · rw [hct]; simp
      · rw [d4, hE x hx, hct]; rfl
      · rw [hs.parent, if_neg hxn]; unfold Heap.parent; rw [hE x hx]
      · rw [hs.indexOther x (by simpa using hxn)]; unfold Heap.index; rw [hE x hx]
      · rw [d1, hE x hx]
      · rw [d2, hE x hx]
      · rw [d3, hE x hx]
      · rw [d5, hE x hx]

theorem setHtmlAll_raw (P : ParseOk e) {s : List Char} {F : List Shape} {al : List Char → Shape → Bool} (pt : ParsesTo e s F al) :
    ∀ (X : List Nat) (h : Heap), HeapOk h D → (∀ x ∈ X, x < h.size ∧ (h.node x).kind = .tag) →
      ∃ h', setHtmlAll e s h X = .ok h' ∧ HeapOk h' D ∧ h.size ≤ h'.size ∧ (∀ y < h.size, y ∉ X → Untouched h h' y) ∧
        ∀ x ∈ X, HtmlSet e s F al h h' x
  | [], h, ok, _ => ⟨h, rfl, ok, Nat.le_refl _, fun y _ _ => .refl h y, by simp⟩
  | x :: X, h, ok, hX => by
    obtain ⟨hx, hk⟩ := hX x (by simp)
    obtain ⟨h1, r1, ok1, s1, f1, g1⟩ := setHtml_one ok P pt hx hk
    have hkind : ∀ y < h.size, (h1.node y).kind = (h.node y).kind := fun y hy =>
      if hyx : y = x then hyx ▸ g1.kind else (f1 y hy hyx).kind
    obtain ⟨h2, r2, ok2, s2, f2, g2⟩ := setHtmlAll_raw P pt X h1 ok1 fun y hy => by
      obtain ⟨a, b⟩ := hX y (by simp [hy])
      exact ⟨by omega, by rw [hkind y a, b]⟩
    refine ⟨h2, by simp only [setHtmlAll, r1, r2], ok2, by omega, fun y hy hyn => ?_, fun y hy => ?_⟩
    · simp only [List.mem_cons, not_or] at hyn
      exact (f1 y hy hyn.1).trans (f2 y (by omega) hyn.2)
    · have hyb := (hX y hy).1
      by_cases hm : y ∈ X
      · have t := g2 y hm
        by_cases hyx : y = x
        · subst hyx
          have hn := g1.name
          exact ⟨fun hc => hn ▸ t.list (by rw [hn, hc]), fun hc c hcc => Nat.le_trans s1 (t.new (by rw [hn, hc]) c hcc),
            fun hc => (t.keptKids (by rw [hn, hc])).trans (g1.keptKids hc),
            by rw [t.content, hn]; split <;> rename_i hc
               · rfl
               · rw [g1.content, if_neg hc],
            t.parent.trans g1.parent, t.index.trans g1.index, t.kind.trans g1.kind, t.name.trans g1.name, t.attrs.trans g1.attrs,
            t.root.trans g1.root⟩
        · have f := f1 y hyb hyx
          have hn := f.name
          exact ⟨fun hc => hn ▸ t.list (by rw [hn, hc]), fun hc c hcc => Nat.le_trans s1 (t.new (by rw [hn, hc]) c hcc),
            fun hc => (t.keptKids (by rw [hn, hc])).trans f.kids,
            by rw [t.content, hn, f.content],
            t.parent.trans f.parent, t.index.trans f.index, t.kind.trans f.kind, t.name.trans f.name, t.attrs.trans f.attrs,
            t.root.trans f.root⟩
      · obtain rfl : y = x := by simpa [hm] using hy
        have f := f2 y (by omega) hm
        have hXold : ∀ c, h.size ≤ c → c ∉ X := fun c hc hm => by have := (hX c (by simp [hm])).1; omega
        have hpar1 : ∀ z < h.size, ∀ p, h1.parent z = some p → p < h.size := fun z hz p hp =>
          (ok.bound z p (by rw [← hp]; exact if hzx : z = y then hzx ▸ g1.parent.symm else (f1 z hz hzx).parent.symm)).2
        have hcl := new_closed ok1 (fun y hy => (ok.dead y hy).2) hpar1
        have hkd : ∀ z, ∀ c ∈ h1.kids z, ¬ D z → c < h1.size := fun z c hc hz => (ok1.bound c z (ok1.kid_parent hz hc)).1
        refine ⟨fun hc => ?_, fun hc c hcc => ?_, fun hc => f.kids.trans (g1.keptKids hc), f.content.trans g1.content,
          f.parent.trans g1.parent, f.index.trans g1.index, f.kind.trans g1.kind, f.name.trans g1.name, f.attrs.trans g1.attrs,
          f.root.trans g1.root⟩
        · rw [f.kids]
          refine shapesOf_frame (Q := fun z => h.size ≤ z ∧ z < h1.size) ?_ ?_ (g1.list hc) ?_
          · intro z hz c hcz
            exact ⟨hcl z hz.1 c hcz, hkd z c hcz fun hd => by have := (ok.dead z hd).2; omega⟩
          · intro z hz
            have := f2 z hz.2 (hXold z hz.1)
            exact ⟨this.kids, this.kind, this.name, this.attrs, this.content⟩
          · intro c hcc
            exact ⟨g1.new hc c hcc, hkd y c hcc (tag_live ok hk)⟩
        · rw [f.kids] at hcc; exact g1.new hc c hcc

/-- C67: `set_html(s)` on a set of elements, nested and repeated ones included. Let the parser make nodes that look like `F` of
`s`. Afterwards the children of each member are new nodes that look like those of `F` that may stand in it; a content tag gets `s` as content
instead. Nothing else of the members has changed, no other node has changed, and the links are right (so no two members share a
child). -/
theorem C67_set_html (ok : HeapOk h D) (P : ParseOk e) {s : List Char} {F : List Shape} {al : List Char → Shape → Bool}
    (pt : ParsesTo e s F al) {X : List Nat} (hX : ∀ x ∈ X, x < h.size ∧ (h.node x).kind = .tag) :
    ∃ h', setHtmlAll e s h X = .ok h' ∧ (∀ x ∈ X, HtmlSet e s F al h h' x) ∧ (∀ y < h.size, y ∉ X → Untouched h h' y) ∧
      LinksRight h' D ∧ ∀ x ∈ X, ∀ y ∈ X, x ≠ y → ∀ c ∈ h'.kids x, c ∉ h'.kids y := by
  obtain ⟨h', h1, h2, h3, h4, h5⟩ := setHtmlAll_raw P pt X h ok hX
  have live : ∀ x ∈ X, ¬ D x := fun x hx => tag_live ok (hX x hx).2
  exact ⟨h', h1, h5, h4, h2.right, fun x hx y hy hxy c hc hc' => hxy (h2.kid_unique (live x hx) (live y hy) hc hc')⟩

end

/-! ### Example -/

theorem ext0_parsesTo {s : List Char} (hs : s ≠ []) : ParsesTo ext0 s [.mk .text [] {} (some s) []] (fun name _ => name != "br".toList) where
  total := fun h => by
    show ∃ r, parse0 h s = .ok r
    unfold parse0
    simp only []
    split <;> exact ⟨_, rfl⟩
  shapes := fun h h' r hp => by
    simp only [ext0, parse0] at hp
    rw [if_neg (by simpa using hs)] at hp
    cases hp
    have : ({ size := h.size + 2, node := fun y => if y = h.size then { kind := .root, childs := some [h.size + 1], root := some h.size }
      else if y = h.size + 1 then { kind := .text, content := some s, parent := some h.size, root := some h.size } else h.node y } : Heap).kids h.size
        = [h.size + 1] := by simp [Heap.kids]
    rw [this]
    refine .cons ?_ .nil
    have := ShapeOf.mk (h := { size := h.size + 2, node := fun y => if y = h.size then { kind := .root, childs := some [h.size + 1], root := some h.size }
      else if y = h.size + 1 then { kind := .text, content := some s, parent := some h.size, root := some h.size } else h.node y })
      (x := h.size + 1) (l := []) (by simp [Heap.kids]; exact .nil)
    simpa using this
  allow := fun _ _ _ _ _ _ _ _ _ => rfl

/-- `div(1)` and `div(5)` inside of it both get a text `x` of their own. -/
example : ∃ h', setHtmlAll ext0 ['x'] demo2 [1, 5] = .ok h' ∧ (∀ x ∈ [1, 5], ShapesOf h' (h'.kids x) [.mk .text [] {} (some ['x']) []]) ∧
    (∀ c ∈ h'.kids 1, c ∉ h'.kids 5) ∧ Untouched demo2 h' 8 := by
  obtain ⟨h', h1, h2, h3, h4, h5⟩ := C67_set_html demo2_ok ext0_parse (ext0_parsesTo (s := ['x']) (by simp)) (X := [1, 5]) (by decide)
  exact ⟨h', h1, fun x hx => by
    have := (h2 x hx).list (by revert x; decide)
    simp only [List.mem_cons, List.not_mem_nil, or_false] at hx
    rcases hx with rfl | rfl <;> exact this, h5 1 (by simp) 5 (by simp) (by simp), h3 8 (by decide) (by decide)⟩

end Visdom
