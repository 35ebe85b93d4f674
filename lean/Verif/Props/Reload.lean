import Verif.Proofs.Place
import Verif.Proofs.Graft
import Verif.Props.SetHtml
import Verif.Props.Markup
import Verif.Props.Mirror
import Verif.Props.Copies
/-!
# C86: html that is written back or loaded again

The parser and the writer are rphtml's; what they have to do with one another is a hypothesis about one text: it is parsed to nodes that look like those
it was written for (`ParsesTo`).
-/
namespace Visdom
open Spec

section
variable {h h' : Heap} {r r' : Nat} {f g : Nat → Nat} {D : Nat → Prop} {e : Ext} {rd : Render} {env env' : Env} {rt : Bool} {own own' : Nat → Bool}

theorem sameTree_top {F : List Shape} (hF : ShapesOf h (h.kids r) F) (hF' : ShapesOf h' (h'.kids r') F) (hk : (h'.node r').kind = (h.node r).kind)
    (hn : (h'.node r').name = (h.node r).name) (ha : (h'.node r').attrs = (h.node r).attrs) (hc : (h'.node r').content = (h.node r).content) :
    SameTree h h' r r' := by
  have h1 := ShapeOf.mk hF
  have h2 := ShapeOf.mk hF'
  rw [hk, hn, ha, hc] at h2
  exact sameTree_of_shape h1 h2

/-- **C86, loading**: a document is written and its html is loaded. The new document is a mirror image of the old one, node by node at the same
places; it is written as the same html, as a whole and in every part. -/
theorem C86_load (ok : HeapOk h D) (P : ParseOk e) (L : LoadsPlain e) (hr : AsLoaded h r) (hD : ¬ D r) (hb : r < h.size) {F : List Shape}
    {al : List Char → Shape → Bool} {s : List Char} (hF : ShapesOf h (h.kids r) F) (hs : innerHtml rd e h r = .ok s) (pt : ParsesTo e s F al) :
    ∃ h' r' f g, e.parse h s = .ok (h', r') ∧ TreeWF h' r' ∧ Mirror h r h' r' f g ∧ innerHtml rd e h' r' = .ok s ∧
      (∀ x, Within h r x → SamePlace h r h' r' x (f x) ∧ (h'.node (f x)).content = (h.node x).content ∧
        innerHtml rd e h' (f x) = innerHtml rd e h x ∧ outerHtml rd e h' (f x) = outerHtml rd e h x) ∧
      ∀ y, Within h r y → h'.node y = h.node y := by
  obtain ⟨⟨h', r'⟩, hp⟩ := pt.total h
  obtain ⟨p1, p2, p3, p4, p5, p6⟩ := P h s h' r' hp
  have l := L h s h' r' hp
  have ok' := p6 D ok
  have wf := ok.tree hr.kind hD hb
  have wf' : TreeWF h' r' := ok'.tree l.kind (fun hd => by have := (ok.dead _ hd).2; omega) p4
  have st : SameTree h h' r r' := sameTree_top hF (pt.shapes h h' r' hp) (l.kind.trans hr.kind.symm) (l.name.trans hr.name.symm)
    (l.attrs.trans hr.attrs.symm) (l.content.trans hr.content.symm)
  refine ⟨h', r', _, _, hp, wf', mirror_of_same wf wf' st, ?_, fun x hx => ?_, fun y hy => p2 y (wf.bound y hy)⟩
  · rw [(C72_same (heapOk_finite_of ok hb hD) p1 st).1, hs]
  · have hpl := placeOf_spec st hx
    have sx := hpl.same st
    obtain ⟨e1, e2⟩ := C72_same (rd := rd) (e := e) (heapOk_finite_of ok (wf.bound x hx) (within_live ok hD hx)) p1 sx
    exact ⟨hpl, (sx 1).2.2.2.1, e1, e2⟩

/-- **C86, questions to a loaded document**: every question with every text, asked of any nodes of the old document and of the nodes at the same places of
the new one, gets corresponding answers. -/
theorem C86_load_answers (L : LoadsPlain e) {s : List Char} (hr : AsLoaded h r) (wf : TreeWF h r) (hp : e.parse h s = .ok (h', r')) (wf' : TreeWF h' r')
    (m : Mirror h r h' r' f g) (hid : ∀ i, env'.byId r' i = (env.byId r i).map f) (hin : ∀ i y, env.byId r i = some y → Within h r y)
    (hdoc : env'.isDoc r' = env.isDoc r) (htx : ∀ x, Within h r x → env'.text (f x) = env.text x) (ho : ∀ x, Within h r x → own' (f x) = own x)
    {X : List Nat} (hX : ∀ x ∈ X, Within h r x) : Alike h h' env env' own own' f X := by
  have l := L h s h' r' hp
  have am : ∀ x, Among h (· = r) x ↔ Within h r x := fun x => ⟨by rintro ⟨_, rfl, hw⟩; exact hw, fun hw => ⟨r, rfl, hw⟩⟩
  have hrt : ∀ x q, Among h (· = r) x → (h.node x).root = some q → q = r := fun x q hx hq => by
    have := hr.roots x ((am x).1 hx); rw [hq] at this; exact Option.some.inj this
  have hin' : ∀ x, (Among h (· = r) x ∨ ∃ z, Among h (· = r) z ∧ (h.node z).root = some x) → Within h r x := by
    rintro x (hx | ⟨z, hz, hx⟩)
    · exact (am x).1 hx
    · rw [hrt z x hz hx]; exact .self
  have cp : Copies h h' (· = r) f env env' := {
    wf := fun _ hq => hq ▸ wf
    wf' := fun q hq => by rw [hq, m.root]; exact wf'
    kids := fun x hx => m.kids x ((am x).1 hx)
    data := fun x hx => m.data x ((am x).1 hx)
    top := fun q hq => by rw [hq, m.root, l.index, hr.index]
    root := fun x hx => by rw [hr.roots x ((am x).1 hx), l.roots _ (m.inside ((am x).1 hx)), Option.map_some, m.root]
    apart := fun x y hx hy he => m.inj (hin' x hx) (hin' y hy) he
    byId := fun x q i hx hq => by rw [hrt x q hx hq, m.root]; exact hid i
    found := fun x q i y hx hq hy => by rw [hrt x q hx hq] at hy; exact (am y).2 (hin i y hy)
    isDoc := fun q hq => by rw [hq, m.root]; exact hdoc
    text := fun x hx => htx x ((am x).1 hx) }
  exact C83_copies cp (fun x hx => ho x ((am x).1 hx)) fun x hx => (am x).2 (hX x hx)

/-- Corresponding answers of two trees to the common selectors. -/
structure MirrorAnswers (h : Heap) (r : Nat) (h' : Heap) (r' : Nat) (f : Nat → Nat) (env env' : Env) (rt : Bool) (own own' : Nat → Bool) : Prop where
  find : ∀ {cx : Complex}, Common rt cx → Steady cx → (∀ s ∈ cx, s.1 = Comb.childrenAll) → ∀ {text : List Char}, SelText [cx] text →
    ∀ {S : List Nat}, Nodes h r S → DocSorted h r S →
    ∃ res, findText h env own S text = .ok (res, 0) ∧ findText h' env' own' (S.map f) text = .ok (res.map f, 0)
  filter : ∀ {cx : Complex}, CommonTest rt false cx → ∀ {text : List Char}, SelText [cx] text → ∀ {X : List Nat}, Elems h r X → SibAsc h X →
    (∃ Y, filterText h env own X text = .ok (Y, 0) ∧ filterText h' env' own' (X.map f) text = .ok (Y.map f, 0)) ∧
    (∃ Y, notText h env own X text = .ok (Y, 0) ∧ notText h' env' own' (X.map f) text = .ok (Y.map f, 0)) ∧
    (∃ b, isText h env own X text = .ok (b, 0) ∧ isText h' env' own' (X.map f) text = .ok (b, 0)) ∧
    ∃ b, isAllText h env own X text = .ok (b, 0) ∧ isAllText h' env' own' (X.map f) text = .ok (b, 0)
  has : ∀ {sel : List Complex}, altsCommon rt true sel = true → ∀ {text : List Char}, SelText sel text → ∀ {X : List Nat}, (∀ x ∈ X, Within h r x) →
    ∃ Y, hasText h env own X text = .ok (Y, 0) ∧ hasText h' env' own' (X.map f) text = .ok (Y.map f, 0)
  closest : ∀ {sel : List Complex}, altsCommon rt true sel = true → (∀ cx ∈ sel, looked cx = false) → ∀ {text : List Char}, SelText sel text →
    ∀ {X : List Nat}, Elems h r X → DocSorted h r X →
    ∃ res, closestText h env own X text = .ok (res, 0) ∧ closestText h' env' own' (X.map f) text = .ok (res.map f, 0)

theorem mirror_answers (m : Mirror h r h' r' f g) (v : EnvMirror h r env r' env' f) (wf : TreeWF h r) (wf' : TreeWF h' r') (ev : Metas h r) (sm : Small h r)
    (gr : Grounded h r env rt) (gr' : Grounded h' r' env' rt) : MirrorAnswers h r h' r' f env env' rt own own' where
  find := fun hc hst hd _ ht _ hS hs => C82_find_partial m v wf wf' ev sm gr gr' own own' hc hst hd ht hS hs
  filter := fun hc _ ht _ hX hq => C82_filter_partial m v wf wf' ev sm gr gr' own own' hc ht hX hq
  has := fun hc _ ht _ hX => C82_has_partial m v wf wf' ev sm gr gr' own own' hc ht hX
  closest := fun hc hl _ ht _ hX hs => C82_closest_partial m v wf wf' ev sm gr gr' own own' hc hl ht hX hs

/-- Only the children of one node have been exchanged, for others that look the same. -/
theorem sameTree_within (ok : HeapOk h D) (hD : ¬ D r) {x : Nat} (hxD : ¬ D x) (hu : ∀ y, Within h r y → y ≠ x → Untouched h h' y) (hx : SameTree h h' x x) :
    ∀ y, Within h r y → ¬ Below h x y → SameTree h h' y y := by
  have key : ∀ (k y : Nat), Within h r y → ¬ Below h x y → SameTo h h' k y y := by
    intro k
    induction k with
    | zero => intro y _ _; trivial
    | succ k ih =>
      intro y hy hn
      by_cases hyx : y = x
      · subst hyx; exact hx (k + 1)
      have u := hu y hy hyx
      refine ⟨u.kind, u.name, u.attrs, u.content, by rw [u.kids], fun i a b ha hb => ?_⟩
      rw [u.kids, ha, Option.some.injEq] at hb
      subst hb
      have hay := List.mem_of_getElem? ha
      refine ih a (hy.step hay) fun ⟨c, hc, hw⟩ => hn ?_
      have hyD := within_live ok hD hy
      have hpar := ok.kid_parent hyD hay
      rcases within_step hw with rfl | ⟨p, hp, hap⟩
      · have := ok.kid_parent hxD hc
        rw [hpar] at this
        exact absurd (Option.some.inj this) hyx
      · have hpD := within_live ok (within_live ok hxD (Within.self.step hc)) hp
        have := ok.kid_parent hpD hap
        rw [hpar] at this
        rw [Option.some.inj this]
        exact ⟨c, hc, hp⟩
  exact fun y hy hn k => key k y hy hn

/-- **C86, writing back**: `x.set_html(x.html())`. The document becomes a mirror image of itself: everything that was not below `x` is the node it was, what
was below `x` has new nodes at the same places, and everything is written as the same html. -/
theorem C86_write_back_partial (ok : HeapOk h D) (P : ParseOk e) (hk : (h.node r).kind = .root) (hD : ¬ D r) (hb : r < h.size) {x : Nat} (hx : Within h r x)
    (hxk : (h.node x).kind = .tag) (hct : e.contentTag (h.node x).name = false) {F : List Shape} {al : List Char → Shape → Bool} {s : List Char}
    (hF : ShapesOf h (h.kids x) F) (hs : innerHtml rd e h x = .ok s) (pt : ParsesTo e s F al) (hal : ∀ S ∈ F, al (h.node x).name S = true) :
    ∃ h' f g, setHtmlAll e s h [x] = .ok h' ∧ TreeWF h' r ∧ Mirror h r h' r f g ∧ (∀ y, Within h r y → ¬ Below h x y → f y = y) ∧
      (∀ y, Below h x y → h.size ≤ f y) ∧
      (∀ y, Within h r y → SamePlace h r h' r y (f y) ∧ (h'.node (f y)).content = (h.node y).content ∧
        innerHtml rd e h' (f y) = innerHtml rd e h y ∧ outerHtml rd e h' (f y) = outerHtml rd e h y) ∧
      ∀ (env env' : Env) (rt : Bool) (own own' : Nat → Bool), EnvMirror h r env r env' f → Metas h r → Small h r → Grounded h r env rt →
        Grounded h' r env' rt → MirrorAnswers h r h' r f env env' rt own own' := by
  have wf := ok.tree hk hD hb
  have hxb := wf.bound x hx
  have hxD := tag_live ok hxk
  obtain ⟨h', run, ok', hsz, hu, hh⟩ := setHtmlAll_raw P pt [x] h ok (by simpa using ⟨hxb, hxk⟩)
  have hset := hh x (by simp)
  have hu' : ∀ y, Within h r y → y ≠ x → Untouched h h' y := fun y hy hne => hu y (wf.bound y hy) (by simpa using hne)
  have hl := hset.list hct
  rw [List.filter_eq_self.2 hal] at hl
  have sx : SameTree h h' x x := sameTree_top hF hl hset.kind hset.name hset.attrs (by rw [hset.content, hct]; rfl)
  have hrx : ¬ Below h x r := fun hbl => by
    have : (h.node x).kind = .root := by
      obtain ⟨c, hc, hw⟩ := hbl
      rcases within_step hw with rfl | ⟨p, hp, hrp⟩
      · exact absurd hk (ok.kid x _ hxD hc)
      · exact absurd hk (ok.kid p _ (within_live ok (within_live ok hxD (Within.self.step hc)) hp) hrp)
    rw [hxk] at this; cases this
  have st : SameTree h h' r r := sameTree_within ok hD hxD hu' sx r .self hrx
  have hrk : (h'.node r).kind = .root := by obtain ⟨s1, _⟩ := st 1; exact s1.trans hk
  have wf' : TreeWF h' r := ok'.tree hrk hD (by omega)
  have m := mirror_of_same wf wf' st
  have same : ∀ y, Within h r y → ¬ Below h x y → placeOf h r h' r y = y := by
    intro y hy
    induction hy with
    | self => intro _; exact m.root
    | @step p c hp hc ih =>
      intro hn
      have hpx : p ≠ x := fun he => hn ⟨c, he ▸ hc, .self⟩
      have hpn : ¬ Below h x p := fun ⟨d, hd, hw⟩ => hn ⟨d, hd, hw.step hc⟩
      have hkids := m.kids p hp
      rw [ih hpn, (hu' p hp hpx).kids] at hkids
      obtain ⟨i, hi⟩ := List.getElem?_of_mem hc
      have := congrArg (·[i]?) hkids
      simp only [List.getElem?_map, hi, Option.map_some, Option.some.injEq] at this
      exact this.symm
  refine ⟨h', _, _, run, wf', m, same, fun y hy => ?_, fun y hy => ?_, fun env env' rt own own' v ev sm gr gr' => mirror_answers m v wf wf' ev sm gr gr'⟩
  · obtain ⟨c, hc, hw⟩ := hy
    have hcw := hx.step hc
    have hxx := same x hx fun hbl => before_irrefl wf hx (.inl hbl)
    have hfc : h.size ≤ placeOf h r h' r c := by
      refine hset.new hct _ ?_
      have := m.kids x hx
      rw [hxx] at this
      rw [this]; exact List.mem_map_of_mem hc
    have ck := m.within hcw hw
    have hnew : ∀ z, h.size ≤ z → Within h' r z → ∀ w, Within h' z w → h.size ≤ w := fun z hz hzr w hzw => by
      induction hzw with
      | self => exact hz
      | @step p d hzp hd ih =>
        have hpr : Within h' r p := hzr.trans hzp
        by_contra hlt
        have hlt : d < h.size := by omega
        obtain ⟨i, hi⟩ := List.getElem?_of_mem hd
        have hpd := (wf'.link p i d hpr hi).1
        have : h'.parent d = h.parent d := by
          by_cases hdx : d = x
          · subst hdx; exact hset.parent
          · exact (hu d hlt (by simpa using hdx)).parent
        rw [this] at hpd
        have := (ok.bound d p hpd).2
        omega
    exact hnew _ hfc (m.inside hcw) _ ck
  · have hpl := placeOf_spec st hy
    have sy := hpl.same st
    obtain ⟨e1, e2⟩ := C72_same (rd := rd) (e := e) (heapOk_finite_of ok (wf.bound y hy) (within_live ok hD hy)) hsz sy
    exact ⟨hpl, (sy 1).2.2.2.1, e1, e2⟩

/-- **C86, html of another element**: `x.set_html(y.html())`. `x` gets children that look like those of `y`, and its html is the html that `y` had. -/
theorem C86_from_other_partial (ok : HeapOk h D) (P : ParseOk e) {x y : Nat} (hxb : x < h.size) (hxk : (h.node x).kind = .tag)
    (hct : e.contentTag (h.node x).name = false) (hyb : y < h.size) (hyD : ¬ D y)
    (hyk : (h.node y).kind = .root ∨ (h.node y).kind = .tag ∧ e.contentTag (h.node y).name = false) {F : List Shape} {al : List Char → Shape → Bool}
    {s : List Char} (hF : ShapesOf h (h.kids y) F) (hs : innerHtml rd e h y = .ok s) (pt : ParsesTo e s F al) (hal : ∀ S ∈ F, al (h.node x).name S = true) :
    ∃ h', setHtmlAll e s h [x] = .ok h' ∧ ShapesOf h' (h'.kids x) F ∧ innerHtml rd e h' x = .ok s ∧ (∀ c ∈ h'.kids x, h.size ≤ c) ∧
      (∀ z < h.size, z ≠ x → Untouched h h' z) ∧ LinksRight h' D := by
  have hxD := tag_live ok hxk
  obtain ⟨h', run, ok', hsz, hu, hh⟩ := setHtmlAll_raw P pt [x] h ok (by simpa using ⟨hxb, hxk⟩)
  have hset := hh x (by simp)
  have hl := hset.list hct
  rw [List.filter_eq_self.2 hal] at hl
  refine ⟨h', run, hl, ?_, hset.new hct, fun z hz hne => hu z hz (by simpa using hne), ok'.right⟩
  have hfy := heapOk_finite_of ok hyb hyD
  have hfx : FiniteTree h' x := heapOk_finite_of ok' (by omega) hxD
  have hy : HtmlsOf rd e h false (h.kids y) s := by
    have := (innerHtml_iff hfy (hyk.imp id And.left) s).1 hs
    cases this with
    | root _ h2 => exact h2
    | elem h1 h2 =>
      rcases hyk with hyk | ⟨_, hyc⟩
      · rw [hyk] at h1; cases h1
      · rw [hyc] at h2
        unfold bodyOf
        rw [hyc]
        exact h2
  refine (innerHtml_iff hfx (.inr (hset.kind.trans hxk)) s).2 ?_
  obtain ⟨l1, l2⟩ := shapesOf_get hF hl
  have hx' : HtmlsOf rd e h' false (h'.kids x) s := htmlsOf_same hy _ l1 fun i a b ha hb => by
    obtain ⟨S, s1, s2⟩ := l2 i a b ha hb
    exact sameTree_of_shape s1 s2
  have hct' : e.contentTag (h'.node x).name = false := by rw [hset.name]; exact hct
  have h1 : InnerOf rd e h' x (bodyOf rd e h' x ++ s) := .elem (hset.kind.trans hxk) (by rw [hct']; exact hx')
  have h2 : bodyOf rd e h' x = [] := by unfold bodyOf; rw [hct']; rfl
  rw [h2] at h1
  exact h1

/-- **C86, content tags**: the html of a `script`, `style`, `textarea` or `title` is its text, if the writer writes it as it is; writing it back changes nothing at all. -/
theorem C86_content {x : Nat} (hxk : (h.node x).kind = .tag) (hct : e.contentTag (h.node x).name = true) (hkids : h.kids x = []) {c : List Char}
    (hc : (h.node x).content = some c) (hbody : rd.body (h.node x).name (some c) = c) :
    innerHtml rd e h x = .ok c ∧ ∃ h', setHtmlAll e c h [x] = .ok h' ∧ h'.size = h.size ∧ ∀ y, h'.node y = h.node y := by
  refine ⟨?_, ?_⟩
  · unfold innerHtml
    simp only [hxk, hct, hkids, hc, hbody]
    simp [flatMapR]
  · have htg : h.htmlTarget x = some x := by unfold Heap.htmlTarget; rw [hxk]
    have he : h.isElem x = true := by unfold Heap.isElem; rw [hxk]; rfl
    refine ⟨h.upd x fun n => { n with content := some c }, ?_, rfl, fun y => ?_⟩
    · simp only [setHtmlAll, Heap.setHtml, htg, he, hct]
      rfl
    · unfold Heap.upd
      by_cases hy : y = x
      · subst hy
        simp only [if_pos]
        rw [← hc]
      · simp only [if_neg hy]

end

/-! ### Examples -/

/-- `root[div(1)[b(2)[text x(3)], i(4)]]`. -/
def boldHeap : Heap := heapOf [rootN [1], el "div" 0 0 [2, 4], el "b" 1 0 [3], { kind := .text, content := some "x".toList, parent := some 2, root := some 0 }, el "i" 1 1]

/-- What the parser makes of `<b>x</b><i></i>`. -/
def boldPart : Heap := heapOf [rootN [1, 3], el "b" 0 0 [2], { kind := .text, content := some "x".toList, parent := some 1, root := some 0 }, el "i" 0 1]

/-- A parser that knows these two texts. -/
def boldTable (s : List Char) : Heap := if s = "<b>x</b><i></i>".toList then boldPart else boldHeap

theorem boldHeap_ok : HeapOk boldHeap noneUsed := okCheck_sound (by decide)
theorem boldPart_ok : HeapOk boldPart noneUsed := okCheck_sound (by decide)

example : innerHtml rd0 (extOf boldTable) boldHeap 0 = .ok "<div><b>x</b><i></i></div>".toList ∧
  innerHtml rd0 (extOf boldTable) boldHeap 1 = .ok "<b>x</b><i></i>".toList := by decide

theorem boldHeap_shape : ∃ F, ShapesOf boldHeap (boldHeap.kids 0) F := by
  obtain ⟨S, hS⟩ := shapeOf_finite (heapOk_finite boldHeap_ok (x := 0) (by decide))
  cases hS with | mk hl => exact ⟨_, hl⟩

theorem boldHeap_loaded : AsLoaded boldHeap 0 where
  kind := by decide
  name := by decide
  attrs := rfl
  content := by decide
  index := by decide
  roots := fun x hx => by
    have hb : x < 5 := (boldHeap_ok.tree (r := 0) (by decide) id (by decide)).bound x hx
    have : ∀ x < 5, (boldHeap.node x).root = some 0 := by decide
    exact this x hb

theorem boldPart_loaded : AsLoaded boldPart 0 where
  kind := by decide
  name := by decide
  attrs := rfl
  content := by decide
  index := by decide
  roots := fun x hx => by
    have hb : x < 4 := (boldPart_ok.tree (r := 0) (by decide) id (by decide)).bound x hx
    have : ∀ x < 4, (boldPart.node x).root = some 0 := by decide
    exact this x hb

theorem boldParser : ParseOk (extOf boldTable) := extOf_parse fun s => by
  unfold boldTable
  split
  · exact ⟨boldPart_ok, by decide, by decide⟩
  · exact ⟨boldHeap_ok, by decide, by decide⟩

theorem boldPlain : LoadsPlain (extOf boldTable) := extOf_plain fun s => by
  unfold boldTable
  split
  · exact boldPart_loaded
  · exact boldHeap_loaded

/-- The document is loaded again from its html, and the question `div > b` gets the corresponding answer. -/
example : ∃ h' r' f, (extOf boldTable).parse boldHeap "<div><b>x</b><i></i></div>".toList = .ok (h', r') ∧
    innerHtml rd0 (extOf boldTable) h' r' = .ok "<div><b>x</b><i></i></div>".toList ∧
    findText h' env0 (fun _ => true) [r'] "div > b".toList = copyNodes f (findText boldHeap env0 (fun _ => true) [0] "div > b".toList) := by
  obtain ⟨F, hF⟩ := boldHeap_shape
  obtain ⟨h', r', f, g, h1, h2, h3, h4, _⟩ := C86_load (rd := rd0) boldHeap_ok boldParser boldPlain boldHeap_loaded id (by decide) hF
    (s := "<div><b>x</b><i></i></div>".toList) (by decide) (extOf_parses hF)
  refine ⟨h', r', f, h1, h4, ?_⟩
  have := (C86_load_answers (env := env0) (env' := env0) (own := fun _ => true) (own' := fun _ => true) boldPlain boldHeap_loaded
    (boldHeap_ok.tree (by decide) id (by decide)) h1 h2 h3 (fun _ => rfl) (by intro i y hy; cases hy) rfl (fun _ _ => rfl) (fun _ _ => rfl)
    (X := [0]) (by simp only [List.mem_singleton, forall_eq]; exact .self)).find "div > b".toList
  simpa only [List.map_cons, List.map_nil, h3.root] using this

/-- The children of `div(1)`. -/
def boldKids : List Shape := [.mk .tag "b".toList {} none [.mk .text [] {} (some "x".toList) []], .mk .tag "i".toList {} none []]

theorem boldKids_old : ShapesOf boldHeap (boldHeap.kids 1) boldKids :=
  .cons (.mk (.cons (.mk .nil) .nil)) (.cons (.mk .nil) .nil)
theorem boldKids_new : ShapesOf boldPart (boldPart.kids 0) boldKids :=
  .cons (.mk (.cons (.mk .nil) .nil)) (.cons (.mk .nil) .nil)

/-- `div.set_html(div.html())`. -/
example : ∃ (h' : Heap) (f : Nat → Nat), setHtmlAll (extOf boldTable) "<b>x</b><i></i>".toList boldHeap [1] = .ok h' ∧ f 1 = 1 ∧ boldHeap.size ≤ f 2 ∧
    innerHtml rd0 (extOf boldTable) h' 0 = .ok "<div><b>x</b><i></i></div>".toList := by
  have w1 : Within boldHeap 0 1 := .step .self (by decide)
  obtain ⟨h', f, g, h1, _, m, h3, h4, h5, _⟩ := C86_write_back_partial (rd := rd0) boldHeap_ok boldParser (r := 0) (by decide) id (by decide) w1 (by decide)
    (by decide) boldKids_old (s := "<b>x</b><i></i>".toList) (by decide) (extOf_parses (table := boldTable) boldKids_new) (fun _ _ => rfl)
  refine ⟨h', f, h1, h3 1 w1 (before_irrefl (boldHeap_ok.tree (r := 0) (by decide) id (by decide)) w1 ∘ .inl), h4 2 ⟨2, by decide, .self⟩, ?_⟩
  have := (h5 0 .self).2.2.1
  rw [m.root] at this
  rw [this]; decide

/-- `i.set_html(div.html())`. -/
example : ∃ h', setHtmlAll (extOf boldTable) "<b>x</b><i></i>".toList boldHeap [4] = .ok h' ∧
    innerHtml rd0 (extOf boldTable) h' 4 = .ok "<b>x</b><i></i>".toList ∧ Untouched boldHeap h' 1 := by
  obtain ⟨h', h1, _, h2, _, h3, _⟩ := C86_from_other_partial (rd := rd0) boldHeap_ok boldParser (x := 4) (y := 1) (by decide) (by decide) (by decide) (by decide) id
    (.inr (by decide)) boldKids_old (s := "<b>x</b><i></i>".toList) (by decide) (extOf_parses (table := boldTable) boldKids_new) (fun _ _ => rfl)
  exact ⟨h', h1, h2, h3 1 (by decide) (by decide)⟩

/-- A `textarea` with a text. -/
def areaDoc : Heap := heapOf [rootN [1], { el "textarea" 0 0 with content := some "a<b".toList }]

example : innerHtml rd0 ext0 areaDoc 1 = .ok "a<b".toList ∧ ∃ h', setHtmlAll ext0 "a<b".toList areaDoc [1] = .ok h' ∧ h'.size = 2 ∧ ∀ y, h'.node y = areaDoc.node y :=
  C86_content (rd := rd0) (by decide) (by decide) (by decide) (by decide) (by decide)

/-- C86 does not hold in full: a parent that does not allow its own children loses them (a `br` with a
text). -/
theorem C86_fails_forbidden : innerHtml rd0 ext0 (heapOf [rootN [1], el "br" 0 0 [2], txt "a" 1 0]) 1 = .ok "a".toList ∧
    ∃ h', setHtmlAll ext0 "a".toList (heapOf [rootN [1], el "br" 0 0 [2], txt "a" 1 0]) [1] = .ok h' ∧ innerHtml rd0 ext0 h' 1 = .ok [] :=
  ⟨by decide, _, rfl, by decide⟩

/-- C86 does not hold in full: after `div.set_html(div.html())` the new `b` is where the old one was, and `filter("div b")` no longer keeps it: the new nodes
know the root of the parsed text, which is empty. -/
theorem C86_fails_root : filterText boldHeap env0 (fun _ => false) [2] "div b".toList = .ok ([2], 0) ∧
    ∃ h', setHtmlAll (extOf boldTable) "<b>x</b><i></i>".toList boldHeap [1] = .ok h' ∧ SamePlace boldHeap 0 h' 0 2 6 ∧
      filterText h' env0 (fun _ => false) [6] "div b".toList = .ok ([], 0) := by
  refine ⟨by decide, _, rfl, .kid (.kid .top (i := 0) (a := 1) (b := 1) ?_ ?_) (i := 0) ?_ ?_, ?_⟩ <;> decide

end Visdom
