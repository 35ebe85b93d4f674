import Verif.Props.Common
import Verif.Props.Walks
import Verif.Props.Parser
/-!
# C26, C27, C29, C45, C54 for common selectors

Navigation, `closest` and the until methods with conditions that can be read off the selector; and the whole way from the text of a
selector to the elements.
-/
namespace Visdom
open Spec Classical
variable {h : Heap} {r : Nat} {env : Env} {rt : Bool}

/-- A compound of common simple selectors. -/
def CommonCmpd (rt d : Bool) (ss : List Sim) : Prop := ss ≠ [] ∧ ∀ t ∈ ss, t.common rt d = true

theorem common_cmpd_list {tot d : Bool} (sm : Small h r) (gr : Grounded h r env rt) {ss : List Sim} (hc : CommonCmpd rt d ss) {q : ListQ}
    (hq : q ≠ .any) (hd : d = true → q = .doc) : CmpdOk h r env tot q .list ss :=
  ⟨hc.1, fun s hs => ⟨fun _ => common_list sm gr s (hc.2 s hs) q hq hd, Or.inr (common_list sm gr s (hc.2 s hs) q hq hd)⟩⟩

section Nav
variable (wf : TreeWF h r) (ev : Metas h r) (sm : Small h r) (gr : Grounded h r env rt)
include wf ev sm gr

/-- C26 for common compounds, `children`: without ids, and positions stand beside a type or a class. -/
theorem C26_children_common {ss : List Sim} (hc : CommonCmpd rt false ss) (hid : ∀ t ∈ ss, t.isId = false)
    (hst : Steady [(.children, ss)]) {X : List Nat} (hX : Nodes h r X) (hs : DocSorted h r X) :
    ∃ l, childrenQ h env X none = .ok l ∧ (∀ e, e ∈ l ↔ h.isElem e = true ∧ ∃ y ∈ X, e ∈ h.kids y) ∧
      childrenQ h env X (some (cmpdSel ss)) = .ok (l.filter fun x => decide (cmpdSat h r env ss x)) :=
  C26_children_partial wf ev hX (Or.inr ⟨rfl, hs⟩)
    (common_cmpdOk sm gr hc.1 hc.2 .child (Or.inl (by simp)) (by simp) (fun _ => hid) fun _ => hst (.children, ss) (by simp))

/-- C26 for common compounds: `next`, `prev` and `parent` of a set in document order. -/
theorem C26_next_common {ss : List Sim} (hc : CommonCmpd rt false ss) {X : List Nat} (hX : Nodes h r X) (hs : DocSorted h r X) :
    (∃ l, nextQ h env X none = .ok l ∧ (∀ e, e ∈ l ↔ h.isElem e = true ∧ ∃ y ∈ X, NextSib h r y e) ∧
      nextQ h env X (some (cmpdSel ss)) = .ok (l.filter fun x => decide (cmpdSat h r env ss x))) ∧
    (∃ l, prevQ h env X none = .ok l ∧ (∀ e, e ∈ l ↔ h.isElem e = true ∧ ∃ y ∈ X, NextSib h r e y) ∧
      prevQ h env X (some (cmpdSel ss)) = .ok (l.filter fun x => decide (cmpdSat h r env ss x))) ∧
    ∃ l, parentQ h env X none = .ok l ∧ l.Nodup ∧ (∀ e, e ∈ l ↔ h.isElem e = true ∧ ∃ y ∈ X, y ∈ h.kids e ∧ Within h r e) ∧
      parentQ h env X (some (cmpdSel ss)) = .ok (l.filter fun x => decide (cmpdSat h r env ss x)) := by
  have hok : CmpdOk h r env true .sib .list ss := common_cmpd_list sm gr hc (by simp) (by simp)
  exact ⟨C26_next_partial wf ev hX (Or.inr ⟨rfl, hs⟩) hok, C26_prev_partial wf ev hX (Or.inr ⟨rfl, hs⟩) hok,
    C26_parent_partial wf ev hX (Or.inr ⟨rfl, hs⟩) hok⟩

/-- C26 for common compounds: `next_all` and `prev_all` of a set in which siblings come in order. -/
theorem C26_next_all_common {ss : List Sim} (hc : CommonCmpd rt false ss) {X : List Nat} (hX : Nodes h r X) (hs : SibAsc h X) :
    (∃ l, nextAllQ h env X none = .ok l ∧ l.Nodup ∧ (∀ e, e ∈ l ↔ h.isElem e = true ∧ ∃ y ∈ X, LaterSib h r y e) ∧
      nextAllQ h env X (some (cmpdSel ss)) = .ok (l.filter fun x => decide (cmpdSat h r env ss x))) ∧
    ∃ l, prevAllQ h env X none = .ok l ∧ l.Nodup ∧ (∀ e, e ∈ l ↔ h.isElem e = true ∧ ∃ y ∈ X, LaterSib h r e y) ∧
      prevAllQ h env X (some (cmpdSel ss)) = .ok (l.filter fun x => decide (cmpdSat h r env ss x)) := by
  have hok : CmpdOk h r env true .sib .list ss := common_cmpd_list sm gr hc (by simp) (by simp)
  exact ⟨C26_next_all_partial wf ev hX hs hok, C26_prev_all_partial wf ev hX hs hok⟩

/-- C26 for common compounds, aliases and lists of types included: `parents` of any set. -/
theorem C26_parents_common {ss : List Sim} (hc : CommonCmpd rt true ss) {X : List Nat} (hX : Nodes h r X) :
    ∃ l, parentsQ h env X none = .ok l ∧ DocSorted h r l ∧
      (∀ e, e ∈ l ↔ h.isElem e = true ∧ Within h r e ∧ ∃ y ∈ X, Below h e y) ∧
      parentsQ h env X (some (cmpdSel ss)) = .ok (l.filter fun x => decide (cmpdSat h r env ss x)) :=
  C26_parents_partial wf ev hX (common_cmpd_list sm gr hc (by simp) fun _ => rfl)

/-- C26 for common compounds, aliases and lists of types included: `siblings` of a set without repetition. -/
theorem C26_siblings_common {ss : List Sim} (hc : CommonCmpd rt true ss) (hid : ∀ t ∈ ss, t.isId = false)
    (hst : Steady [(.children, ss)]) {X : List Nat} (hX : Nodes h r X) (hn : X.Nodup) :
    ∃ l, siblingsQ h env X none = .ok l ∧ DocSorted h r l ∧ (∀ e, e ∈ l ↔ h.isElem e = true ∧ ∃ y ∈ X, Sib h r y e) ∧
      siblingsQ h env X (some (cmpdSel ss)) = .ok (l.filter fun x => decide (cmpdSat h r env ss x)) :=
  C26_siblings_partial wf ev hX hn
    (common_cmpdOk sm gr hc.1 hc.2 .child (Or.inl (by simp)) (fun _ => Or.inl rfl) (fun _ => hid) fun _ => hst (.children, ss) (by simp))
    (common_cmpd_list sm gr hc (by simp) fun _ => rfl)

omit wf ev in
/-- Lists of common selectors are tested on a single element as documented. -/
theorem common_testOk {sel : List Complex} (hc : altsCommon rt true sel = true) (hl : ∀ cx ∈ sel, looked cx = false) :
    TestOk h r env sel := ⟨common_alts sm gr sel hc .doc (by simp) fun _ => rfl, hl⟩

/-- C27 for lists of common selectors that the parser does not rearrange. -/
theorem C27_closest_common {sel : List Complex} (hc : altsCommon rt true sel = true) (hl : ∀ cx ∈ sel, looked cx = false)
    {X : List Nat} (hX : Elems h r X) :
    ∃ res, closestQ h env X (some sel) = .ok res ∧ (∀ e, e ∈ res ↔ ∃ x ∈ X, Nearest h r (anySat h r env sel) x e) ∧
      (X.Nodup → res.Nodup) ∧ (DocSorted h r X → DocSorted h r res) ∧
      ((∃ x ∈ X, ¬ anySat h r env sel x) → DocSorted h r res ∧ res.Nodup) :=
  C27_closest_partial wf ev (common_testOk sm gr hc hl) hX

/-- C45 for lists of common selectors that the parser does not rearrange, from one element. -/
theorem C45_until_common {u f : List Complex} (hu : altsCommon rt true u = true) (hlu : ∀ cx ∈ u, looked cx = false)
    (hf : altsCommon rt true f = true) (hlf : ∀ cx ∈ f, looked cx = false) (b : Bool) {x : Nat} (hx : Within h r x)
    (he : h.isElem x = true) :
    (∃ l, Walk h r .next x l ∧ nextUntilQ h env [x] u (some f) b = .ok (untilOf h r env u (some f) b l)) ∧
    (∃ l, Walk h r .prev x l ∧ prevUntilQ h env [x] u (some f) b = .ok (untilOf h r env u (some f) b l).reverse) ∧
    ∃ res, parentsUntilQ h env [x] u (some f) b = .ok res ∧ DocSorted h r res ∧
      ∀ e, e ∈ res ↔ ∃ l, Walk h r .parent x l ∧ e ∈ untilOf h r env u (some f) b l := by
  have hu' := common_testOk sm gr hu hlu
  have hf' : ∀ s, some f = some s → TestOk h r env s := by rintro s ⟨⟩; exact common_testOk sm gr hf hlf
  refine ⟨C45_next_until_partial wf ev hu' hf' b hx, C45_prev_until_partial wf ev hu' hf' b hx he, ?_⟩
  obtain ⟨res, h1, h2, h3⟩ := C45_parents_until_partial wf ev hu' hf' b (X := [x]) (by simpa using hx)
  exact ⟨res, h1, h2, fun e => by rw [h3]; simp⟩

end Nav

/-! ## From the text of a selector to the elements -/

section Text
variable (wf : TreeWF h r) (ev : Metas h r) (sm : Small h r) (gr : Grounded h r env rt) (own : Nat → Bool)
include wf ev sm gr

/-- C29: any text of a common selector with descendant combinators only, given to `find` on a set in document order, answers without a
report, with exactly the selected elements in document order, each once. -/
theorem C29_find_text_common {cx : Complex} (hc : Common rt cx) (hst : Steady cx) (hd : ∀ s ∈ cx, s.1 = Comb.childrenAll)
    {text : List Char} (ht : SelText [cx] text) {S : List Nat} (hS : Nodes h r S) (hs : DocSorted h r S) :
    ∃ res, findText h env own S text = .ok (res, 0) ∧ DocSorted h r res ∧ res.Nodup ∧
      ∀ e, e ∈ res ↔ Sel h r (· ∈ S) (steps h r env cx) e := by
  obtain ⟨res, h1, h2, h3, h4⟩ := C18_find_common wf ev sm gr hc hst hd hS hs
  exact ⟨res, by rw [C29_find_text_partial h env own ht, h1]; rfl, h2, h3, h4⟩

/-- C29: the same for any combinators, from the root of the document, without the order. -/
theorem C29_find_root_common {cx : Complex} (hc : Common rt cx) (hst : Steady cx) (hcalm : calm .anti cx = true)
    {text : List Char} (ht : SelText [cx] text) :
    ∃ res, findText h env own [r] text = .ok (res, 0) ∧ ∀ e, e ∈ res ↔ Sel h r (· = r) (steps h r env cx) e := by
  obtain ⟨res, h1, h2⟩ := C19_find_common_root wf ev sm gr hc hst hcalm
  exact ⟨res, by rw [C29_find_text_partial h env own ht, h1]; rfl, h2⟩

/-- C29: any text of a list of common selectors of different types, given to `find`. -/
theorem C29_find_list_common {sel : List Complex} (hc : ∀ cx ∈ sel, Common rt cx ∧ Steady cx ∧ ∀ s ∈ cx, s.1 = Comb.childrenAll)
    (hty : typesApart sel = true) {text : List Char} (ht : SelText sel text) {S : List Nat} (hS : Nodes h r S) (hs : DocSorted h r S) :
    ∃ res, findText h env own S text = .ok (res, 0) ∧ DocSorted h r res ∧ res.Nodup ∧
      ∀ e, e ∈ res ↔ ∃ cx ∈ sel, Sel h r (· ∈ S) (steps h r env cx) e := by
  obtain ⟨res, h1, h2, h3, h4⟩ := C20_find_list_common wf ev sm gr hc hty hS hs
  exact ⟨res, by rw [C29_find_text_partial h env own ht, h1]; rfl, h2, h3, h4⟩

/-- C29: any text of a list of common selectors (of different types if there are several), given to `filter` and `not` on a set in
document order. -/
theorem C29_filter_text_common {sel : List Complex} (hc : CommonList rt sel) {text : List Char} (ht : SelText sel text) {X : List Nat}
    (hX : Elems h r X) (hs : DocSorted h r X) :
    filterText h env own X text = .ok (X.filter fun x => decide (∃ cx ∈ sel, Sel h r (· = r) (steps h r env cx) x), 0) ∧
    notText h env own X text = .ok (X.filter fun x => decide (∀ cx ∈ sel, ¬ Sel h r (· = r) (steps h r env cx) x), 0) := by
  have hq : ListQ.lists h r .doc X := ⟨hs, docSorted_sibAsc wf (fun x hx => (hX x hx).1) hs⟩
  have hu : UnionOn h r env .doc X sel := by
    rcases hc.1 with h1 | h1
    · exact Or.inl h1
    · exact apart_unionOk (typesApart_apart h1) X hX
  have hok : innersOk h r env true .doc sel := common_alts sm gr sel hc.2 .doc (by simp) fun _ => rfl
  obtain ⟨h1, h2, _⟩ := C29_filter_text_partial h env own ht X
  rw [h1, h2, C22_filter_exact_partial wf ev hok hu hX hq, C23_not_exact_partial wf ev hok hu hX hq]
  refine ⟨?_, ?_⟩ <;> simp only [Except.map, Except.ok.injEq, Prod.mk.injEq, and_true] <;>
    refine List.filter_congr fun x _ => ?_
  · simp only [decide_eq_decide]; exact anySat_iff
  · simp only [anySat_iff, not_exists, not_and, decide_not]

/-- C29: any text of a list of common selectors, given to `has` on any set of nodes. -/
theorem C29_has_text_common {sel : List Complex} (hc : altsCommon rt true sel = true) {text : List Char} (ht : SelText sel text)
    {X : List Nat} (hX : ∀ x ∈ X, Within h r x) :
    ∃ F, hasText h env own X text = .ok (F, 0) ∧ F.Sublist X ∧
      ∀ x, x ∈ F ↔ x ∈ X ∧ ∃ e, Below h x e ∧ h.isElem e = true ∧ ∃ cx ∈ sel, Sel h r (· = r) (steps h r env cx) e := by
  obtain ⟨F, h1, h2, h3⟩ := C24_has_common wf ev sm gr hc hX
  refine ⟨F, by rw [(C29_filter_text_partial h env own ht X).2.2.2.2, h1]; rfl, h2, fun x => ?_⟩
  rw [h3]
  simp only [anySat_iff]

/-- C29: any text of a list of common selectors that the parser does not rearrange, given to `closest`. -/
theorem C29_closest_text_common {sel : List Complex} (hc : altsCommon rt true sel = true) (hl : ∀ cx ∈ sel, looked cx = false)
    {text : List Char} (ht : SelText sel text) {X : List Nat} (hX : Elems h r X) :
    ∃ res, closestText h env own X text = .ok (res, 0) ∧
      ∀ e, e ∈ res ↔ ∃ x ∈ X, Nearest h r (fun y => ∃ cx ∈ sel, Sel h r (· = r) (steps h r env cx) y) x e := by
  obtain ⟨res, h1, h2, _⟩ := C27_closest_common wf ev sm gr hc hl hX
  refine ⟨res, by rw [(C29_closest_text_partial h env own ht X).1, h1]; rfl, fun e => ?_⟩
  rw [h2]
  have : (anySat h r env sel) = fun y => ∃ cx ∈ sel, Sel h r (· = r) (steps h r env cx) y := funext fun y => propext anySat_iff
  rw [this]

end Text

/-- C54 with texts: after any history of usable calls, any text of a common selector (or of a list of those of different types) given to
`find` answers without a report, with exactly the elements that match now, in document order; `filter` and `not` split any set that is in
document order now. -/
theorem C54_text_after {e : Ext} (P : ParseOk e) (T : ParseTables e) {h : Heap} {D : Nat → Prop} (ok : HeapOk h D) (t : Tables h)
    {ops : List Op} (hh : History e h D ops) {r : Nat} (hk : (h.node r).kind = .root) (hb : r < h.size) (hu : ¬ UsedAll e h D ops r) :
    ∃ h', runAll e h ops = .ok h' ∧ ((h'.size : Int) < 9223372036854775808 → ∀ (env : Env) (own : Nat → Bool) (sel : List Complex)
      (text : List Char), SelText sel text →
      ((∀ cx ∈ sel, Common false cx ∧ Steady cx ∧ ∀ s ∈ cx, s.1 = Comb.childrenAll) → typesApart sel = true ∨ sel.length = 1 →
        ∀ S, Nodes h' r S → DocSorted h' r S → ∃ res, findText h' env own S text = .ok (res, 0) ∧ DocSorted h' r res ∧ res.Nodup ∧
          ∀ x, x ∈ res ↔ ∃ cx ∈ sel, Sel h' r (· ∈ S) (steps h' r env cx) x) ∧
      (CommonList false sel → ∀ X, Elems h' r X → DocSorted h' r X →
        filterText h' env own X text = .ok (X.filter fun x => decide (∃ cx ∈ sel, Sel h' r (· = r) (steps h' r env cx) x), 0) ∧
        notText h' env own X text = .ok (X.filter fun x => decide (∀ cx ∈ sel, ¬ Sel h' r (· = r) (steps h' r env cx) x), 0))) := by
  obtain ⟨h', hr, wf, ev⟩ := history_ready P T ok t hh hk hb hu
  refine ⟨h', hr, fun hs env own sel text ht => ⟨fun hc hty S hS hso => ?_, fun hc X hX hso => ?_⟩⟩
  · have sm := small_of_size wf hs
    have gr : Grounded h' r env false := by simp [Grounded]
    rcases hty with hty | hl
    · exact C29_find_list_common wf ev sm gr own hc hty ht hS hso
    · obtain ⟨cx, rfl⟩ := List.length_eq_one_iff.1 hl
      obtain ⟨h1, h2, h3⟩ := hc cx (by simp)
      obtain ⟨res, k1, k2, k3, k4⟩ := C29_find_text_common wf ev sm gr own h1 h2 h3 ht hS hso
      exact ⟨res, k1, k2, k3, fun x => by rw [k4]; simp⟩
  · exact C29_filter_text_common wf ev (small_of_size wf hs) (by simp [Grounded]) own hc ht hX hso

/-! ## Instances -/

example : CommonCmpd false false [ty "p", .nth false false 2 1] ∧ Steady [(.children, [ty "p", .nth false false 2 1])] ∧
    childrenQ demo env0 [1, 5] (some (cmpdSel [ty "p", .nth false false 2 1])) = .ok [2, 6] ∧
    nextQ demo env0 [2, 6] (some (cmpdSel [.edge true false])) = .ok [5, 7] ∧
    prevAllQ demo env0 [5, 7] (some (cmpdSel [.not [[(.childrenAll, [ty "div"])]]])) = .ok [2, 6] ∧
    parentsQ demo env0 [7, 9] (some (cmpdSel [.not [[(.childrenAll, [ty "ul"])], [(.childrenAll, [ty "b"])]]])) = .ok [1, 5] ∧
    CommonCmpd false true [.not [[(.childrenAll, [ty "ul"])], [(.childrenAll, [ty "b"])]]] ∧
    siblingsQ demo env0 [2, 7] (some (cmpdSel [ty "p", .edge false false])) = .ok [6] := by
  refine ⟨⟨by decide, by decide⟩, ?_, by decide, by decide, by decide, by decide, ⟨by decide, by decide⟩, by decide⟩
  intro s hs
  rw [List.mem_singleton] at hs
  subst hs
  exact Or.inl ⟨ty "p", by simp, by decide⟩

/-- `div:has(p), :header` is one of the lists. -/
example : altsCommon false true [[(.childrenAll, [ty "div", .has [[(.childrenAll, [ty "p"])]]])], [(.childrenAll, [.alias headerSel])]] = true ∧
    closestQ demo env0 [7, 9] (some [[(.childrenAll, [ty "div", .has [[(.childrenAll, [ty "p"])]]])], [(.childrenAll, [.alias headerSel])]]) =
      .ok [5] ∧
    nextUntilQ row env0 [2] (sel1 (.edge true false)) (some (sel1 (.not [[(.childrenAll, [ty "b"])]]))) false = .ok [4] := by
  decide

/-- ` p:last-child` and its text. -/
example : SelText [[(.childrenAll, [ty "p", .edge true false])]] " p:last-child".toList ∧
    CommonList false [[(.childrenAll, [ty "p", .edge true false])]] ∧
    findText demo env0 (fun _ => true) [0] " p:first-child".toList = .ok ([2, 6], 0) ∧
    filterText demo env0 (fun _ => true) [2, 6, 7] " p:last-child".toList = .ok ([], 0) :=
  ⟨⟨0, [' '], "p:last-child".toList, [], .mk .desc (.cons (.name (idText_letter (c := 'p') (by simp [NameStart])))
    (by simp [Sim.isName]) (.one .edge)) .nil .nil, blank_space, blank_nil, rfl⟩, ⟨Or.inl (by simp), by decide⟩, by decide, by decide⟩

end Visdom
