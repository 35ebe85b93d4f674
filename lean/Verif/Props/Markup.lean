import Verif.Proofs.Html
import Verif.Props.Replace
import Verif.Props.Html
import Verif.Props.Ident
/-!
# C72: `html`, `htmls`, `outer_html` and `outer_htmls` show the tree
-/
namespace Visdom
open Spec

section
variable {rd : Render} {e : Ext} {h h' : Heap} {D : Nat → Prop}

/-! ## What the methods return -/

/-- C72: on finite trees `html` and `outer_html` return, without a panic, and what they return is the HTML of the tree. -/
theorem C72_html {x : Nat} (hf : FiniteTree h x) (hk : (h.node x).kind = .root ∨ (h.node x).kind = .tag) :
    (∃ s, innerHtml rd e h x = .ok s ∧ InnerOf rd e h x s ∧ ∀ s', InnerOf rd e h x s' → s' = s) ∧
      ∃ s, outerHtml rd e h x = .ok s ∧ HtmlOf rd e h false x s ∧ ∀ s', HtmlOf rd e h false x s' → s' = s := by
  obtain ⟨a, ha⟩ := inner_total (rd := rd) (e := e) hf hk
  obtain ⟨b, hb⟩ := outer_total (rd := rd) (e := e) hf
  exact ⟨⟨a, (innerHtml_iff hf hk a).2 ha, ha, fun s hs => innerOf_fun hs ha⟩, b, (outerHtml_iff hf b).2 hb, hb, fun s hs => htmlOf_fun hs hb⟩

/-- C72: the `outer_html` of an element is its start tag, its `html`, and its end tag. -/
theorem C72_outer {x : Nat} (hf : FiniteTree h x) (hk : (h.node x).kind = .tag) :
    ∃ s, innerHtml rd e h x = .ok s ∧ outerHtml rd e h x = .ok (startOf rd h x ++ s ++ endOf rd h x) := by
  obtain ⟨a, ha⟩ := inner_total (rd := rd) (e := e) hf (.inr hk)
  refine ⟨a, (innerHtml_iff hf (.inr hk) a).2 ha, (outerHtml_iff hf _).2 ?_⟩
  cases ha with
  | root h1 _ => rw [hk] at h1; cases h1
  | elem _ h2 => exact .elem hk h2

/-- The strings of a set, one for each member. -/
theorem parts_of {f : Nat → R (List Char)} : ∀ (S : List Nat), (∀ x ∈ S, ∃ s, f x = .ok s) →
    ∃ parts : List (List Char), List.Forall₂ (fun x s => f x = .ok s) S parts ∧ flatMapR f S = .ok parts.flatten
  | [], _ => ⟨[], .nil, rfl⟩
  | x :: S, hS => by
    obtain ⟨s, hs⟩ := hS x (by simp)
    obtain ⟨ps, p1, p2⟩ := parts_of S fun y hy => hS y (by simp [hy])
    exact ⟨s :: ps, .cons hs p1, by simp [flatMapR, hs, p2]⟩

/-- C72: `htmls` and `outer_htmls` of a set are the strings of its members one after the other, repetitions included; `html` and `outer_html`
are those of the first member. -/
theorem C72_sets {S : List Nat} (hS : ∀ x ∈ S, FiniteTree h x ∧ ((h.node x).kind = .root ∨ (h.node x).kind = .tag)) :
    ∃ inner outer : List (List Char), List.Forall₂ (fun x s => InnerOf rd e h x s) S inner ∧ List.Forall₂ (fun x s => HtmlOf rd e h false x s) S outer ∧
      htmlsS rd e h S = .ok inner.flatten ∧ outerHtmlsS rd e h S = .ok outer.flatten ∧
      htmlS rd e h S = .ok (inner.head?.getD []) ∧ outerHtmlS rd e h S = .ok (outer.head?.getD []) := by
  obtain ⟨ps, p1, p2⟩ := parts_of (f := innerHtml rd e h) S fun x hx => by
    obtain ⟨⟨s, hs, _⟩, _⟩ := C72_html (rd := rd) (e := e) (hS x hx).1 (hS x hx).2
    exact ⟨s, hs⟩
  obtain ⟨os, o1, o2⟩ := parts_of (f := outerHtml rd e h) S fun x hx => by
    obtain ⟨_, s, hs, _⟩ := C72_html (rd := rd) (e := e) (hS x hx).1 (hS x hx).2
    exact ⟨s, hs⟩
  have hall : ∀ {P Q : Nat → List Char → Prop} (S : List Nat) (l : List (List Char)), (∀ x ∈ S, ∀ s, P x s → Q x s) → List.Forall₂ P S l →
      List.Forall₂ Q S l := by
    intro P Q S l hpq hl
    induction hl with
    | nil => exact .nil
    | cons h1 _ ih => exact .cons (hpq _ (by simp) _ h1) (ih fun x hx => hpq x (by simp [hx]))
  refine ⟨ps, os, hall S ps (fun x hx s => (innerHtml_iff (hS x hx).1 (hS x hx).2 s).1) p1,
    hall S os (fun x hx s => (outerHtml_iff (hS x hx).1 s).1) o1, p2, o2, ?_, ?_⟩
  · cases p1 with
    | nil => rfl
    | cons h1 _ => exact h1
  · cases o1 with
    | nil => rfl
    | cons h1 _ => exact h1

/-- C72: when an element holds only elements, its `html` is the `outer_htmls` of its children. -/
theorem C72_children {x : Nat} (hf : FiniteTree h x) (hk : (h.node x).kind = .root ∨ (h.node x).kind = .tag ∧ e.contentTag (h.node x).name = false)
    (he : ∀ c ∈ h.kids x, h.isElem c = true) : outerHtmlsS rd e h (h.children x) = innerHtml rd e h x := by
  have hch : h.children x = h.kids x := by
    unfold Heap.children
    exact List.filter_eq_self.2 he
  rw [hch]
  unfold outerHtmlsS innerHtml
  rcases hk with hk | ⟨hk, hct⟩
  · simp only [hk]
    rfl
  · simp only [hk, hct]
    have : flatMapR (outerHtml rd e h) (h.kids x) = flatMapR (pieceF rd e h h.fuel false) (h.kids x) := rfl
    rw [this]
    cases flatMapR (pieceF rd e h h.fuel false) (h.kids x) <;> simp

/-! ## Trees that are left alone -/

/-- C72: what is written depends on the subtree only: two subtrees that look the same are written the same way. -/
theorem C72_same {x y : Nat} (hf : FiniteTree h x) (hsz : h.size ≤ h'.size) (st : SameTree h h' x y) :
    innerHtml rd e h' y = innerHtml rd e h x ∧ outerHtml rd e h' y = outerHtml rd e h x := html_same hf hsz st

/-- C72: calls that are not given a node of a document or fragment do not change what it is written as. -/
theorem C72_elsewhere {w : World} (ok : w.Ok) (hok : HeapOk h noneUsed) {r : Nat} (hk : (h.node r).kind = .root) (hb : r < h.size) {cs : List Call}
    (hg : ∀ c ∈ cs, ∀ x ∈ c.given, ¬ Belongs h r x) (hr : callAll w h cs = .ok h') {x : Nat} (hx : Within h r x) :
    innerHtml rd e h' x = innerHtml rd e h x ∧ outerHtml rd e h' x = outerHtml rd e h x := by
  have hs := (belongs_separate hok hk hb)
  have k := keep_callAll ok cs h hs.out hg hr
  have hin : ∀ y, Within h r y → Belongs h r y := by
    intro y hy
    rcases within_above hok id hy with rfl | hy
    · exact .inl rfl
    · exact .inr hy
  have hf := heapOk_finite hok (show x < h.size from (heapOk_finite hok hb).1 x hx)
  have hsame : ∀ y, Within h x y → h'.node y = h.node y := fun y hy => k.same y (hin y (hx.trans hy))
  refine C72_same hf k.size (sameTree_of fun y hy => ?_)
  have := hsame y hy
  exact ⟨by simp only [SameText, this, and_self], kids_old this⟩

theorem flatMapR_two {f f' : Nat → R (List Char)} {X Y : List Nat} (hl : List.Forall₂ (fun x y => f' y = f x) X Y) : flatMapR f' Y = flatMapR f X := by
  induction hl with
  | nil => rfl
  | cons h1 _ ih => simp only [flatMapR, h1]; rw [ih]

/-- C72: the clones of a set are written exactly as the originals. -/
theorem C72_clone {w : World} (ok : w.Ok) (hok : HeapOk h noneUsed) {X Y : List Nat} (hX : ∀ x ∈ X, x < h.size) (hc : copyAll w.copy h X = (h', Y)) :
    htmlsS rd e h' Y = htmlsS rd e h X ∧ outerHtmlsS rd e h' Y = outerHtmlsS rd e h X ∧
      htmlS rd e h' Y = htmlS rd e h X ∧ outerHtmlS rd e h' Y = outerHtmlS rd e h X := by
  obtain ⟨had, hall⟩ := copyAll_spec ok X h fun x hx => heapOk_finite hok (hX x hx)
  rw [hc] at had hall
  dsimp only at had hall
  have key : List.Forall₂ (fun x y => innerHtml rd e h' y = innerHtml rd e h x ∧ outerHtml rd e h' y = outerHtml rd e h x) X Y := by
    have hsz := had.size
    clear hc had
    induction hall with
    | nil => exact .nil
    | @cons x y X Y h1 _ ih =>
      exact .cons (C72_same (heapOk_finite hok (hX x (by simp))) hsz h1.2.2) (ih fun z hz => hX z (by simp [hz]))
  refine ⟨flatMapR_two (key.imp fun _ _ h1 => h1.1), flatMapR_two (key.imp fun _ _ h1 => h1.2), ?_, ?_⟩
  · cases key with
    | nil => rfl
    | cons h1 _ => exact h1.1
  · cases key with
    | nil => rfl
    | cons h1 _ => exact h1.2

/-- C72: changes of attributes and classes do not change the `html` of an element, unless they are made on a node inside it. -/
theorem C72_attributes {w : World} (ok : w.Adds) {cs : List Call} (hl : ∀ c ∈ cs, c.keepsLinks = true) (hr : callAll w h cs = .ok h') {x : Nat}
    (hf : FiniteTree h x) (hk : (h.node x).kind = .root ∨ (h.node x).kind = .tag) (ht : ∀ y, Within h x y → ∀ c ∈ cs, y ∉ c.writesText)
    (ha : ∀ y, Below h x y → ∀ c ∈ cs, y ∉ c.writesAttrs) : innerHtml rd e h' x = innerHtml rd e h x := by
  have hh : ∀ c ∈ cs, c.isHtml = false := by
    intro c hc
    have := hl c hc
    cases c with
    | one op => cases op <;> simp_all [Call.keepsLinks, Call.isHtml]
    | _ => simp_all [Call.keepsLinks, Call.isHtml]
  have hkid : ∀ y, Within h x y → h'.kids y = h.kids y := by
    intro y hy
    obtain ⟨h1, _⟩ := C69_links ok hl hr (hf.1 y hy)
    unfold Heap.kids
    rw [h1]
  have hsize : h.size ≤ h'.size := (links_callAll ok cs h hl hr).size
  have hf' := finite_same hf hsize hkid
  obtain ⟨h1, h2, h3, h4, _, h6⟩ := C69_identity ok hr (hf.1 x .self)
  have hcon := h6 (fun c hc => ht x .self c hc) (.inl hh)
  have hk' : (h'.node x).kind = .root ∨ (h'.node x).kind = .tag := by rw [h2]; exact hk
  have hst : ∀ c ∈ h.kids x, SameTree h h' c c := fun c hc => sameTree_of fun y hy => by
    obtain ⟨_, i2, i3, _, i5, i6⟩ := C69_identity ok hr (hf.1 y (hy.head hc))
    refine ⟨⟨i2, i3, i5 fun d hd => ha y ⟨c, hc, hy⟩ d hd, i6 (fun d hd => ht y (hy.head hc) d hd) (.inl hh)⟩, hkid y (hy.head hc)⟩
  obtain ⟨a, ia⟩ := inner_total (rd := rd) (e := e) hf hk
  rw [(innerHtml_iff hf hk a).2 ia]
  refine (innerHtml_iff hf' hk' a).2 ?_
  cases ia with
  | root i1 i2 => exact .root (by rw [h2]; exact i1) (by rw [hkid x .self]; exact htmlsOf_kept i2 hst)
  | elem i1 i2 =>
    have hbody : bodyOf rd e h' x = bodyOf rd e h x := by simp only [bodyOf, h3, hcon]
    rw [← hbody]
    refine .elem (by rw [h2]; exact i1) ?_
    rw [hkid x .self, h3]
    exact htmlsOf_kept i2 hst

/-! ## Changes of the tree -/

theorem within_bound (ok : HeapOk h D) {q p : Nat} (hD : ¬ D q) (hp : p < h.size) (hw : Within h q p) : q < h.size := by
  rcases within_cases hw with rfl | ⟨c, hc, _⟩
  · exact hp
  · exact (ok.bound _ _ (ok.kid_parent hD hc)).2

/-- The children written without the flag for content tags. -/
def PlainIn (e : Ext) (h : Heap) (p : Nat) : Prop :=
  (h.node p).kind = .root ∨ (h.node p).kind = .tag ∧ e.contentTag (h.node p).name = false

theorem PlainIn.kind {p : Nat} (hp : PlainIn e h p) : (h.node p).kind = .root ∨ (h.node p).kind = .tag := hp.imp_right And.left

theorem PlainIn.flag {p : Nat} (hp : PlainIn e h p) : flagOf e h p = false := by
  rcases hp with hp | ⟨hp, hc⟩ <;> simp [flagOf, hp]
  exact hc

theorem PlainIn.inner {p : Nat} (hp : PlainIn e h p) {s : List Char} : InnerOf rd e h p s ↔ HtmlsOf rd e h false (h.kids p) s := by
  rcases hp with hp | ⟨hp, hc⟩
  · constructor
    · rintro (⟨_, h2⟩ | ⟨h1, _⟩)
      · exact h2
      · rw [hp] at h1; cases h1
    · exact .root hp
  · have hb : bodyOf rd e h p = [] := by simp [bodyOf, hc]
    constructor
    · rintro (⟨h1, _⟩ | ⟨_, h2⟩)
      · rw [hp] at h1; cases h1
      · rw [hc] at h2; rw [hb]; exact h2
    · intro h1
      have := InnerOf.elem (rd := rd) (e := e) hp (s := s) (by rw [hc]; exact h1)
      rwa [hb] at this

theorem moved_html {n : Nat} {s : List Char} : HtmlOf rd e h false n s ↔ HtmlsOf rd e h false (moved h n) s := by
  unfold moved
  split
  · rename_i hk
    constructor
    · rintro (⟨h1, _⟩ | ⟨_, h2⟩ | ⟨h1, _⟩)
      · exact absurd hk h1
      · exact h2
      · rw [hk] at h1; cases h1
    · exact .root hk
  · exact htmlsOf_one.symm

/-- What the theorems about insertions say of the lists of children other than that of `p`. -/
def OthersFiltered (D : Nat → Prop) (h h' : Heap) (p n : Nat) : Prop :=
  ∀ q, ¬ D q → q ≠ p → (q ≠ n ∨ (h.node n).kind ≠ .root) → h'.kids q = (h.kids q).filter (· ∉ moved h n)

theorem SameData.text (hs : SameData h h') (x : Nat) : SameText h h' x x := ⟨(hs x).1, (hs x).2.1, (hs x).2.2.1, (hs x).2.2.2.1⟩

/-- The moved subtrees keep their looks. -/
theorem moved_same (ok : HeapOk h D) (hs : SameData h h') {p n : Nat} (ho : OthersFiltered D h h' p n) (hn : ¬ D n) (hne : p ≠ n) (hab : ¬ Above h n p)
    {m : Nat} (hm : m ∈ moved h n) : SameTree h h' m m := by
  refine sameTree_of fun y hy => ⟨SameData.text hs y, ?_⟩
  have hmD : ¬ D m := by
    unfold moved at hm
    split at hm
    · exact fun hd => ok.kid _ _ hn hm (ok.dead _ hd).1
    · rw [List.mem_singleton.1 hm]; exact hn
  have hyD := within_live ok hmD hy
  have hnm : n = m ∨ Above h n m ∧ (h.node n).kind = .root := by
    unfold moved at hm
    split at hm
    · rename_i hk; exact .inr ⟨.parent (ok.kid_parent hn hm), hk⟩
    · exact .inl (List.mem_singleton.1 hm).symm
  have hny : n = y ∨ Above h n y := by
    rcases within_above ok hmD hy with rfl | h1 <;> rcases hnm with rfl | ⟨h2, _⟩
    · exact .inl rfl
    · exact .inr h2
    · exact .inr h1
    · exact .inr (h2.trans h1)
  rw [ho y hyD]
  · refine List.filter_eq_self.2 fun c hc => ?_
    have hpc := ok.kid_parent hyD hc
    have hnc : Above h n c := by
      rcases hny with rfl | h1
      · exact .parent hpc
      · exact .step h1 hpc
    simp only [decide_eq_true_eq]
    intro hcm
    unfold moved at hm hcm
    split at hm
    · rename_i hk
      rw [if_pos hk] at hcm
      have := ok.kid_parent hn hcm
      rw [hpc, Option.some.injEq] at this
      subst this
      have hym := ok.kid_parent hyD hm
      rcases within_above ok hmD hy with h1 | h1
      · rw [h1] at hym; exact ok.not_above_self _ (.parent hym)
      · exact ok.not_above_self _ (.step h1 hym)
    · rename_i hk
      rw [if_neg hk, List.mem_singleton] at hcm
      exact ok.not_above_self n (hcm ▸ hnc)
  · rintro rfl
    rcases hny with h1 | h1
    · exact hne h1.symm
    · exact hab h1
  · by_cases hk : (h.node n).kind = .root
    · left
      rintro rfl
      have hmn : h.parent m = some y := by
        unfold moved at hm
        rw [if_pos hk] at hm
        exact ok.kid_parent hn hm
      rcases within_above ok hmD hy with h1 | h1
      · rw [h1] at hmn; exact ok.not_above_self _ (.parent hmn)
      · exact ok.not_above_self _ (.step h1 hmn)
    · exact .inr hk

/-- Nothing else changes above `p`. -/
theorem others_same (ok : HeapOk h D) (hs : SameData h h') {p n q : Nat} (ho : OthersFiltered D h h' p n) (hqD : ¬ D q) (hqn : q ≠ n ∨ (h.node n).kind ≠ .root)
    (hout : ∀ m ∈ moved h n, ¬ Within h q m) {y : Nat} (hy : Within h q y) (hyp : y ≠ p) : SameText h h' y y ∧ h'.kids y = h.kids y := by
  refine ⟨SameData.text hs y, ?_⟩
  rw [ho y (within_live ok hqD hy) hyp]
  · refine List.filter_eq_self.2 fun c hc => ?_
    simp only [decide_eq_true_eq]
    exact fun hcm => hout c hcm (.step hy hc)
  · by_cases hk : (h.node n).kind = .root
    · left
      rintro rfl
      cases hy with
      | self => exact hqn.elim (fun h1 => h1 rfl) fun h1 => h1 hk
      | step hw hc => exact ok.kid _ _ (within_live ok hqD hw) hc hk
    · exact .inr hk

/-- The change of the list of `p`, and its effect on the HTML of all nodes above. -/
theorem markup_change (ok : HeapOk h D) {D' : Nat → Prop} (ok' : HeapOk h' D') (hsz : h.size ≤ h'.size) (hs : SameData h h') {p n q : Nat} (ho : OthersFiltered D h h' p n)
    (hn : ¬ D n) (hne : p ≠ n) (hab : ¬ Above h n p) (hpl : PlainIn e h p) (hpb : p < h.size) (hqD : ¬ D q) (hqD' : ¬ D' q) (hq : Within h q p)
    (hout : ∀ m ∈ moved h n, ¬ Within h q m) {A B N : List Nat} {T : List Nat} (hk : h.kids p = A ++ T ++ B) (hk' : h'.kids p = A ++ N ++ B)
    (hN : ∀ m ∈ N, m ∈ moved h n ∨ m ∈ h.kids p) {t r : List Char} (ht : HtmlsOf rd e h false T t) (hr : HtmlsOf rd e h false N r) :
    ∃ a b, innerHtml rd e h q = .ok (a ++ t ++ b) ∧ innerHtml rd e h' q = .ok (a ++ r ++ b) := by
  have hqb := within_bound ok hqD hpb hq
  have lp := within_live ok hqD hq
  have hqn : q ≠ n ∨ (h.node n).kind ≠ .root := by
    left
    rintro rfl
    rcases within_above ok hqD hq with h1 | h1
    · exact hne h1.symm
    · exact hab h1
  have hfin : ∀ c ∈ h.kids p, FiniteTree h c := fun c hc =>
    heapOk_finite_of ok (ok.bound _ _ (ok.kid_parent lp hc)).1 fun hd => ok.kid _ _ lp hc (ok.dead _ hd).1
  have hkeep : ∀ c ∈ h.kids p, SameTree h h' c c := fun c hc => sameTree_of fun y hy =>
    others_same ok hs ho hqD hqn hout (hq.trans (hy.head hc)) (by rintro rfl; exact not_within_parent ok lp hc hy)
  obtain ⟨la, _, hla⟩ := pieces_full (rd := rd) (e := e) (l := A) (fun c hc => hfin c (by rw [hk]; simp [hc])) false
  obtain ⟨lb, _, hlb⟩ := pieces_full (rd := rd) (e := e) (l := B) (fun c hc => hfin c (by rw [hk]; simp [hc])) false
  have w1 : HtmlsOf rd e h false (h.kids p) (la ++ t ++ lb) := by
    rw [hk]; exact htmlsOf_append (htmlsOf_append hla ht) hlb
  have w2 : HtmlsOf rd e h' false (h'.kids p) (la ++ r ++ lb) := by
    rw [hk']
    refine htmlsOf_append (htmlsOf_append (htmlsOf_kept hla fun c hc => hkeep c (by rw [hk]; simp [hc])) (htmlsOf_kept hr fun m hm => ?_))
      (htmlsOf_kept hlb fun c hc => hkeep c (by rw [hk]; simp [hc]))
    rcases hN m hm with h1 | h1
    · exact moved_same ok hs ho hn hne hab h1
    · exact hkeep m h1
  rw [← hpl.flag] at w1 w2
  obtain ⟨a, b, i1, i2⟩ := html_context (rd := rd) (e := e) ok hqb hqD hq hpl.kind (SameData.text hs p)
    (fun y hy hny => others_same ok hs ho hqD hqn hout hy (by rintro rfl; exact hny .self)) w1 w2
  have hkq : (h.node q).kind = .root ∨ (h.node q).kind = .tag := by
    by_contra hc
    have hl := ok.leaf q (fun h1 => hc (.inl h1)) fun h1 => hc (.inr h1)
    rcases within_cases hq with rfl | ⟨c, hcq, _⟩
    · exact hc hpl.kind
    · rw [hl] at hcq; cases hcq
  refine ⟨a ++ la, lb ++ b, ?_, ?_⟩
  · refine (innerHtml_iff (heapOk_finite_of ok hqb hqD) hkq _).2 ?_
    simpa [List.append_assoc] using i1
  · refine (innerHtml_iff (heapOk_finite_of ok' (Nat.lt_of_lt_of_le hqb hsz) hqD') (by rw [(hs q).1]; exact hkq) _).2 ?_
    simpa [List.append_assoc] using i2

/-- C72, `append` and `prepend` of an element or a fragment from outside: the `html` of the target grows at its end or at its beginning by exactly the
HTML of what is inserted, and in the `html` of every node above the target the same happens at the place of the target. -/
theorem C72_inside_partial (ok : HeapOk h D) {pos : InsertPosition} {t n q : Nat} (u : Usable e h D (.insert pos t n)) (ha : Accepted e h t n)
    (hpos : pos = .afterBegin ∨ pos = .beforeEnd) (hct : e.contentTag (h.node t).name = false) (hal : ∀ m ∈ moved h n, e.allow (h.tagNames t) m = true)
    (hqD : ¬ D q) (hq : Within h q t) (hout : ∀ m ∈ moved h n, ¬ Within h q m) :
    ∃ h' a s r b, h.insertAdjacent e pos t n = .ok h' ∧ innerHtml rd e h t = .ok s ∧ outerHtml rd e h n = .ok r ∧
      innerHtml rd e h q = .ok (a ++ s ++ b) ∧
      innerHtml rd e h' q = .ok (a ++ (if pos = .beforeEnd then s ++ r else r ++ s) ++ b) := by
  obtain ⟨h', h1, h2, h3, _, h4⟩ := insert_inside ok u ha hpos
  obtain ⟨h5, st⟩ := insert_step ok u
  have := st.run
  simp only [Op.run, h1, Except.ok.injEq] at this
  subst this
  obtain ⟨_, _, hDn, hbn, hbt⟩ := u
  have hpl : PlainIn e h t := .inr ⟨ha.1, hct⟩
  have hDt := tag_live ok ha.1
  have hfn := heapOk_finite_of ok hbn hDn
  have hft := heapOk_finite_of ok hbt hDt
  obtain ⟨s, hs⟩ := inner_total (rd := rd) (e := e) hft hpl.kind
  obtain ⟨r, hr⟩ := outer_total (rd := rd) (e := e) hfn
  have hs' := hpl.inner.1 hs
  have hr' := moved_html.1 hr
  have f1 : (h.kids t).filter (· ∉ moved h n) = h.kids t := List.filter_eq_self.2 fun c hc => by
    simp only [decide_eq_true_eq]
    exact fun hm => hout c hm (.step hq hc)
  have f2 : (moved h n).filter (e.allow (h.tagNames t)) = moved h n := List.filter_eq_self.2 hal
  rw [f1, f2] at h2
  have hqD' : ¬ Used e h D q (.insert pos t n) := by
    rintro (h6 | ⟨h6, _, _⟩)
    · exact hqD h6
    · rw [h6] at hq
      rcases within_above ok hDn hq with h7 | h7
      · exact ha.2.2.1 h7.symm
      · exact ha.2.2.2 h7
  refine ⟨h', ?_⟩
  rcases hpos with rfl | rfl
  · rw [if_neg (by simp)] at h2
    obtain ⟨a, b, i1, i2⟩ := markup_change (rd := rd) (A := []) (T := h.kids t) (B := []) (N := moved h n ++ h.kids t) ok st.ok st.size h4 h3 hDn ha.2.2.1
      ha.2.2.2 hpl hbt hqD hqD' hq hout (by simp) (by simpa using h2) (by simp) hs' (htmlsOf_append hr' hs')
    exact ⟨a, s, r, b, h1, (innerHtml_iff hft hpl.kind s).2 hs, (outerHtml_iff hfn r).2 hr, i1, by rw [if_neg (by simp)]; exact i2⟩
  · rw [if_pos rfl] at h2
    obtain ⟨a, b, i1, i2⟩ := markup_change (rd := rd) (A := []) (T := h.kids t) (B := []) (N := h.kids t ++ moved h n) ok st.ok st.size h4 h3 hDn ha.2.2.1
      ha.2.2.2 hpl hbt hqD hqD' hq hout (by simp) (by simpa using h2) (by simp only [List.mem_append]; tauto) hs' (htmlsOf_append hs' hr')
    exact ⟨a, s, r, b, h1, (innerHtml_iff hft hpl.kind s).2 hs, (outerHtml_iff hfn r).2 hr, i1, by rw [if_pos rfl]; exact i2⟩

/-- C72, `before` and `after` with an element or a fragment from outside: in the `html` of the parent, and of every node above, the HTML of what is inserted
appears directly before or after the HTML of the target, and nothing else changes. -/
theorem C72_beside_partial (ok : HeapOk h D) {pos : InsertPosition} {t n p q : Nat} (u : Usable e h D (.insert pos t n)) (ha : Accepted e h t n)
    (hpos : pos = .beforeBegin ∨ pos = .afterEnd) (hpar : h.parent t = some p) (hpl : PlainIn e h p)
    (hqD : ¬ D q) (hq : Within h q p) (hout : ∀ m ∈ moved h n, ¬ Within h q m) :
    ∃ h' a o r b, h.insertAdjacent e pos t n = .ok h' ∧ outerHtml rd e h t = .ok o ∧ outerHtml rd e h n = .ok r ∧
      innerHtml rd e h q = .ok (a ++ o ++ b) ∧
      innerHtml rd e h' q = .ok (a ++ (if pos = .afterEnd then o ++ r else r ++ o) ++ b) := by
  obtain ⟨h', A, B, h1, h2, h2', h3, _, h4⟩ := insert_beside ok u ha (by rcases hpos with rfl | rfl <;> simp) hpar
  obtain ⟨h5, st⟩ := insert_step ok u
  have := st.run
  simp only [Op.run, h1, Except.ok.injEq] at this
  subst this
  obtain ⟨_, _, hDn, hbn, hbt⟩ := u
  have hDt := tag_live ok ha.1
  have hfn := heapOk_finite_of ok hbn hDn
  have hft := heapOk_finite_of ok hbt hDt
  obtain ⟨o, ho⟩ := outer_total (rd := rd) (e := e) hft
  obtain ⟨r, hr⟩ := outer_total (rd := rd) (e := e) hfn
  have hr' := moved_html.1 hr
  have ho' := htmlsOf_one.2 ho
  have f1 : (h.kids p).filter (· ∉ moved h n) = h.kids p := List.filter_eq_self.2 fun c hc => by
    simp only [decide_eq_true_eq]
    exact fun hm => hout c hm (.step hq hc)
  rw [f1] at h2
  have hab : ¬ Above h n p := fun h6 => ha.2.2.2 (.step h6 hpar)
  have hpn : p ≠ n := by rintro rfl; exact ha.2.2.2 (.parent hpar)
  have hbp := (ok.bound _ _ hpar).2
  have hqD' : ¬ Used e h D q (.insert pos t n) := by
    rintro (h6 | ⟨h6, _, _⟩)
    · exact hqD h6
    · rw [h6] at hq
      rcases within_above ok hDn hq with h7 | h7
      · exact hpn h7.symm
      · exact hab h7
  have htk : t ∈ h.kids p := by rw [h2]; simp
  refine ⟨h', ?_⟩
  rcases hpos with rfl | rfl
  · rw [if_neg (by simp)] at h2'
    obtain ⟨a, b, i1, i2⟩ := markup_change (rd := rd) (A := A) (T := [t]) (B := B) (N := moved h n ++ [t]) ok st.ok st.size h4 h3 hDn hpn
      hab hpl hbp hqD hqD' hq hout (by simpa using h2) (by simpa using h2')
      (by simp only [List.mem_append, List.mem_singleton]; rintro m (h6 | rfl); exacts [.inl h6, .inr htk]) ho' (htmlsOf_append hr' ho')
    exact ⟨a, o, r, b, h1, (outerHtml_iff hft o).2 ho, (outerHtml_iff hfn r).2 hr, i1, by rw [if_neg (by simp)]; exact i2⟩
  · rw [if_pos rfl] at h2'
    obtain ⟨a, b, i1, i2⟩ := markup_change (rd := rd) (A := A) (T := [t]) (B := B) (N := [t] ++ moved h n) ok st.ok st.size h4 h3 hDn hpn
      hab hpl hbp hqD hqD' hq hout (by simpa using h2) (by simpa using h2')
      (by simp only [List.mem_append, List.mem_singleton]; rintro m (rfl | h6); exacts [.inr htk, .inl h6]) ho' (htmlsOf_append ho' hr')
    exact ⟨a, o, r, b, h1, (outerHtml_iff hft o).2 ho, (outerHtml_iff hfn r).2 hr, i1, by rw [if_pos rfl]; exact i2⟩

/-- C72, `replace_with` one element or a fragment from outside: in the `html` of the parent, and of every node above, the HTML of the target is
replaced by the HTML of what is inserted, and nothing else changes. -/
theorem C72_replace_partial (ok : HeapOk h D) {t n p q : Nat} (u : Usable e h D (.replace t n)) (hpar : h.parent t = some p) (hpl : PlainIn e h p)
    (hne : moved h n ≠ []) (htk : (h.node t).kind = .tag) (hqD : ¬ D q) (hq : Within h q p) (hout : ∀ m ∈ moved h n, ¬ Within h q m) :
    ∃ h' T a o r b, replaceAll e [n] h [t] = .ok (h', T) ∧ outerHtml rd e h t = .ok o ∧ outerHtml rd e h n = .ok r ∧
      innerHtml rd e h q = .ok (a ++ o ++ b) ∧ innerHtml rd e h' q = .ok (a ++ r ++ b) := by
  obtain ⟨h', A, B, h1, h2, h2', h3, _, h4⟩ := replace_one ok u hpar hne
  obtain ⟨h5, st⟩ := replace_step ok u
  have := st.run
  simp only [Op.run, h1, Except.map, Except.ok.injEq] at this
  subst this
  obtain ⟨_, _, hDn, hbn, _, htn, htab⟩ := u
  have hDt := tag_live ok htk
  have hfn := heapOk_finite_of ok hbn hDn
  have hft := heapOk_finite_of ok (ok.bound _ _ hpar).1 hDt
  obtain ⟨o, ho⟩ := outer_total (rd := rd) (e := e) hft
  obtain ⟨r, hr⟩ := outer_total (rd := rd) (e := e) hfn
  have f1 : (h.kids p).filter (· ∉ moved h n) = h.kids p := List.filter_eq_self.2 fun c hc => by
    simp only [decide_eq_true_eq]
    exact fun hm => hout c hm (.step hq hc)
  rw [f1] at h2
  have hab : ¬ Above h n p := fun h6 => htab (.step h6 hpar)
  have hpn : p ≠ n := by rintro rfl; exact htab (.parent hpar)
  have hqD' : ¬ Used e h D q (.replace t n) := by
    rintro (h6 | ⟨h6, _⟩)
    · exact hqD h6
    · rw [h6] at hq
      rcases within_above ok hDn hq with h7 | h7
      · exact hpn h7.symm
      · exact hab h7
  obtain ⟨a, b, i1, i2⟩ := markup_change (rd := rd) (A := A) (T := [t]) (B := B) (N := moved h n) ok st.ok st.size h4 h3 hDn hpn
    hab hpl (ok.bound _ _ hpar).2 hqD hqD' hq hout (by simpa using h2) h2' (fun m hm => .inl hm) (htmlsOf_one.2 ho) (moved_html.1 hr)
  obtain ⟨T, h1⟩ : ∃ T, h.replaceWith e t n = .ok (h', T) := ⟨_, h1⟩
  exact ⟨h', [T], a, o, r, b, by simp [replaceAll, replaceLoop, h1], (outerHtml_iff hft o).2 ho, (outerHtml_iff hfn r).2 hr, i1, i2⟩

/-- C72, `remove`: in the `html` of the parent, and of every node above, the HTML of the element is taken out, and nothing else changes; the removed
element itself is written as before. -/
theorem C72_remove_partial (ok : HeapOk h D) {x p q : Nat} (hx : Attached h D x) (hpar : h.parent x = some p) (hk : (h.node x).kind = .tag)
    (hqD : ¬ D q) (hq : Within h q p) :
    ∃ h' a o b, removeAll h [x] = .ok h' ∧ outerHtml rd e h x = .ok o ∧ outerHtml rd e h' x = .ok o ∧
      innerHtml rd e h q = .ok (a ++ o ++ b) ∧ innerHtml rd e h' q = .ok (a ++ b) := by
  obtain ⟨h', r1, r2, r3, _⟩ := C34_remove_partial ok [x] (by simpa using hx) (by simp)
  obtain ⟨h5, st⟩ := remove_step (e := e) ok (x := x) hx
  have hst : h5 = h' := by
    have := st.run
    simp only [Op.run] at this
    simp only [removeAll, this, Except.ok.injEq] at r1
    exact r1
  subst hst
  obtain ⟨lp, hi⟩ := hx p hpar
  have hxk : x ∈ h.kids p := List.mem_of_getElem? hi
  have hbp := (ok.bound _ _ hpar).2
  have hqb := within_bound ok hqD hbp hq
  have hfin : ∀ c ∈ h.kids p, FiniteTree h c := fun c hc =>
    heapOk_finite_of ok (ok.bound _ _ (ok.kid_parent lp hc)).1 fun hd => ok.kid _ _ lp hc (ok.dead _ hd).1
  have hothers : ∀ y, ¬ D y → y ≠ p → h5.kids y = h.kids y := by
    intro y hy hyp
    rw [r2 y hy]
    refine List.filter_eq_self.2 fun c hc => ?_
    simp only [List.mem_singleton, decide_eq_true_eq]
    rintro rfl
    exact hyp (ok.kid_unique hy lp hc hxk)
  have hkeep : ∀ c ∈ h.kids p, SameTree h h5 c c := fun c hc => sameTree_of fun y hy =>
    ⟨SameData.text r3 y, hothers y (within_live ok lp (hy.head hc)) (by rintro rfl; exact not_within_parent ok lp hc hy)⟩
  have hkp : (h.node p).kind = .root ∨ (h.node p).kind = .tag := by
    by_contra hc
    have hl := ok.leaf p (fun h1 => hc (.inl h1)) fun h1 => hc (.inr h1)
    rw [hl] at hxk
    cases hxk
  obtain ⟨A, B, hAB⟩ := List.append_of_mem hxk
  have hk' : h5.kids p = A ++ B := by
    rw [r2 p lp, hAB]
    have hnd := ok.kids_nodup lp
    rw [hAB, List.nodup_append] at hnd
    obtain ⟨_, n2, n3⟩ := hnd
    have f1 : A.filter (· ∉ [x]) = A := List.filter_eq_self.2 fun c hc => by
      simp only [List.mem_singleton, decide_eq_true_eq]
      exact n3 c hc x (by simp)
    have f2 : B.filter (· ∉ [x]) = B := List.filter_eq_self.2 fun c hc => by
      simp only [List.mem_singleton, decide_eq_true_eq]
      rintro rfl
      exact (List.nodup_cons.1 n2).1 hc
    rw [List.filter_append, List.filter_cons_of_neg (by simp), f1, f2]
  obtain ⟨la, _, hla⟩ := pieces_full (rd := rd) (e := e) (l := A) (fun c hc => hfin c (by rw [hAB]; simp [hc])) (flagOf e h p)
  obtain ⟨lb, _, hlb⟩ := pieces_full (rd := rd) (e := e) (l := B) (fun c hc => hfin c (by rw [hAB]; simp [hc])) (flagOf e h p)
  obtain ⟨o, ho⟩ := outer_total (rd := rd) (e := e) (hfin x hxk)
  have w1 : HtmlsOf rd e h (flagOf e h p) (h.kids p) (la ++ (o ++ lb)) := by
    rw [hAB]
    exact htmlsOf_append hla (.cons (htmlOf_flag hk ho _) hlb)
  have w2 : HtmlsOf rd e h5 (flagOf e h p) (h5.kids p) (la ++ lb) := by
    rw [hk']
    exact htmlsOf_append (htmlsOf_kept hla fun c hc => hkeep c (by rw [hAB]; simp [hc])) (htmlsOf_kept hlb fun c hc => hkeep c (by rw [hAB]; simp [hc]))
  obtain ⟨a, b, i1, i2⟩ := html_context (rd := rd) (e := e) ok hqb hqD hq hkp (SameData.text r3 p)
    (fun y hy hny => ⟨SameData.text r3 y, hothers y (within_live ok hqD hy) (by rintro rfl; exact hny .self)⟩) w1 w2
  have hkq : (h.node q).kind = .root ∨ (h.node q).kind = .tag := by
    by_contra hc
    have hl := ok.leaf q (fun h1 => hc (.inl h1)) fun h1 => hc (.inr h1)
    rcases within_cases hq with rfl | ⟨c, hcq, _⟩
    · exact hc hkp
    · rw [hl] at hcq; cases hcq
  refine ⟨h5, a ++ la, o, lb ++ b, r1, (outerHtml_iff (hfin x hxk) o).2 ho,
    (html_same (hfin x hxk) st.size (hkeep x hxk)).2.trans ((outerHtml_iff (hfin x hxk) o).2 ho), ?_, ?_⟩
  · refine (innerHtml_iff (heapOk_finite_of ok hqb hqD) hkq _).2 ?_
    simpa [List.append_assoc] using i1
  · refine (innerHtml_iff (heapOk_finite_of st.ok (Nat.lt_of_lt_of_le hqb st.size) hqD) (by rw [(r3 q).1]; exact hkq) _).2 ?_
    simpa [List.append_assoc] using i2

/-- Only the list of `x` changes, and new nodes appear: the effect on the HTML of all nodes above. -/
theorem markup_refill (ok : HeapOk h D) (ok' : HeapOk h' D) (hsz : h.size ≤ h'.size) {x q : Nat} (hx : x < h.size)
    (hother : ∀ y < h.size, y ≠ x → h'.kids y = h.kids y) (hdata : ∀ y < h.size, SameText h h' y y) (hpl : PlainIn e h x) (hqD : ¬ D q) (hq : Within h q x)
    {t : List Char} (ht : HtmlsOf rd e h' false (h'.kids x) t) :
    ∃ a s b, innerHtml rd e h x = .ok s ∧ innerHtml rd e h q = .ok (a ++ s ++ b) ∧ innerHtml rd e h' x = .ok t ∧ innerHtml rd e h' q = .ok (a ++ t ++ b) := by
  have hqb := within_bound ok hqD hx hq
  have lx := within_live ok hqD hq
  have hfq := heapOk_finite_of ok hqb hqD
  have hfx := heapOk_finite_of ok hx lx
  obtain ⟨s, hs⟩ := inner_total (rd := rd) (e := e) hfx hpl.kind
  have w1 := hpl.inner.1 hs
  have w2 := ht
  rw [← hpl.flag] at w1 w2
  obtain ⟨a, b, i1, i2⟩ := html_context (rd := rd) (e := e) ok hqb hqD hq hpl.kind (hdata x hx)
    (fun y hy hny => ⟨hdata y (hfq.1 y hy), hother y (hfq.1 y hy) (by rintro rfl; exact hny .self)⟩) w1 w2
  have hkq : (h.node q).kind = .root ∨ (h.node q).kind = .tag := by
    by_contra hc
    have hl := ok.leaf q (fun h1 => hc (.inl h1)) fun h1 => hc (.inr h1)
    rcases within_cases hq with rfl | ⟨c, hcq, _⟩
    · exact hc hpl.kind
    · rw [hl] at hcq; cases hcq
  have hpl' : PlainIn e h' x := by
    unfold PlainIn
    rw [(hdata x hx).1, (hdata x hx).2.1]
    exact hpl
  refine ⟨a, s, b, (innerHtml_iff hfx hpl.kind s).2 hs, (innerHtml_iff hfq hkq _).2 i1, ?_, ?_⟩
  · exact (innerHtml_iff (heapOk_finite_of ok' (Nat.lt_of_lt_of_le hx hsz) lx) hpl'.kind t).2 (hpl'.inner.2 ht)
  · exact (innerHtml_iff (heapOk_finite_of ok' (Nat.lt_of_lt_of_le hqb hsz) hqD) (by rw [(hdata q hqb).1]; exact hkq) _).2 i2

/-- C72, `set_html` on an element that may hold all the parsed nodes: afterwards its `html` is what the parsed document is written as. When that is the
given string, `html` returns the string that `set_html` was given. In the `html` of every node above, the old `html` of the element is replaced by
the new one, and nothing else changes. -/
theorem C72_set_html_partial (ok : HeapOk h D) (P : ParseOk e) {x r q : Nat} {s : List Char} {h1 : Heap} (u : Usable e h D (.setHtml x s))
    (hk : (h.node x).kind = .tag) (hct : e.contentTag (h.node x).name = false) (hp : e.parse h s = .ok (h1, r))
    (hal : ∀ m ∈ h1.kids r, e.allow (h.node x).name m = true) (hqD : ¬ D q) (hq : Within h q x) :
    ∃ h' a o t b, h.setHtml e x s = .ok h' ∧ innerHtml rd e h1 r = .ok t ∧ innerHtml rd e h x = .ok o ∧ innerHtml rd e h q = .ok (a ++ o ++ b) ∧
      innerHtml rd e h' x = .ok t ∧ innerHtml rd e h' q = .ok (a ++ t ++ b) := by
  obtain ⟨h', hrun, hol, _⟩ := C41_element ok P u hk hct hp
  obtain ⟨h5, st⟩ := setHtml_step ok P u
  have hst : h5 = h' := by
    have := st.run
    simp only [Op.run, hrun, Except.ok.injEq] at this
    exact this.symm
  subst hst
  have hx : x < h.size := u.1
  obtain ⟨p1, p2, p3, p4, p5, p6⟩ := P h s h1 r hp
  have ok1 := p6 D ok
  have hDr : ¬ D r := fun hd => by have := (ok.dead r hd).2; omega
  have hfr := heapOk_finite_of ok1 p4 hDr
  obtain ⟨t, ht⟩ := inner_total (rd := rd) (e := e) hfr (.inl p5)
  have ht' : HtmlsOf rd e h1 false (h1.kids r) t := (PlainIn.inner (e := e) (.inl p5)).1 ht
  have hlist : h5.kids x = h1.kids r := by rw [hol.list]; exact List.filter_eq_self.2 hal
  have hxr : ∀ c ∈ h1.kids r, ∀ y, Within h1 c y → h.size ≤ y ∧ y ≠ r := by
    intro c hc y hy
    constructor
    · by_contra hlt
      have hlt : y < h.size := by omega
      have hab : Above h1 r y := by
        have lc : ¬ D c := fun hd => ok1.kid _ _ hDr hc (ok1.dead _ hd).1
        rcases within_above ok1 lc hy with rfl | h6
        · exact .parent (ok1.kid_parent hDr hc)
        · exact Above.trans (.parent (ok1.kid_parent hDr hc)) h6
      have key : ∀ y, Above h1 r y → h.size ≤ y := by
        intro y hy
        have hpar : ∀ y, y < h.size → h1.parent y = h.parent y := fun y hy => by unfold Heap.parent; rw [p2 y hy]
        induction hy with
        | @parent y h6 =>
          by_contra h7
          rw [hpar y (by omega)] at h6
          have := (ok.bound _ _ h6).2
          omega
        | @step m y _ h6 ih =>
          by_contra h7
          rw [hpar y (by omega)] at h6
          have := (ok.bound _ _ h6).2
          omega
      have := key y hab
      omega
    · rintro rfl
      exact not_within_parent ok1 hDr hc hy
  have hnew : ∀ y, h.size ≤ y → y ≠ r → SameText h1 h5 y y ∧ h5.kids y = h1.kids y := by
    intro y hy hyr
    have hyx : y ≠ x := by omega
    obtain ⟨h6, hrun', hc⟩ := setHtml_cases ok P u
    rw [hrun, Except.ok.injEq] at hrun'
    subst hrun'
    have htg : h.htmlTarget x = some x := by unfold Heap.htmlTarget; rw [hk]
    rcases hc with ⟨h2, _⟩ | ⟨t, h2, htb, htk, hc⟩
    · rw [htg] at h2; cases h2
    rw [htg] at h2
    cases h2
    rcases hc with ⟨h2, _⟩ | ⟨_, g, r', hp', hc⟩
    · rw [hct] at h2; cases h2
    rw [hp] at hp'
    cases hp'
    rcases hc with ⟨hn, rfl⟩ | ⟨parsed, hch, hs⟩
    · obtain ⟨d1, d2, d3, d4, _⟩ := setChilds_data h1 x none y
      exact ⟨⟨d1, d2, d3, d4⟩, by rw [setChilds_kids, if_neg hyx]⟩
    · rw [if_pos hk] at hs
      obtain ⟨d1, d2, d3, d4, _⟩ := setChilds_data h1 r (some []) y
      obtain ⟨e1, e2, e3, e4, _⟩ := hs.data y
      exact ⟨⟨e1.trans d1, e2.trans d2, e3.trans d3, e4.trans d4⟩, by rw [hs.other y hyx, setChilds_kids, if_neg hyr]⟩
  have hw : HtmlsOf rd e h5 false (h5.kids x) t := by
    rw [hlist]
    exact htmlsOf_kept ht' fun c hc => sameTree_of fun y hy => hnew y (hxr c hc y hy).1 (hxr c hc y hy).2
  obtain ⟨a, o, b, i1, i2, i3, i4⟩ := markup_refill (rd := rd) ok st.ok st.size hx (fun y hy hyx => hol.other y hy hyx) (fun y hy => hol.data y hy)
    (.inr ⟨hk, hct⟩) hqD hq hw
  exact ⟨h5, a, o, t, b, hrun, (innerHtml_iff hfr (.inl p5) t).2 ht, i1, i2, i3, i4⟩

/-- C72, `set_text` on an element: afterwards its `html` is the encoded text, as a text is written; in the `html` of every node above, the old `html` of the
element is replaced by it, and nothing else changes. -/
theorem C72_set_text (ok : HeapOk h D) {x q : Nat} (hx : x < h.size) (hk : (h.node x).kind = .tag) (hct : e.contentTag (h.node x).name = false)
    (hct' : e.contentTag (h.tagNames x) = false) (s : List Char) (hqD : ¬ D q) (hq : Within h q x) :
    ∃ a o t b, t = (if s = [] then [] else rd.leaf false .text [] {} (some (e.encode s))) ∧ innerHtml rd e h x = .ok o ∧
      innerHtml rd e h q = .ok (a ++ o ++ b) ∧ innerHtml rd e (h.setText e x s) x = .ok t ∧ innerHtml rd e (h.setText e x s) q = .ok (a ++ t ++ b) := by
  obtain ⟨h5, st⟩ := setText_step (e := e) ok (s := s) (show Usable e h D (.setText x s) from hx)
  have hst : h5 = h.setText e x s := by
    have := st.run
    simp only [Op.run, Except.ok.injEq] at this
    exact this.symm
  subst hst
  obtain ⟨_, _, _, k1, k2, _⟩ := C40_element (dec := fun _ => s) ok hx hk hct' s rfl
  have key : (∀ y < h.size, SameText h (h.setText e x s) y y) ∧ HtmlsOf rd e (h.setText e x s) false ((h.setText e x s).kids x)
      (if s = [] then [] else rd.leaf false .text [] {} (some (e.encode s))) := by
    by_cases hs : s = []
    · subst hs
      have he : h.setText e x [] = h.setChilds x none := by
        unfold Heap.setText; rw [hk]; simp [hct']
      rw [he, setChilds_kids, if_pos rfl, if_pos rfl]
      refine ⟨fun y _ => ?_, .nil⟩
      obtain ⟨d1, d2, d3, d4, _⟩ := setChilds_data h x none y
      exact ⟨d1, d2, d3, d4⟩
    · obtain ⟨h1, rfl, sp, _⟩ := setText_spliced (e := e) ok hx hk hct' hs
      obtain ⟨_, _, a3, _, a5, a6, _, _⟩ :=
        alloc_ok ok hx { kind := .text, content := some (e.encode s), parent := some x } rfl rfl (by simp)
      have hkx : (h.setText e x s).kids x = [h.size] := by simpa using sp.new
      rw [hkx, if_neg hs]
      refine ⟨fun y hy => ?_, htmlsOf_one.2 ?_⟩
      · obtain ⟨d1, d2, d3, d4, _⟩ := sp.data y
        rw [a5 y hy] at d1 d2 d3 d4
        exact ⟨d1, d2, d3, d4⟩
      · obtain ⟨d1, d2, d3, d4, _⟩ := sp.data h.size
        rw [a6] at d1 d2 d3 d4
        have := HtmlOf.leaf (rd := rd) (e := e) (h := h.setText e x s) (ct := false) (x := h.size) (by rw [d1]; simp) (by rw [d1]; simp)
        simpa only [leafOf, d1, d2, d3, d4] using this
  obtain ⟨hdata, hw⟩ := key
  obtain ⟨a, o, b, i1, i2, i3, i4⟩ := markup_refill (rd := rd) ok st.ok st.size hx (fun y hy hyx => k1 y hyx) hdata (.inr ⟨hk, hct⟩) hqD hq hw
  exact ⟨a, o, _, b, rfl, i1, i2, i3, i4⟩

end

/-! ### Examples -/

/-- A plain way to write the nodes. -/
def rd0 : Render where
  opening := fun n _ => '<' :: n ++ ['>']
  closing := fun n _ => '<' :: '/' :: n ++ ['>']
  body := fun _ c => c.getD []
  leaf := fun _ _ _ _ c => c.getD []

set_option maxRecDepth 100000 in
example : innerHtml rd0 ext0 demo2 5 = .ok "<p></p><span></span>".toList := by decide

set_option maxRecDepth 100000 in
example : ∃ s, innerHtml rd0 ext0 demo2 5 = .ok s ∧ outerHtml rd0 ext0 demo2 5 = .ok ("<div>".toList ++ s ++ "</div>".toList) :=
  C72_outer (heapOk_finite demo2_ok (by decide)) (by decide)

set_option maxRecDepth 100000 in
example : ∃ inner outer : List (List Char), List.Forall₂ (fun x s => InnerOf rd0 ext0 demo2 x s) [12, 5, 12] inner ∧
    htmlsS rd0 ext0 demo2 [12, 5, 12] = .ok inner.flatten ∧ outerHtmlsS rd0 ext0 demo2 [12, 5, 12] = .ok outer.flatten := by
  obtain ⟨a, b, h1, _, h3, h4, _⟩ := C72_sets (rd := rd0) (e := ext0) (h := demo2) (S := [12, 5, 12]) (by
    intro x hx
    refine ⟨heapOk_finite demo2_ok ?_, .inr ?_⟩ <;> revert x <;> decide)
  exact ⟨a, b, h1, h3, h4⟩

set_option maxRecDepth 100000 in
example : outerHtmlsS rd0 ext0 demo2 (demo2.children 5) = innerHtml rd0 ext0 demo2 5 :=
  C72_children (heapOk_finite demo2_ok (by decide)) (.inr ⟨by decide, by decide⟩) (by decide)

set_option maxRecDepth 100000 in
example : ∃ h1 Y, copyAll copy0 demo2 [1, 12] = (h1, Y) ∧ outerHtmlsS rd0 ext0 h1 Y = outerHtmlsS rd0 ext0 demo2 [1, 12] ∧
    outerHtmlsS rd0 ext0 demo2 [12] = .ok "<i><em></em></i>".toList :=
  ⟨_, _, rfl, (C72_clone (X := [1, 12]) world0_ok demo2_ok (by decide) rfl).2.1, by decide⟩

set_option maxRecDepth 100000 in
theorem frag_out : ∀ m ∈ moved demo2 10, ¬ Within demo2 0 m := by
  intro m hm hw
  have hb : Above demo2 0 m ∨ 0 = m := (within_above demo2_ok id hw).symm
  have hn : demo2.parent 10 = none := by decide
  have hm : demo2.parent m = some 10 := by
    have : m = 11 ∨ m = 12 := by simpa [moved, demo2, heapOf, demoFrag, rootN, Heap.kids] using hm
    rcases this with rfl | rfl <;> decide
  rcases hb with hb | rfl
  · rcases above_cases hb hm with h1 | h1
    · cases h1
    · cases h1 with
      | parent h2 => rw [hn] at h2; cases h2
      | step _ h2 => rw [hn] at h2; cases h2
  · revert hm; decide

set_option maxRecDepth 100000 in
/-- `div(5).append(fragment)`, seen from the document. -/
example : ∃ h' a s r b, demo2.insertAdjacent ext0 .beforeEnd 5 10 = .ok h' ∧ innerHtml rd0 ext0 demo2 5 = .ok s ∧ outerHtml rd0 ext0 demo2 10 = .ok r ∧
    innerHtml rd0 ext0 demo2 0 = .ok (a ++ s ++ b) ∧ innerHtml rd0 ext0 h' 0 = .ok (a ++ (s ++ r) ++ b) :=
  C72_inside_partial (rd := rd0) (e := ext0) demo2_ok (pos := .beforeEnd) (t := 5) (n := 10) (q := 0)
    (noneUsed_eq ▸ usableB_sound (by decide)) (demo2_accepted (by decide)) (.inr rfl) (by decide) (by decide) id
    (.step (p := 1) (.step .self (by decide)) (by decide)) frag_out

set_option maxRecDepth 100000 in
/-- `div(5).before(fragment)`. -/
example : ∃ h' a o r b, demo2.insertAdjacent ext0 .beforeBegin 5 10 = .ok h' ∧ outerHtml rd0 ext0 demo2 5 = .ok o ∧ outerHtml rd0 ext0 demo2 10 = .ok r ∧
    innerHtml rd0 ext0 demo2 0 = .ok (a ++ o ++ b) ∧ innerHtml rd0 ext0 h' 0 = .ok (a ++ (r ++ o) ++ b) :=
  C72_beside_partial (rd := rd0) (e := ext0) demo2_ok (pos := .beforeBegin) (t := 5) (n := 10) (p := 1) (q := 0)
    (noneUsed_eq ▸ usableB_sound (by decide)) (demo2_accepted (by decide)) (.inl rfl) (by decide) (.inr ⟨by decide, by decide⟩) id
    (.step .self (by decide)) frag_out

set_option maxRecDepth 100000 in
/-- `div(5).replace_with(fragment)`. -/
example : ∃ h' T a o r b, replaceAll ext0 [10] demo2 [5] = .ok (h', T) ∧ outerHtml rd0 ext0 demo2 5 = .ok o ∧ outerHtml rd0 ext0 demo2 10 = .ok r ∧
    innerHtml rd0 ext0 demo2 0 = .ok (a ++ o ++ b) ∧ innerHtml rd0 ext0 h' 0 = .ok (a ++ r ++ b) :=
  C72_replace_partial (rd := rd0) (e := ext0) demo2_ok (t := 5) (n := 10) (p := 1) (q := 0) (noneUsed_eq ▸ usableB_sound (by decide))
    (by decide) (.inr ⟨by decide, by decide⟩) (by decide) (by decide) id (.step .self (by decide)) frag_out

set_option maxRecDepth 100000 in
/-- `div(5).remove()`. -/
example : ∃ h' a o b, removeAll demo2 [5] = .ok h' ∧ outerHtml rd0 ext0 demo2 5 = .ok o ∧ outerHtml rd0 ext0 h' 5 = .ok o ∧
    innerHtml rd0 ext0 demo2 0 = .ok (a ++ o ++ b) ∧ innerHtml rd0 ext0 h' 0 = .ok (a ++ b) :=
  have h0 : attachedB demo2 [] 5 = true := by decide
  C72_remove_partial (p := 1) demo2_ok (noneUsed_eq ▸ attachedB_sound h0) (by decide) (by decide) id (.step .self (by decide))

set_option maxRecDepth 100000 in
/-- `div(5).set_html("x")`, and the text that was given is returned. -/
example : ∃ h' a o b, demo2.setHtml ext0 5 ['x'] = .ok h' ∧ innerHtml rd0 ext0 demo2 5 = .ok o ∧ innerHtml rd0 ext0 demo2 0 = .ok (a ++ o ++ b) ∧
    innerHtml rd0 ext0 h' 5 = .ok ['x'] ∧ innerHtml rd0 ext0 h' 0 = .ok (a ++ ['x'] ++ b) := by
  obtain ⟨g, hp⟩ : ∃ g, ext0.parse demo2 ['x'] = .ok (g, 14) := ⟨_, rfl⟩
  obtain ⟨h', a, o, t, b, h1, h2, h3, h4, h5, h6⟩ := C72_set_html_partial (rd := rd0) (x := 5) (q := 0) demo2_ok ext0_parse
    (demo2_usable_html (by decide) (.inl (by decide))) (by decide) (by decide) hp
    (fun m _ => by show ((demo2.node 5).name != "br".toList) = true; decide) id (.step (p := 1) (.step .self (by decide)) (by decide))
  have ht : t = ['x'] := by
    have h7 : innerHtml rd0 ext0 g 14 = .ok ['x'] := by cases hp; decide
    rw [h7, Except.ok.injEq] at h2
    exact h2.symm
  subst ht
  exact ⟨h', a, o, b, h1, h3, h4, h5, h6⟩

set_option maxRecDepth 100000 in
/-- `div(5).set_text("x")`. -/
example : ∃ a o b, innerHtml rd0 ext0 demo2 5 = .ok o ∧ innerHtml rd0 ext0 demo2 0 = .ok (a ++ o ++ b) ∧
    innerHtml rd0 ext0 (demo2.setText ext0 5 ['x']) 5 = .ok ['x'] ∧ innerHtml rd0 ext0 (demo2.setText ext0 5 ['x']) 0 = .ok (a ++ ['x'] ++ b) := by
  obtain ⟨a, o, t, b, rfl, h1, h2, h3, h4⟩ := C72_set_text (rd := rd0) (e := ext0) (x := 5) (q := 0) demo2_ok (by decide) (by decide) (by decide) (by decide) ['x'] id
    (.step (p := 1) (.step .self (by decide)) (by decide))
  exact ⟨a, o, b, h1, h2, h3, h4⟩

set_option maxRecDepth 100000 in
/-- The calls on the fragment do not show in the document. -/
example : innerHtml rd0 ext0 farAfter 0 = innerHtml rd0 ext0 demo2 0 ∧ innerHtml rd0 ext0 farAfter 12 ≠ innerHtml rd0 ext0 demo2 12 := by
  refine ⟨(C72_elsewhere world0_ok demo2_ok (r := 0) (by decide) (by decide) (cs := farCalls) (fun c hc x hx hb => ?_) farRun .self).1, by decide⟩
  have h1 := demo2_far x hb
  have : ∀ c ∈ farCalls, ∀ x ∈ c.given, 10 ≤ x := by
    simp only [farCalls, List.mem_cons, List.not_mem_nil, or_false, forall_eq_or_imp, forall_eq]
    decide
  have := this c hc x hx
  omega

set_option maxRecDepth 100000 in
/-- `div(5)` gets an attribute, its `html` stays; it holds the two elements 6 and 7. -/
example : innerHtml rd0 ext0 linkAfter 5 = innerHtml rd0 ext0 demo2 5 ∧ (linkAfter.node 5).attrs ≠ (demo2.node 5).attrs := by
  have hw : ∀ y, Within demo2 5 y → 5 ≤ y ∧ y < 8 := by
    intro y hy
    induction hy with
    | self => decide
    | @step p c _ hc ih =>
      have : ∀ p, p < 8 → 5 ≤ p → ∀ c ∈ demo2.kids p, 5 ≤ c ∧ c < 8 := by decide
      exact this p ih.2 ih.1 c hc
  have hbl : ∀ y, Below demo2 5 y → 5 < y ∧ y < 8 := by
    rintro y ⟨c, hc, hy⟩
    have h1 := hw y (hy.head hc)
    have h2 : y ≠ 5 := by rintro rfl; exact not_within_parent demo2_ok id hc hy
    omega
  refine ⟨C72_attributes world0_ok.adds (cs := linkCalls) (by decide) linkRun (heapOk_finite demo2_ok (by decide)) (.inr (by decide)) (fun y hy => ?_)
    (fun y hy => ?_), by decide⟩
  · have h1 := hw y hy
    have : ∀ y, y < 8 → 5 ≤ y → ∀ c ∈ linkCalls, y ∉ c.writesText := by decide
    exact this y h1.2 h1.1
  · have h1 := hbl y hy
    have : ∀ y, y < 8 → 5 < y → ∀ c ∈ linkCalls, y ∉ c.writesAttrs := by decide
    exact this y h1.2 h1.1

set_option maxRecDepth 100000 in
/-- C72 does not hold in full: a fragment that has been inserted is still written with the nodes that have left it, which are now written
in two places. -/
theorem C72_fails_used : ∃ h', demo2.insertAdjacent ext0 .beforeEnd 9 10 = .ok h' ∧ innerHtml rd0 ext0 h' 9 = .ok "<b></b><i><em></em></i>".toList ∧
    innerHtml rd0 ext0 h' 10 = .ok "<b></b><i><em></em></i>".toList :=
  ⟨_, rfl, by decide, by decide⟩

end Visdom
