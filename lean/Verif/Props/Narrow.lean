import Verif.Spec.Narrow
import Verif.Props.Same
import Verif.Props.AddExact
import Verif.Props.Mirror
import Verif.Props.EmptyText
/-!
# C97: a selector that asks for more finds no more
-/
namespace Visdom
open Spec Classical
variable {h : Heap} {r : Nat} {env : Env} {rt : Bool}

/-- A word of a text is a part of it. -/
theorem token_part {s w : List Char} {l : List (List Char)} (ht : Tokens s l) (hw : w ∈ l) : ∃ u v, s = u ++ w ++ v := by
  induction ht with
  | blank => cases hw
  | token g t rest l _ _ _ _ ih =>
    rcases List.mem_cons.1 hw with rfl | hw
    · exact ⟨g, rest, rfl⟩
    · obtain ⟨u, v, rfl⟩ := ih hw
      exact ⟨g ++ t ++ u, v, by simp⟩

theorem anySat_mono {s s' : List Complex} (hs : ∀ c ∈ s, c ∈ s') {x : Nat} (hx : anySat h r env s x) : anySat h r env s' x := by
  rw [anySat_iff] at hx ⊢
  obtain ⟨c, hc, h1⟩ := hx
  exact ⟨c, hs c hc, h1⟩

theorem only_type (wf : TreeWF h r) {last : Bool} {x : Nat} (h1 : AtPos h r last false x 1) : AtPos h r last true x 1 := by
  obtain ⟨p, i, hp, hx, hg, hi⟩ := h1
  obtain rfl : i = 0 := by omega
  refine ⟨p, 0, hp, hx, ?_, rfl⟩
  have key : ∀ (l : List Nat) (P Q : Nat → Bool), (∀ y, Q y = true → P y = true) → Q x = true → (l.filter P)[0]? = some x → (l.filter Q)[0]? = some x := by
    intro l P Q hPQ hQ
    induction l with
    | nil => simp
    | cons a l ih =>
      intro hl
      by_cases ha : P a = true
      · rw [List.filter_cons_of_pos ha] at hl
        simp at hl
        subst hl
        rw [List.filter_cons_of_pos hQ]; simp
      · rw [List.filter_cons_of_neg ha] at hl
        rw [List.filter_cons_of_neg fun hq => ha (hPQ a hq)]
        exact ih hl
  have he : h.isElem x = true := by
    have := List.mem_of_getElem? hg
    cases last <;> simp [group] at this <;> exact this.2
  cases last
  · simp only [group, Bool.false_eq_true, if_false] at hg ⊢
    exact key _ _ _ (by simp; tauto) (by simp [he, SameIgnoringCase]) hg
  · simp only [group, if_true] at hg ⊢
    rw [← List.filter_reverse] at hg ⊢
    exact key _ _ _ (by simp; tauto) (by simp [he, SameIgnoringCase]) hg

/-- What asks for more has no further elements. -/
theorem narrow_sat (wf : TreeWF h r) {a b : List Sim} (hab : Narrow a b) :
    ∀ {x : Nat}, Within h r x → h.isElem x = true → cmpdSat h r env a x → cmpdSat h r env b x := by
  induction hab with
  | alike ha => intro x hx he; exact (alike_sat wf ha hx he).1
  | trans _ _ i1 i2 => intro x hx he h1; exact i2 hx he (i1 hx he h1)
  | append _ _ i1 i2 =>
    intro x hx he
    rw [cmpdSat_append, cmpdSat_append]
    exact fun h1 => ⟨i1 hx he h1.1, i2 hx he h1.2⟩
  | more a b => intro x _ _; rw [cmpdSat_append]; exact And.left
  | @test k t v ht =>
    intro x _ _
    rw [cmpdSat_one, cmpdSat_one, Sim.Sat, Sim.Sat, HasAttr]
    unfold AttrTest.Holds
    cases t with
    | differs => exact absurd rfl ht
    | equals => rintro ⟨w, hw, _⟩; rw [hw]; simp
    | startsWith => rintro ⟨_, w, hw, _⟩; rw [hw]; simp
    | endsWith => rintro ⟨_, w, hw, _⟩; rw [hw]; simp
    | contains => rintro ⟨_, w, hw, _⟩; rw [hw]; simp
    | dashMatch => rintro ⟨w, hw, _⟩; rw [hw]; simp
    | hasWord => rintro ⟨_, w, hw, _⟩; rw [hw]; simp
  | equalStart hv =>
    intro x _ _
    rw [cmpdSat_one, cmpdSat_one, Sim.Sat, Sim.Sat]
    rintro ⟨w, hw, he⟩
    exact ⟨hv, w, hw, [], by simp [he]⟩
  | equalEnd hv =>
    intro x _ _
    rw [cmpdSat_one, cmpdSat_one, Sim.Sat, Sim.Sat]
    rintro ⟨w, hw, he⟩
    exact ⟨hv, w, hw, [], by simp [he]⟩
  | equalDash =>
    intro x _ _
    rw [cmpdSat_one, cmpdSat_one, Sim.Sat, Sim.Sat]
    rintro ⟨w, hw, he⟩
    exact ⟨w, hw, .inl he⟩
  | dashStart hv =>
    intro x _ _
    rw [cmpdSat_one, cmpdSat_one, Sim.Sat, Sim.Sat]
    rintro ⟨w, hw, he | ⟨u, he⟩⟩
    · exact ⟨hv, w, hw, [], by simp [he]⟩
    · exact ⟨hv, w, hw, _, he⟩
  | wordIn =>
    intro x _ _
    rw [cmpdSat_one, cmpdSat_one, Sim.Sat, Sim.Sat]
    rintro ⟨hv, w, hw, l, hl, hm⟩
    exact ⟨hv, w, hw, token_part hl hm⟩
  | longStart u hv =>
    intro x _ _
    rw [cmpdSat_one, cmpdSat_one, Sim.Sat, Sim.Sat]
    rintro ⟨_, w, hw, u', he⟩
    exact ⟨hv, w, hw, u ++ u', by simp [he]⟩
  | longEnd u hv =>
    intro x _ _
    rw [cmpdSat_one, cmpdSat_one, Sim.Sat, Sim.Sat]
    rintro ⟨_, w, hw, u', he⟩
    exact ⟨hv, w, hw, u' ++ u, by simp [he]⟩
  | longPart u w hv =>
    intro x _ _
    rw [cmpdSat_one, cmpdSat_one, Sim.Sat, Sim.Sat]
    rintro ⟨_, v', hw, u', w', he⟩
    exact ⟨hv, v', hw, u' ++ u, w ++ w', by simp [he]⟩
  | sparser last ofType a b k j =>
    intro x _ _
    rw [cmpdSat_one, cmpdSat_one, Sim.Sat, Sim.Sat]
    rintro ⟨i, hi, n, hn⟩
    refine ⟨i, hi, k * n + j, ?_⟩
    rw [← hn]
    push_cast
    ring
  | onlyType =>
    intro x _ _
    rw [cmpdSat_one, cmpdSat_one, Sim.Sat, Sim.Sat]
    exact fun h1 => ⟨only_type wf h1.1, only_type wf h1.2⟩
  | inNot _ ih =>
    intro x hx he
    rw [cmpdSat_one, cmpdSat_one, Sim.Sat, Sim.Sat, anySat_cmpd wf hx he, anySat_cmpd wf hx he]
    exact fun h1 h2 => h1 (ih hx he h2)
  | inHas _ ih =>
    intro x hx _
    rw [cmpdSat_one, cmpdSat_one, Sim.Sat, Sim.Sat]
    rintro ⟨e, hb, he, hs⟩
    have hw := hx.trans hb.within
    rw [anySat_cmpd wf hw he] at hs
    exact ⟨e, hb, he, (anySat_cmpd wf hw he).2 (ih hw he hs)⟩
  | hasMore hs =>
    intro x _ _
    rw [cmpdSat_one, cmpdSat_one, Sim.Sat, Sim.Sat]
    rintro ⟨e, hb, he, h1⟩
    exact ⟨e, hb, he, anySat_mono hs h1⟩

/-- The relation of a closer combinator. -/
theorem closer_rel {c c' : Comb} (hc : Closer c c') {y e : Nat} (hr : Rel h r c y e) : Rel h r c' y e := by
  rcases hc with rfl | ⟨rfl, rfl⟩ | ⟨rfl, rfl⟩
  · exact hr
  · exact ⟨e, hr, .self⟩
  · obtain ⟨p, i, j, h1, h2, h3, h4, _⟩ := hr
    exact ⟨p, i, j, h1, h2, h3, h4⟩

theorem rel_below {c : Comb} (hc : c = .childrenAll ∨ c = .children) {y e : Nat} (hr : Rel h r c y e) : Below h y e := by
  rcases hc with rfl | rfl
  · exact hr
  · exact ⟨e, hr, .self⟩

/-- A complex selector that asks for more selects no more, from a smaller set. -/
theorem narrowCx_sel (wf : TreeWF h r) {cx cx' : Complex} (hc : NarrowCx cx cx') : ∀ {A B : Nat → Prop}, (∀ y, A y → Within h r y) →
    (∀ y, A y → B y) → ∀ e, Sel h r A (steps h r env cx) e → Sel h r B (steps h r env cx') e := by
  induction hc with
  | nil => intro A B _ hAB e he; rw [steps] at he ⊢; exact hAB e he
  | @step c c' a b l l' hcc hab _ ih =>
    intro A B hA hAB e he
    rw [steps, step] at he ⊢
    refine ih (A := Img h r A _) (B := Img h r B _) ?_ ?_ e he
    · rintro y ⟨_, _, z, hz, hr⟩
      exact rel_inside (hA z hz) hr
    · rintro y ⟨h1, h2, z, hz, hr⟩
      exact ⟨h1, decide_eq_true (narrow_sat wf hab (rel_inside (hA z hz) hr) h1 (of_decide_eq_true h2)), z, hAB z hz, closer_rel hcc hr⟩
  | @under c a b l m hcc _ ih =>
    intro A B hA hAB e he
    refine ih hA hAB e ?_
    rw [steps, step] at he ⊢
    rw [steps, step] at he
    refine sel_mono (A := Img h r (Img h r A _) _) (B := Img h r A _) ?_ _ he
    rintro y ⟨h1, h2, z, ⟨_, _, w, hw, hr⟩, hr'⟩
    exact ⟨h1, h2, w, hw, (rel_below hcc hr).trans hr'⟩
  | @child c a b l m hcc _ ih =>
    intro A B hA hAB e he
    refine ih hA hAB e ?_
    rw [steps, step] at he ⊢
    rw [steps, step] at he
    refine sel_mono (A := Img h r (Img h r A _) _) (B := Img h r A _) ?_ _ he
    rintro y ⟨h1, h2, z, ⟨_, _, w, hw, hr⟩, hr'⟩
    exact ⟨h1, h2, w, hw, (rel_below hcc hr).trans (rel_below (.inr rfl) hr')⟩
  | @beside c c' a b l m hcc hcc' _ ih =>
    intro A B hA hAB e he
    refine ih hA hAB e ?_
    rw [steps, step] at he ⊢
    rw [steps, step] at he
    refine sel_mono (A := Img h r (Img h r A _) _) (B := Img h r A _) ?_ _ he
    rintro y ⟨h1, h2, z, ⟨_, _, w, hw, hr⟩, hr'⟩
    refine ⟨h1, h2, w, hw, ?_⟩
    have hs : LaterSib h r z y := by
      rcases hcc' with rfl | rfl
      · exact hr'
      · exact closer_rel (.inr (.inr ⟨rfl, rfl⟩)) hr'
    obtain ⟨p, i, j, hp, _, hi, hj⟩ := hs
    have hzp := List.mem_of_getElem? hi
    have hyp := List.mem_of_getElem? hj
    rcases hcc with rfl | rfl
    · obtain ⟨c, hc, hcw⟩ := hr
      rcases within_step hcw with hzc | ⟨q, hq, hqz⟩
      · subst hzc
        have e1 := parent_of_child wf (hA w hw) hc
        rw [parent_of_child wf hp hzp] at e1
        cases e1
        exact ⟨y, hyp, .self⟩
      · have e1 := parent_of_child wf (((hA w hw).step hc).trans hq) hqz
        rw [parent_of_child wf hp hzp] at e1
        cases e1
        exact ⟨c, hc, hq.step hyp⟩
    · have e1 := parent_of_child wf (hA w hw) hr
      rw [parent_of_child wf hp hzp] at e1
      cases e1
      exact hyp

theorem narrow_anySat (wf : TreeWF h r) {sel sel' : List Complex} (hn : ∀ c ∈ sel, ∃ c' ∈ sel', NarrowCx c c') {x : Nat}
    (hx : anySat h r env sel x) : anySat h r env sel' x := by
  rw [anySat_iff] at hx ⊢
  obtain ⟨c, hc, h1⟩ := hx
  obtain ⟨c', hc', h2⟩ := hn c hc
  exact ⟨c', hc', narrowCx_sel wf h2 (by rintro y rfl; exact .self) (fun _ hy => hy) x h1⟩

/-- In document order, fewer members are a part of the list. -/
theorem docSorted_sublist (wf : TreeWF h r) {l m : List Nat} (hl : DocSorted h r l) (hm : DocSorted h r m) (hw : ∀ x ∈ m, Within h r x)
    (hlm : ∀ x ∈ l, x ∈ m) : l.Sublist m := by
  have : l = m.filter (fun x => decide (x ∈ l)) :=
    docSorted_ext hl (List.Pairwise.sublist List.filter_sublist hm) (fun x hx => hw x (hlm x hx))
      (fun x => by simp only [List.mem_filter, decide_eq_true_eq]; exact ⟨fun hx => ⟨hlm x hx, hx⟩, And.right⟩) wf
  rw [this]
  exact List.filter_sublist

section
variable (wf : TreeWF h r) (ev : Metas h r) (sm : Small h r) (gr : Grounded h r env rt) (own : Nat → Bool)
include wf ev sm gr

/-- **C97, find**: a common selector of descendant combinators that asks for at least as much as another one, searched for from a part of a set in document
order, finds a part of what the other one finds from the whole set, in the same order. -/
theorem C97_find {cx cx' : Complex} (hn : NarrowCx cx cx') (hc : Common rt cx) (hst : Steady cx) (hc' : Common rt cx') (hst' : Steady cx')
    (hd : ∀ s ∈ cx, s.1 = Comb.childrenAll) (hd' : ∀ s ∈ cx', s.1 = Comb.childrenAll) {text text' : List Char}
    (ht : SelText [cx] text) (ht' : SelText [cx'] text') {S T : List Nat} (hS : S.Sublist T) (hT : Nodes h r T) (hs : DocSorted h r T) :
    ∃ res res', findText h env own S text = .ok (res, 0) ∧ findText h env own T text' = .ok (res', 0) ∧ res.Sublist res' := by
  have hS' : Nodes h r S := fun y hy => hT y (hS.subset hy)
  obtain ⟨res, h1, h2, _, h4⟩ := C29_find_text_common wf ev sm gr own hc hst hd ht hS' (List.Pairwise.sublist hS hs)
  obtain ⟨res', h1', h2', _, h4'⟩ := C29_find_text_common wf ev sm gr own hc' hst' hd' ht' hT hs
  refine ⟨res, res', h1, h1', docSorted_sublist wf h2 h2' (fun x hx => sel_inside (fun y hy => (hT y hy).1) x ((h4' x).1 hx)) fun x hx => ?_⟩
  exact (h4' x).2 (narrowCx_sel wf hn (fun y hy => (hS' y hy).1) (fun y hy => hS.subset hy) x ((h4 x).1 hx))

/-- **C97, find with any combinators**, from the document. -/
theorem C97_find_root {cx cx' : Complex} (hn : NarrowCx cx cx') (hc : Common rt cx) (hst : Steady cx) (hc' : Common rt cx')
    (hst' : Steady cx') (hcalm : calm .anti cx = true) (hcalm' : calm .anti cx' = true) {text text' : List Char}
    (ht : SelText [cx] text) (ht' : SelText [cx'] text') :
    ∃ res res', findText h env own [r] text = .ok (res, 0) ∧ findText h env own [r] text' = .ok (res', 0) ∧ ∀ e ∈ res, e ∈ res' := by
  obtain ⟨res, h1, h2⟩ := C29_find_root_common wf ev sm gr own hc hst hcalm ht
  obtain ⟨res', h1', h2'⟩ := C29_find_root_common wf ev sm gr own hc' hst' hcalm' ht'
  refine ⟨res, res', h1, h1', fun e he => ?_⟩
  exact (h2' e).2 (narrowCx_sel wf hn (by rintro y rfl; exact .self) (fun _ hy => hy) e ((h2 e).1 he))

/-- **C97, filter, not, is**: `filter` keeps a part of what it keeps with the other selector, `not` keeps the other one's part and more, and what is one is the other. -/
theorem C97_filter {cx cx' : Complex} (hn : NarrowCx cx cx') (hc : CommonTest rt false cx) (hc' : CommonTest rt false cx')
    {text text' : List Char} (ht : SelText [cx] text) (ht' : SelText [cx'] text') {X : List Nat} (hX : Elems h r X) (hq : SibAsc h X) :
    (∃ F F', filterText h env own X text = .ok (F, 0) ∧ filterText h env own X text' = .ok (F', 0) ∧ F.Sublist F') ∧
    (∃ N N', notText h env own X text = .ok (N, 0) ∧ notText h env own X text' = .ok (N', 0) ∧ N'.Sublist N) ∧
    ∃ b b', isText h env own X text = .ok (b, 0) ∧ isText h env own X text' = .ok (b', 0) ∧ (b = true → b' = true) := by
  have hok : innersOk h r env true .sib [cx] := common_alts sm gr [cx] hc .sib (by simp) (by simp)
  have hok' : innersOk h r env true .sib [cx'] := common_alts sm gr [cx'] hc' .sib (by simp) (by simp)
  have hu : UnionOn h r env .sib X [cx] := Or.inl (by simp)
  have hu' : UnionOn h r env .sib X [cx'] := Or.inl (by simp)
  have hsat : ∀ x, anySat h r env [cx] x → anySat h r env [cx'] x := fun x => narrow_anySat wf (by simpa using hn)
  obtain ⟨e1, e2, e3, _, _⟩ := C29_filter_text_partial h env own ht X
  obtain ⟨f1, f2, f3, _, _⟩ := C29_filter_text_partial h env own ht' X
  refine ⟨⟨_, _, by rw [e1, C22_filter_exact_partial wf ev hok hu hX hq]; rfl, by rw [f1, C22_filter_exact_partial wf ev hok' hu' hX hq]; rfl, ?_⟩,
    ⟨_, _, by rw [e2, C23_not_exact_partial wf ev hok hu hX hq]; rfl, by rw [f2, C23_not_exact_partial wf ev hok' hu' hX hq]; rfl, ?_⟩, ?_⟩
  · exact List.monotone_filter_right X fun x => by simpa using hsat x
  · exact List.monotone_filter_right X fun x => by simpa using fun h1 h2 => h1 (hsat x h2)
  · obtain ⟨b, h1, h2⟩ := C23_is_exact_partial wf ev hok hX hq
    obtain ⟨b', h1', h2'⟩ := C23_is_exact_partial wf ev hok' hX hq
    exact ⟨b, b', by rw [e3, h1]; rfl, by rw [f3, h1']; rfl, fun hb => h2'.2 (by obtain ⟨x, hx, hs⟩ := h2.1 hb; exact ⟨x, hx, hsat x hs⟩)⟩

/-- **C97, has**, for lists: every alternative of the one asks for at least as much as some alternative of the other. -/
theorem C97_has {sel sel' : List Complex} (hn : ∀ c ∈ sel, ∃ c' ∈ sel', NarrowCx c c') (hc : altsCommon rt true sel = true)
    (hc' : altsCommon rt true sel' = true) {text text' : List Char} (ht : SelText sel text) (ht' : SelText sel' text') {X : List Nat}
    (hX : ∀ x ∈ X, Within h r x) :
    ∃ F F', hasText h env own X text = .ok (F, 0) ∧ hasText h env own X text' = .ok (F', 0) ∧ F.Sublist F' := by
  have g := C24_has_exact_partial wf ev (common_alts sm gr sel hc .doc (by simp) fun _ => rfl) hX
  have g' := C24_has_exact_partial wf ev (common_alts sm gr sel' hc' .doc (by simp) fun _ => rfl) hX
  refine ⟨_, _, by rw [(C29_filter_text_partial h env own ht X).2.2.2.2, g]; rfl, by rw [(C29_filter_text_partial h env own ht' X).2.2.2.2, g']; rfl, ?_⟩
  refine List.monotone_filter_right X fun x => ?_
  simp only [decide_eq_true_eq]
  rintro ⟨e, h1, h2, h3⟩
  exact ⟨e, h1, h2, narrow_anySat wf hn h3⟩

/-- **C97, a selector that asks for more behind the other one**: the list finds what the other one finds. -/
theorem C97_list_behind {a b : Complex} (hn : NarrowCx a b) (ha : Common rt a ∧ Steady a ∧ ∀ s ∈ a, s.1 = Comb.childrenAll)
    (hb : Common rt b ∧ Steady b ∧ ∀ s ∈ b, s.1 = Comb.childrenAll) {tb tba : List Char} (htb : SelText [b] tb) (htba : SelText [b, a] tba)
    {S : List Nat} (hS : Nodes h r S) (hs : DocSorted h r S) :
    ∃ B, findText h env own S tb = .ok (B, 0) ∧ findText h env own S tba = .ok (B, 0) := by
  obtain ⟨A, hA, a1, _, a2⟩ := C18_find_common wf ev sm gr ha.1 ha.2.1 ha.2.2 hS hs
  obtain ⟨B, hB, b1, _, b2⟩ := C18_find_common wf ev sm gr hb.1 hb.2.1 hb.2.2 hS hs
  refine ⟨B, by rw [C29_find_text_partial h env own htb, hB]; rfl, ?_⟩
  rw [C29_find_text_partial h env own htba]
  by_cases hne : S = []
  · subst hne
    rw [find_nil] at hB ⊢
    rw [hB]; rfl
  have sub : ∀ x ∈ A, x ∈ B := fun x hx => (b2 x).2 (narrowCx_sel wf hn (fun y hy => (hS y hy).1) (fun _ hy => hy) x ((a2 x).1 hx))
  have wB : ∀ x ∈ B, Within h r x := fun x hx => sel_inside (fun y hy => (hS y hy).1) x ((b2 x).1 hx)
  rw [find_two hne hB hA]
  obtain ⟨l, h1, h2, _, h3⟩ := C15_add_union_partial wf wB (fun x hx => wB x (sub x hx)) b1 a1 fun e he _ s hsA hbe => by
    have hsB := sub s hsA
    obtain ⟨B', rfl⟩ : ∃ B', B = B' ++ [e] := by
      obtain ⟨B', h4⟩ := List.getLast?_eq_some_iff.1 he
      exact ⟨B', h4⟩
    rcases List.mem_append.1 hsB with h4 | h4
    · exact before_asymm wf (wB e (by simp)) (wB s hsB) hbe ((List.pairwise_append.1 b1).2.2 s h4 e (by simp))
    · simp at h4
      subst h4
      exact before_irrefl wf (wB s (by simp)) hbe
  have : l = B := docSorted_ext h2 b1 (fun x hx => wB x (((h3 x).1 hx).elim id (sub x))) (fun x => by rw [h3]; exact ⟨fun hx => hx.elim id (sub x), .inl⟩) wf
  rw [h1, this]; rfl

/-- **C97 does not hold for lists**: with a selector that asks for more in front, `find("a, b")` finds of what `find("b")` finds exactly the part up to the last
element that `find("a")` finds, for all selectors, sets and trees; so everything behind it is lost. -/
theorem C97_list_before {a b : Complex} (hn : NarrowCx a b) (ha : Common rt a ∧ Steady a ∧ ∀ s ∈ a, s.1 = Comb.childrenAll)
    (hb : Common rt b ∧ Steady b ∧ ∀ s ∈ b, s.1 = Comb.childrenAll) {ta tb tab : List Char} (hta : SelText [a] ta) (htb : SelText [b] tb)
    (htab : SelText [a, b] tab) {S : List Nat} (hS : Nodes h r S) (hs : DocSorted h r S) :
    ∃ A B, findText h env own S ta = .ok (A, 0) ∧ findText h env own S tb = .ok (B, 0) ∧
      findText h env own S tab = .ok (B.filter (fun x => decide (∀ e, A.getLast? = some e → ¬ Before h r e x)), 0) := by
  obtain ⟨A, hA, a1, _, a2⟩ := C18_find_common wf ev sm gr ha.1 ha.2.1 ha.2.2 hS hs
  obtain ⟨B, hB, b1, _, b2⟩ := C18_find_common wf ev sm gr hb.1 hb.2.1 hb.2.2 hS hs
  refine ⟨A, B, by rw [C29_find_text_partial h env own hta, hA]; rfl, by rw [C29_find_text_partial h env own htb, hB]; rfl, ?_⟩
  rw [C29_find_text_partial h env own htab]
  by_cases hne : S = []
  · subst hne
    rw [find_nil] at hB ⊢
    cases hB; rfl
  have sub : ∀ x ∈ A, x ∈ B := fun x hx => (b2 x).2 (narrowCx_sel wf hn (fun y hy => (hS y hy).1) (fun _ hy => hy) x ((a2 x).1 hx))
  have wB : ∀ x ∈ B, Within h r x := fun x hx => sel_inside (fun y hy => (hS y hy).1) x ((b2 x).1 hx)
  have wA : ∀ x ∈ A, Within h r x := fun x hx => wB x (sub x hx)
  rw [find_two hne hA hB]
  obtain ⟨l, h1, _, h2⟩ := C15_add_total h A B
  have hlen : A.length ≤ B.length := (docSorted_sublist wf a1 b1 wB sub).length_le
  have hl := C15_add_sorted_long wf wA wB a1 b1 hlen h1
  have : l = B.filter (fun x => decide (∀ e, A.getLast? = some e → ¬ Before h r e x)) := by
    refine docSorted_ext hl (List.Pairwise.sublist List.filter_sublist b1) (fun x hx => (h2 x hx).elim (wA x) (wB x)) (fun x => ?_) wf
    simp only [List.mem_filter, decide_eq_true_eq]
    constructor
    · intro hx
      have hxB : x ∈ B := (h2 x hx).elim (sub x) id
      exact ⟨hxB, fun e he hbe => C15_lost_exact wf wA wB a1 b1 h1 sub he hxB hbe hx⟩
    · rintro ⟨hxB, hx⟩
      by_contra hxl
      obtain ⟨e, he, _, hbe⟩ := C15_add_loses_only_tail wf wA wB a1 b1 h1 hxB hxl
      exact hx e he hbe
  rw [h1, this]; rfl

end

/-- `div p:first-child` asks for more than `*`, and finds less. -/
example : NarrowCx [(.childrenAll, [ty "div"]), (.childrenAll, [ty "p", .edge false false])] [(.childrenAll, [.all])] ∧
    findText demo env0 (fun _ => true) [0] "div p:first-child".toList = .ok ([2, 6], 0) ∧
    findText demo env0 (fun _ => true) [0] "*".toList = .ok ([1, 2, 5, 6, 7, 8, 9], 0) :=
  ⟨.under (.inl rfl) (.step (.inl rfl) ((Narrow.more [] _).trans (.alike (.symm .star))) .nil), by decide, by decide⟩

/-- The hypotheses of `C97_list_before` for `div, *` in the sample document. -/
example : ∃ A B, findText demo env0 (fun _ => true) [0] "div".toList = .ok (A, 0) ∧ findText demo env0 (fun _ => true) [0] "*".toList = .ok (B, 0) ∧
    findText demo env0 (fun _ => true) [0] "div,*".toList =
      .ok (B.filter (fun x => decide (∀ e, A.getLast? = some e → ¬ Before demo 0 e x)), 0) := by
  have n1 : IdText "div".toList "div".toList := by
    rw [show "div".toList = ['d', 'i', 'v'] from by decide]
    exact idText_plain (by simp [NameStart]) (by simp [NameChar, NameStart])
  have t1 : SimText (fun _ _ => False) (ty "div") "div".toList := .name n1
  have c1 : SelText [[(.childrenAll, [ty "div"])]] "div".toList := selText_cmpd (.one t1)
  have c2 : SelText [[(.childrenAll, [.all])]] "*".toList := selText_cmpd (.one .all)
  have c3 : SelText [[(.childrenAll, [ty "div"])], [(.childrenAll, [.all])]] "div,*".toList :=
    ⟨0, [], _, [], .mk .desc (.one t1) .nil (.cons blank_nil blank_nil (.one .all) .nil .nil), blank_nil, blank_nil, by decide⟩
  have k1 : Common false [(.childrenAll, [ty "div"])] := ⟨by simp, by simp [Comb.down, Sim.common, Sim.isId, ty]⟩
  have k2 : Common false [(.childrenAll, [.all])] := ⟨by simp, by simp [Comb.down, Sim.common, Sim.isId]⟩
  exact C97_list_before demo_wf demo_metas0 demo_small (by simp [Grounded]) (fun _ => true)
    (.step (.inl rfl) ((Narrow.more [] _).trans (.alike (.symm .star))) .nil)
    ⟨k1, by intro s hs; simp at hs; subst hs; exact Or.inr (by simp [Sim.shaky, ty]), by simp⟩
    ⟨k2, by intro s hs; simp at hs; subst hs; exact Or.inr (by simp [Sim.shaky]), by simp⟩ c1 c2 c3
    (by intro x hx; simp at hx; subst hx; exact ⟨.self, by decide⟩) (List.pairwise_singleton _ _)

/-- Where C97 fails: with a further alternative in front a list finds less. -/
theorem C97_fails_list : findText demo env0 (fun _ => true) [0] "*".toList = .ok ([1, 2, 5, 6, 7, 8, 9], 0) ∧
    findText demo env0 (fun _ => true) [0] "div, *".toList = .ok ([1, 2, 5], 0) := ⟨by decide, by decide⟩

end Visdom
