import Verif.Props.Html
import Verif.Props.InsertMany
import Verif.Props.Replace
import Verif.Props.RemoveExact
/-!
# C35, C36, C37, C40, C41: exactly when the calls do what is asked
-/
namespace Visdom
open Spec

section
variable {h : Heap} {D : Nat → Prop} {e : Ext}

/-- C35: after an accepted `append` or `prepend` of `n` at `t`, a node that was moved is in some list of children exactly if the tag rules
let it stand inside `t`. -/
theorem C35_inside_lost (ok : HeapOk h D) {pos : InsertPosition} {t n : Nat} (u : Usable e h D (.insert pos t n)) (ha : Accepted e h t n)
    (hpos : pos = .afterBegin ∨ pos = .beforeEnd) : ∃ h', h.insertAdjacent e pos t n = .ok h' ∧
      ∀ m ∈ moved h n, (∃ q, ¬ Used e h D q (.insert pos t n) ∧ m ∈ h'.kids q) ↔ e.allow (h.tagNames t) m = true := by
  obtain ⟨h', h1, h2, h3, -⟩ := insert_inside ok u ha hpos
  have htD : ¬ Used e h D t (.insert pos t n) := by
    rintro (h4 | ⟨rfl, h4, -⟩)
    · have := (ok.dead t h4).1; rw [ha.1] at this; cases this
    · exact ha.2.2.1 rfl
  refine ⟨h', h1, fun m hm => ⟨?_, fun hal => ⟨t, htD, ?_⟩⟩⟩
  · rintro ⟨q, hq, hmq⟩
    by_cases hqt : q = t
    · subst hqt
      rw [h2] at hmq
      split at hmq <;> rcases List.mem_append.1 hmq with h4 | h4 <;> simp_all
    · have hDq : ¬ D q := fun h4 => hq (.inl h4)
      have hqn : q ≠ n ∨ (h.node n).kind ≠ .root := by
        by_contra hc
        push Not at hc
        exact hq (.inr ⟨hc.1, hc.2, ha⟩)
      rw [h3 q hDq hqt hqn] at hmq
      simp [hm] at hmq
  · rw [h2]; split <;> simp [hm, hal]

/-- C35: after an accepted `before` or `after` at a target without parent every moved node is lost: it is in no list of children. -/
theorem C35_beside_lost (ok : HeapOk h D) {pos : InsertPosition} {t n : Nat} (u : Usable e h D (.insert pos t n)) (ha : Accepted e h t n)
    (hpos : pos = .beforeBegin ∨ pos = .afterEnd) (hpar : h.parent t = none) : ∃ h', h.insertAdjacent e pos t n = .ok h' ∧
      ∀ m ∈ moved h n, ∀ q, ¬ Used e h D q (.insert pos t n) → m ∉ h'.kids q := by
  obtain ⟨ht, hn, hDn, hbn, hbt⟩ := u
  obtain ⟨h1, N, k1, rfl, k3, k4, k5, k6, k7, k8, k9, k10, k11, k12, k13⟩ := takeNodes_step (e := e) ok hn hDn hbn ha.2.1
  have hin : ¬ (pos = .afterBegin ∨ pos = .beforeEnd) := by rcases hpos with rfl | rfl <;> simp
  have hp1 : ∀ (i : Nat) (l : List Nat), (h1.resetIndex i l).parent t = none := fun i l => by
    rw [(resetIndex_fields l h1 i).2.2.1, k6, hpar]
  have hlost : ∀ m ∈ moved h n, ∀ q, ¬ Used e h D q (.insert pos t n) → m ∉ h1.kids q := by
    intro m hm q hq
    refine k8 m hm q fun h2 => hq ?_
    rcases h2 with h2 | ⟨rfl, h2⟩
    · exact .inl h2
    · exact .inr ⟨rfl, h2, ha⟩
  unfold Heap.insertAdjacent
  rw [(Accepted.validate (e := e) ok).1 ha]
  simp only [k1]
  unfold Heap.placeNodes
  simp only [hin, if_false]
  split
  · exact ⟨h1, rfl, hlost⟩
  · unfold Heap.insertBeside
    simp only [hp1]
    refine ⟨_, rfl, fun m hm q hq => ?_⟩
    simp only [Heap.kids, (resetIndex_fields _ h1 _).2.1 q]
    exact hlost m hm q hq

/-- C35: an accepted insertion keeps all nodes it moves in the document if and only if the tag rules accept them inside the target
(`append`, `prepend`), or the target has a parent (`before`, `after`). -/
theorem C35_exact_partial (ok : HeapOk h D) {pos : InsertPosition} {t n : Nat} (u : Usable e h D (.insert pos t n)) (ha : Accepted e h t n) :
    (∃ h', h.insertAdjacent e pos t n = .ok h' ∧ ∀ m ∈ moved h n, ∃ q, ¬ Used e h D q (.insert pos t n) ∧ m ∈ h'.kids q) ↔
      if pos = .afterBegin ∨ pos = .beforeEnd then ∀ m ∈ moved h n, e.allow (h.tagNames t) m = true
      else moved h n = [] ∨ h.parent t ≠ none := by
  split
  · rename_i hpos
    obtain ⟨h', h1, h2⟩ := C35_inside_lost ok u ha hpos
    constructor
    · rintro ⟨h'', h3, h4⟩ m hm
      rw [h1] at h3; cases h3
      exact (h2 m hm).1 (h4 m hm)
    · exact fun hal => ⟨h', h1, fun m hm => (h2 m hm).2 (hal m hm)⟩
  · rename_i hin
    have hpos : pos = .beforeBegin ∨ pos = .afterEnd := by cases pos <;> simp_all
    cases hpar : h.parent t with
    | none =>
      obtain ⟨h', h1, h2⟩ := C35_beside_lost ok u ha hpos hpar
      constructor
      · rintro ⟨h'', h3, h4⟩
        rw [h1] at h3; cases h3
        left
        cases hm : moved h n with
        | nil => rfl
        | cons m l =>
          have hm' : m ∈ moved h n := by rw [hm]; simp
          obtain ⟨q, h5, h6⟩ := h4 m hm'
          exact absurd h6 (h2 m hm' q h5)
      · rintro (hm | hm)
        · exact ⟨h', h1, by rw [hm]; simp⟩
        · exact absurd rfl hm
    | some p =>
      obtain ⟨h', A, B, h1, h2, h3, -⟩ := insert_beside ok u ha hin hpar
      refine ⟨fun _ => .inr (by simp), fun _ => ⟨h', h1, fun m hm => ⟨p, ?_, ?_⟩⟩⟩
      · rintro (h4 | ⟨rfl, -, -⟩)
        · exact (u.1 p hpar).1 h4
        · exact ha.2.2.2 (.parent hpar)
      · rw [h3]; split <;> simp [hm]

/-- `append` or `prepend` of a fragment, used before or not: nothing is taken from any list. -/
theorem fragment_inside {h' : Heap} {pos : InsertPosition} {t n : Nat} (hf : h.isFragment e n = true) (hv : h.validate e t n = .ok true)
    (hpos : pos = .afterBegin ∨ pos = .beforeEnd) (he : h.insertAdjacent e pos t n = .ok h') :
    (∀ q, q ≠ t → h'.kids q = h.kids q) ∧ ∀ m ∈ h.kids n, e.allow (h.tagNames t) m = true → m ∈ h'.kids t := by
  unfold Heap.insertAdjacent at he
  simp only [hv, Heap.takeNodes, hf, if_true] at he
  unfold Heap.placeNodes at he
  obtain ⟨b, hb⟩ := removeNotAllowed_eq (e.allow (h.tagNames t)) (h.kids n)
  simp only [hpos, if_true, hb, Except.map] at he
  split at he
  · rename_i hne
    cases he
    refine ⟨fun _ _ => rfl, fun m hm hal => ?_⟩
    have : m ∈ (h.kids n).filter (e.allow (h.tagNames t)) := List.mem_filter.2 ⟨hm, hal⟩
    rw [List.isEmpty_iff.1 hne] at this
    cases this
  · unfold Heap.insertInside at he
    have hc : ∀ q, ((h.setParent t ((h.kids n).filter (e.allow (h.tagNames t)))).node q).childs = (h.node q).childs := (setParent_fields ..).2.1
    have key : ∀ (g : Heap) (l : List Nat), (∀ q, (g.node q).childs = (h.node q).childs) →
        (∀ m ∈ (h.kids n).filter (e.allow (h.tagNames t)), m ∈ l) →
        (∀ q, q ≠ t → (g.setChilds t (some l)).kids q = h.kids q) ∧
          ∀ m ∈ h.kids n, e.allow (h.tagNames t) m = true → m ∈ (g.setChilds t (some l)).kids t := by
      intro g l hg hl
      refine ⟨fun q hq => ?_, fun m hm hal => ?_⟩
      · rw [setChilds_kids, if_neg hq]; simp only [Heap.kids, hg]
      · rw [setChilds_kids, if_pos rfl]; exact hl m (List.mem_filter.2 ⟨hm, hal⟩)
    dsimp only at he
    split at he
    · split at he
      · cases he
      split at he
      · cases he
        exact key _ _ (fun q => by rw [(resetIndex_fields ..).2.1, hc]) fun m hm => List.mem_append.2 (.inr hm)
      split at he
      · cases he
      · cases he
        exact key _ _ (fun q => by rw [(resetIndex_fields ..).2.1, (resetIndex_fields ..).2.1, hc]) fun m hm => List.mem_append.2 (.inl hm)
    · cases he
      exact key _ _ (fun q => by rw [(resetIndex_fields ..).2.1, hc]) fun m hm => hm

/-- C38: a fragment that is appended or prepended to two different elements has its nodes in both lists afterwards (those that the tag rules
let in), whenever the second call answers. -/
theorem C38_fragment_twice (ok : HeapOk h D) {h' h'' : Heap} {pos pos' : InsertPosition} {t t' n : Nat} (u : Usable e h D (.insert pos t n))
    (hk : (h.node n).kind = .root) (ha : Accepted e h t n) (hpos : pos = .afterBegin ∨ pos = .beforeEnd)
    (he : h.insertAdjacent e pos t n = .ok h') (htt : t ≠ t') (ha' : Accepted e h' t' n) (hpos' : pos' = .afterBegin ∨ pos' = .beforeEnd)
    (he' : h'.insertAdjacent e pos' t' n = .ok h'') :
    ∀ m ∈ h.kids n, e.allow (h.tagNames t) m = true → e.allow (h.tagNames t') m = true → m ∈ h''.kids t ∧ m ∈ h''.kids t' := by
  obtain ⟨h1, st⟩ := insert_step ok u
  have : h1 = h' := by
    have := st.run
    simp only [Op.run, he, Except.ok.injEq] at this
    exact this.symm
  subst this
  obtain ⟨h2, r1, -, -, -, hd⟩ := insert_inside ok u ha hpos
  rw [he] at r1
  cases r1
  have frag : ∀ {g : Heap}, (g.node n).kind = .root → ¬ IsDoc e g n → g.isFragment e n = true := by
    intro g hg hd
    unfold Heap.isFragment Heap.isRoot
    cases hi : e.isDoc g n with
    | true => exact absurd ⟨hg, hi⟩ hd
    | false => simp [hg]
  have hk1 : (h1.node n).kind = .root := by rw [(hd n).1, hk]
  obtain ⟨a1, a2⟩ := fragment_inside (frag hk ha.2.1) ((Accepted.validate ok).1 ha) hpos he
  obtain ⟨b1, b2⟩ := fragment_inside (frag hk1 ha'.2.1) ((Accepted.validate st.ok).1 ha') hpos' he'
  have hn : h1.kids n = h.kids n := a1 n (fun hc => ha.2.2.1 hc.symm)
  have htag : h1.tagNames t' = h.tagNames t' := by
    unfold Heap.tagNames Heap.isElem; rw [(hd t').1, (hd t').2.1]
  intro m hm hal hal'
  rw [b1 t htt]
  exact ⟨a2 m hm hal, b2 m (by rw [hn]; exact hm) (by rw [htag]; exact hal')⟩

theorem reverse_eq_self {α : Type} {l : List α} (hn : l.Nodup) (hr : l.reverse = l) : l.length ≤ 1 := by
  by_contra hl
  have h0 : l.reverse[0]? = l[l.length - 1]? := by rw [List.getElem?_reverse (by omega)]; rfl
  rw [hr, List.getElem?_eq_getElem (by omega), List.getElem?_eq_getElem (by omega)] at h0
  have := (List.Nodup.getElem_inj_iff hn).1 (Option.some.inj h0)
  omega

/-- C36: `append` of different elements puts them at the end in their order if and only if there is at most one. -/
theorem C36_append_exact_partial (ok : HeapOk h D) {t : Nat} {dest : List Nat} (i : Insertable e h D t dest)
    (hal : ∀ n ∈ dest, e.allow (h.tagNames t) n = true) :
    (∃ h', insertAll e .beforeEnd dest h [t] = .ok h' ∧ h'.kids t = (h.kids t).filter (· ∉ dest) ++ dest) ↔ dest.length ≤ 1 := by
  obtain ⟨h', h1, h2, -⟩ := C36_append_reversed ok i hal
  constructor
  · rintro ⟨h'', h3, h4⟩
    rw [h1] at h3; cases h3
    rw [h2] at h4
    exact reverse_eq_self i.nodup (List.append_cancel_left h4)
  · intro hl
    refine ⟨h', h1, h2.trans ?_⟩
    match dest, hl with
    | [], _ => rfl
    | [_], _ => rfl

/-- C36: `before` of different elements puts them immediately before the target in their order if and only if there is at most one. -/
theorem C36_before_exact_partial (ok : HeapOk h D) {t p : Nat} {dest : List Nat} (i : Insertable e h D t dest) (hp : h.parent t = some p) :
    (∃ h' A B, insertAll e .beforeBegin dest h [t] = .ok h' ∧ (h.kids p).filter (· ∉ dest) = A ++ t :: B ∧ h'.kids p = A ++ (dest ++ t :: B)) ↔
      dest.length ≤ 1 := by
  obtain ⟨h', A, B, h1, h2, h3, -⟩ := C36_before_reversed ok i hp
  constructor
  · rintro ⟨h'', A', B', h4, h5, h6⟩
    rw [h1] at h4; cases h4
    rw [h3] at h6
    have hnd : (A ++ t :: B).Nodup := by rw [← h2]; exact (ok.kids_nodup (i.target.1 p hp).1).filter _
    have hAA : A = A' := by
      rw [h2] at h5
      have h7 : t ∉ A := fun h8 => (List.nodup_append.1 hnd).2.2 t h8 t (by simp) rfl
      rw [h5] at hnd
      have h8 : t ∉ A' := fun h8 => (List.nodup_append.1 hnd).2.2 t h8 t (by simp) rfl
      have := congrArg (List.idxOf t) h5
      rw [List.idxOf_append_of_notMem h7, List.idxOf_append_of_notMem h8] at this
      simp only [List.idxOf_cons_self, Nat.add_zero] at this
      exact (List.append_inj h5 this).1
    subst hAA
    have h7 := List.append_cancel_left h6
    have h8 := (List.append_inj h7 (by simp)).1
    exact reverse_eq_self i.nodup h8
  · intro hl
    refine ⟨h', A, B, h1, h2, h3.trans ?_⟩
    match dest, hl with
    | [], _ => rfl
    | [_], _ => rfl

theorem above_of_moved {h' : Heap} {n p : Nat} (hpar : ∀ y, h'.parent y = if y = n then some p else h.parent y) {x : Nat} (hx : Above h n x)
    (hn : x ≠ n) : Above h' n x := by
  induction hx with
  | parent h1 => exact .parent (by rw [hpar, if_neg hn]; exact h1)
  | @step q y _ h1 ih =>
    have h2 : h'.parent y = some q := by rw [hpar, if_neg hn]; exact h1
    by_cases hq : q = n
    · subst hq; exact .parent h2
    · exact .step (ih hq) h2

/-- C37: `replace_with` of an element in place by an element or text in place answers and leaves no cycle if and only if the new node is
neither the element itself nor above it. -/
theorem C37_replace_exact_partial (ok : HeapOk h D) {t n p : Nat} (ht : Attached h D t) (hp : h.parent t = some p) (hn : Attached h D n)
    (hb : n < h.size) (hk : (h.node n).kind ≠ .root) :
    (∃ h' r, h.replaceWith e t n = .ok (h', r) ∧ ∀ x, ¬ Above h' x x) ↔ t ≠ n ∧ ¬ Above h n t := by
  have hDn : ¬ D n := fun hD => hk (ok.dead n hD).1
  have hdoc : ¬ IsDoc e h n := fun hd => hk hd.1
  have hm : moved h n = [n] := if_neg hk
  constructor
  · rintro ⟨h', r, he, hac⟩
    obtain ⟨h1, hd⟩ : ∃ h1, h.detach n = .ok h1 := by
      cases hpn : h.parent n with
      | none => exact ⟨h, detach_none hpn⟩
      | some q => exact ⟨_, (detach_spliced ok hpn hn).choose_spec.1⟩
    have hf : h.isFragment e n = false := by
      unfold Heap.isFragment Heap.isRoot
      simp [hk]
    have tk : h.takeNodes e n = .ok (h1, [n]) := by
      unfold Heap.takeNodes
      rw [hf, hd]; rfl
    have o := detach_takesOne hd
    have hc : (h1.node p).childs ≠ none := o.list p fun h2 => by
      have := (ht p hp).2
      simp [Heap.kids, h2] at this
    obtain ⟨cs, hc⟩ := Option.ne_none_iff_exists'.1 hc
    unfold Heap.replaceWith at he
    simp only [tk, hf, List.isEmpty_cons, Bool.false_eq_true, if_false, o.parent, hp, hc] at he
    by_cases c1 : t = p
    · simp only [if_pos c1, Except.map] at he; cases he
    by_cases hb1 : t ∈ [n] ∨ p ∈ [n]
    · simp only [if_neg c1, if_pos hb1, Except.map] at he; cases he
    by_cases c2 : h1.index t < cs.length ∧ (t ∈ List.drop (h1.index t + 1) cs ∨ p ∈ List.drop (h1.index t + 1) cs)
    · simp only [if_neg c1, if_neg hb1, if_pos c2, Except.map] at he; cases he
    by_cases c3 : cs.length < h1.index t + 1
    · simp only [if_neg c1, if_neg hb1, if_neg c2, if_pos c3, Except.map] at he; cases he
    simp only [if_neg c1, if_neg hb1, if_neg c2, if_neg c3] at he
    simp only [List.mem_singleton, not_or] at hb1
    simp only [Except.map, Except.ok.injEq, Prod.mk.injEq] at he
    obtain ⟨rfl, -⟩ := he
    refine ⟨hb1.1, fun hab => ?_⟩
    have hpar : ∀ y, (((((h1.resetIndex (h1.index t) [n]).resetIndex (h1.index t + [n].length) (cs.drop (h1.index t + 1))).setParent p [n]).setChilds p
        (some (cs.take (h1.index t) ++ [n] ++ cs.drop (h1.index t + 1))))).parent y = if y = n then some p else h.parent y := by
      intro y
      rw [setChilds_parent, (setParent_fields ..).2.2.1]
      simp only [List.mem_singleton]
      rw [(resetIndex_fields ..).2.2.1, (resetIndex_fields ..).2.2.1, o.parent]
    refine hac n (.step (p := p) (above_of_moved hpar ?_ hb1.2) (by rw [hpar, if_pos rfl]))
    cases hab with
    | parent h2 => rw [hp] at h2; cases h2; exact absurd rfl hb1.2
    | step h2 h3 => rw [hp] at h3; cases h3; exact h2
  · rintro ⟨htn, hab⟩
    have u : Usable e h D (.replace t n) := ⟨ht, hn, hDn, hb, hdoc, htn, hab⟩
    obtain ⟨h', A, B, r1, -⟩ := replace_one ok u hp (by simp [hm])
    obtain ⟨h6, st⟩ := replace_step ok u
    have : h6 = h' := by
      have := st.run
      simp only [Op.run, r1, Except.map, Except.ok.injEq] at this
      exact this.symm
    subst this
    exact ⟨h6, _, r1, fun x => st.ok.not_above_self x⟩

/-- C40: after `set_text(s)` on a text node its text is `s` if and only if decoding leaves `s` as it is, or `s` is empty and the text was so
before. -/
theorem C40_text_exact_partial {x : Nat} (hk : (h.node x).kind = .text ∨ (h.node x).kind = .spaces) (dec : List Char → List Char) (s : List Char) :
    TextOf dec (h.setText e x s) x s ↔ if s = [] then dec ((h.node x).content.getD []) = [] else dec s = s := by
  have hkt : ∀ {g : Heap} {u : List Char}, (g.node x).kind = .text ∨ (g.node x).kind = .spaces →
      (TextOf dec g x u ↔ dec ((g.node x).content.getD []) = u) := by
    intro g u hg
    constructor
    · intro h1
      cases h1 with
      | text _ => rfl
      | elem h2 _ => rcases hg with hg | hg <;> rw [hg] at h2 <;> cases h2
    · rintro rfl; exact .text hg
  split
  · rename_i hs
    subst hs
    have : h.setText e x [] = h := by
      unfold Heap.setText
      rcases hk with hk | hk <;> rw [hk] <;> rfl
    rw [this, hkt hk]
  · rename_i hs
    have r := C40_text_partial (e := e) (by rcases hk with hk | hk <;> simp [hk]) hs (h := h) (x := x)
    have hkind : ((h.setText e x s).node x).kind = (h.node x).kind := by
      unfold Heap.setText
      rcases hk with hk | hk <;> rw [hk] <;> simp [hs, upd_node, hk]
    rw [hkt (by rw [hkind]; exact hk), r.content, Option.getD_some]

/-- C41: on a text node in an element `set_html` replaces exactly that node if and only if the parser answers with a list of nodes, or the
text is the only child. -/
theorem C41_text_exact_partial (ok : HeapOk h D) (P : ParseOk e) {x t r : Nat} {s : List Char} {h1 : Heap} (u : Usable e h D (.setHtml x s))
    (hk : (h.node x).kind = .text ∨ (h.node x).kind = .spaces) (hpar : h.parent x = some t)
    (hct : e.contentTag (h.node t).name = false) (hp : e.parse h s = .ok (h1, r)) :
    (∃ h' A B, h.setHtml e x s = .ok h' ∧ h.kids t = A ++ x :: B ∧ h'.kids t = A ++ (h1.kids r).filter (e.allow (h.node t).name) ++ B) ↔
      (h1.node r).childs ≠ none ∨ h.kids t = [x] := by
  by_cases hl : (h1.node r).childs = none
  · have hkt : (h.node x).kind ≠ .tag := by rcases hk with hk | hk <;> rw [hk] <;> simp
    have htk := u.2.2.2 t hpar hkt
    have he : h.setHtml e x s = .ok (h1.setChilds t none) := by
      have htg : h.htmlTarget x = some t := by
        unfold Heap.htmlTarget
        rcases hk with hk | hk <;> rw [hk] <;> exact hpar
      unfold Heap.setHtml
      simp [htg, Heap.isElem, htk, hct, hp, hl]
    have hr : h1.kids r = [] := by unfold Heap.kids; rw [hl]; rfl
    rw [he]
    simp only [hl, ne_eq, not_true, false_or, hr, List.filter_nil, List.append_nil]
    constructor
    · rintro ⟨h', A, B, h2, h3, h4⟩
      cases h2
      rw [setChilds_kids, if_pos rfl] at h4
      have h4 : A = [] ∧ B = [] := by simpa using h4.symm
      rw [h3, h4.1, h4.2]; rfl
    · intro h2
      exact ⟨_, [], [], rfl, h2, by simp [setChilds_kids]⟩
  · obtain ⟨h', A, B, h2, h3, h4, -⟩ := C41_text_partial ok P u hk hpar hct hp hl
    exact ⟨fun _ => .inl hl, fun _ => ⟨h', A, B, h2, h3, h4.list⟩⟩

/-- C41: on a text node whose parent is a document or fragment `set_html` always panics. -/
theorem C41_root_panics {x t : Nat} (hk : (h.node x).kind = .text ∨ (h.node x).kind = .spaces) (hpar : h.parent x = some t)
    (ht : (h.node t).kind = .root) (s : List Char) : h.setHtml e x s = .error .unwrapNone := by
  have htg : h.htmlTarget x = some t := by
    unfold Heap.htmlTarget
    rcases hk with hk | hk <;> rw [hk] <;> exact hpar
  unfold Heap.setHtml
  simp [htg, Heap.isElem, ht]
end

/-! ### Examples -/

set_option maxRecDepth 100000 in
/-- `div(5).append(p(2))`: nothing is lost. -/
example : ∃ h', demo2.insertAdjacent ext0 .beforeEnd 5 2 = .ok h' ∧
    ∀ m ∈ moved demo2 2, ∃ q, ¬ Used ext0 demo2 noneUsed q (.insert .beforeEnd 5 2) ∧ m ∈ h'.kids q :=
  (C35_exact_partial (e := ext0) demo2_ok (pos := .beforeEnd) (t := 5) (n := 2) (noneUsed_eq ▸ usableB_sound (by decide))
    (demo2_accepted (by decide))).2 (by decide)

set_option maxRecDepth 100000 in
/-- `br(3).append(p(2))`: the `p` is lost. -/
example : ¬ ∃ h', (heapOf [rootN [1], el "div" 0 0 [2, 3], el "p" 1 0, el "br" 1 1]).insertAdjacent ext0 .beforeEnd 3 2 = .ok h' ∧
    ∀ m ∈ moved (heapOf [rootN [1], el "div" 0 0 [2, 3], el "p" 1 0, el "br" 1 1]) 2,
      ∃ q, ¬ Used ext0 (heapOf [rootN [1], el "div" 0 0 [2, 3], el "p" 1 0, el "br" 1 1]) noneUsed q (.insert .beforeEnd 3 2) ∧ m ∈ h'.kids q := by
  intro h1
  have := (C35_exact_partial (e := ext0) (D := noneUsed) (okCheck_sound (by decide)) (pos := .beforeEnd) (t := 3) (n := 2)
    (noneUsed_eq ▸ usableB_sound (by decide)) ((validate_sound (b := true) rfl).1 rfl)).1 h1
  exact absurd this (by decide)

set_option maxRecDepth 100000 in
/-- `div(5).append`, of one and of three elements. -/
example : (∃ h', insertAll ext0 .beforeEnd [2] demo2 [5] = .ok h' ∧ h'.kids 5 = (demo2.kids 5).filter (· ∉ [2]) ++ [2]) ∧
    ¬ ∃ h', insertAll ext0 .beforeEnd [2, 7, 9] demo2 [5] = .ok h' ∧ h'.kids 5 = (demo2.kids 5).filter (· ∉ [2, 7, 9]) ++ [2, 7, 9] :=
  ⟨(C36_append_exact_partial (e := ext0) (D := noneUsed) (t := 5) (dest := [2]) demo2_ok
      (demo2_insertable (by decide) (by decide) (by decide)) (by decide)).2 (by decide),
    fun h1 => absurd ((C36_append_exact_partial (e := ext0) (D := noneUsed) (t := 5) (dest := [2, 7, 9]) demo2_ok
      (demo2_insertable (by decide) (by decide) (by decide)) (by decide)).1 h1) (by decide)⟩

set_option maxRecDepth 100000 in
/-- `p(2).before`, of two elements. -/
example : ¬ ∃ h' A B, insertAll ext0 .beforeBegin [5, 9] demo2 [2] = .ok h' ∧ (demo2.kids 1).filter (· ∉ [5, 9]) = A ++ 2 :: B ∧
    h'.kids 1 = A ++ ([5, 9] ++ 2 :: B) :=
  fun h1 => absurd ((C36_before_exact_partial (e := ext0) (D := noneUsed) (t := 2) (dest := [5, 9]) demo2_ok
    (demo2_insertable (by decide) (by decide) (by decide)) (by decide : demo2.parent 2 = some 1)).1 h1) (by decide)

set_option maxRecDepth 100000 in
/-- The `p(6)` in `div(5)` in `div(1)`, replaced by `li(9)` and by `div(1)`. -/
example : (∃ h' r, demo2.replaceWith ext0 6 9 = .ok (h', r) ∧ ∀ x, ¬ Above h' x x) ∧
    ¬ ∃ h' r, demo2.replaceWith ext0 6 1 = .ok (h', r) ∧ ∀ x, ¬ Above h' x x := by
  have h1 : [6, 9, 1].all (attachedB demo2 []) = true := by decide
  have h2 : ∀ n ∈ [6, 9, 1], Attached demo2 noneUsed n := fun n hn => noneUsed_eq ▸ attachedB_sound (List.all_eq_true.1 h1 n hn)
  refine ⟨(C37_replace_exact_partial (p := 5) demo2_ok (h2 6 (by simp)) (by decide) (h2 9 (by simp)) (by decide) (by decide)).2
      ⟨by decide, ?_⟩, fun h3 => ?_⟩
  · intro ha
    have : ∀ {x : Nat}, Above demo2 9 x → x ≠ 6 ∧ x ≠ 5 ∧ x ≠ 1 ∧ x ≠ 0 := by
      intro x hx
      induction hx with
      | parent hp => refine ⟨?_, ?_, ?_, ?_⟩ <;> rintro rfl <;> cases hp
      | step _ hp ih =>
        obtain ⟨i1, i2, i3, i4⟩ := ih
        refine ⟨?_, ?_, ?_, ?_⟩ <;> rintro rfl <;> cases hp <;> contradiction
    exact (this ha).1 rfl
  · exact ((C37_replace_exact_partial (p := 5) demo2_ok (h2 6 (by simp)) (by decide) (h2 1 (by simp)) (by decide) (by decide)).1 h3).2
      (.step (p := 5) (.parent rfl) rfl)

/-- The text node of the sample with the `textarea`. -/
example : TextOf id (areaHeap.setText ext0 2 ['b']) 2 ['b'] ∧ ¬ TextOf id (areaHeap.setText ext0 2 []) 2 [] :=
  ⟨(C40_text_exact_partial (by decide) id ['b']).2 (by simp), fun h1 => by
    have := (C40_text_exact_partial (by decide) id []).1 h1
    exact absurd this (by decide)⟩

set_option maxRecDepth 100000 in
/-- The text node 4 between `p(2)` and `div(5)`, for `x` and for the empty text. -/
example : (∃ h' A B, demo2.setHtml ext0 4 ['x'] = .ok h' ∧ demo2.kids 1 = A ++ 4 :: B ∧ h'.kids 1 = A ++ [15] ++ B) ∧
    (demo2.kids 1 ≠ [4] ∧ ∃ h1 r, ext0.parse demo2 [] = .ok (h1, r) ∧ (h1.node r).childs = none) := by
  refine ⟨?_, by decide, _, _, rfl, by decide⟩
  exact (C41_text_exact_partial (x := 4) (t := 1) (s := ['x']) demo2_ok ext0_parse
    (demo2_usable_html (by decide) (.inr ⟨1, by decide, by decide⟩)) (.inl (by decide)) (by decide) (by decide) rfl).2 (.inl (by decide))

example : areaHeap.setHtml ext0 2 ['x', 'y'] = .error .unwrapNone := C41_root_panics (t := 0) (by decide) rfl (by decide) _

set_option maxRecDepth 100000 in
/-- The fragment 10 of the sample, appended to `ul(8)` and to `div(5)`. -/
example : ∃ h' h'', demo2.insertAdjacent ext0 .beforeEnd 8 10 = .ok h' ∧ h'.insertAdjacent ext0 .beforeEnd 5 10 = .ok h'' ∧
    11 ∈ h''.kids 8 ∧ 11 ∈ h''.kids 5 := by
  obtain ⟨h', e1⟩ : ∃ h', demo2.insertAdjacent ext0 .beforeEnd 8 10 = .ok h' := ⟨_, rfl⟩
  have e1' := e1
  cases e1'
  refine ⟨_, _, e1, rfl, ?_⟩
  exact C38_fragment_twice (e := ext0) (D := noneUsed) demo2_ok (t := 8) (t' := 5) (n := 10) (noneUsed_eq ▸ usableB_sound (by decide))
    (by decide) (demo2_accepted (by decide)) (.inr rfl) e1 (by decide) ((validate_sound (b := true) rfl).1 rfl) (.inr rfl) rfl
    11 (by decide) (by decide) (by decide)

end Visdom
