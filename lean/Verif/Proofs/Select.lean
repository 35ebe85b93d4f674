import Verif.Proofs.NoneUp
/-!
# Evaluation of compounds and chains
-/
namespace Visdom
open Spec

variable {h : Heap} {r : Nat}

/-- What a phase says about a list. -/
def Inv (h : Heap) (r : Nat) : Phase → List Nat → Prop
  | .anti, l => AntiSorted h r l
  | .sorted, l => DocSorted h r l
  | .down, l => SibAsc h l ∧ NoneUp h l
  | .sib, l => SibAsc h l
  | .first, l => FirstAsc h [] l

theorem Inv.filter {ph : Phase} {l : List Nat} (P : Nat → Bool) (hi : Inv h r ph l) : Inv h r ph (l.filter P) := by
  cases ph with
  | anti => exact List.Pairwise.sublist List.filter_sublist hi
  | sorted => exact List.Pairwise.sublist List.filter_sublist hi
  | down => exact ⟨List.Pairwise.sublist List.filter_sublist hi.1, List.Pairwise.sublist List.filter_sublist hi.2⟩
  | sib => exact List.Pairwise.sublist List.filter_sublist hi
  | first => exact FirstAsc.filter' P hi

theorem Inv.sibAsc (wf : TreeWF h r) {ph : Phase} {l : List Nat} (hl : ∀ x ∈ l, Within h r x) (hi : Inv h r ph l)
    (hp : ph ≠ .first) : SibAsc h l := by
  cases ph with
  | anti => exact docSorted_sibAsc wf hl (AntiSorted.docSorted hi)
  | sorted => exact docSorted_sibAsc wf hl hi
  | down => exact hi.1
  | sib => exact hi
  | first => exact absurd rfl hp

/-- Descendants can be looked for from lists in a tidy phase. -/
theorem Inv.noneUp (wf : TreeWF h r) {ph : Phase} {l : List Nat} (hl : ∀ x ∈ l, Within h r x) (hi : Inv h r ph l)
    (hp : ph.tidy = true) : NoneUp h l := by
  cases ph with
  | anti => exact docSorted_noneUp wf hl (AntiSorted.docSorted hi)
  | sorted => exact docSorted_noneUp wf hl hi
  | down => exact hi.2
  | sib => cases hp
  | first => cases hp

theorem Inv.firstAsc (wf : TreeWF h r) {ph : Phase} {l : List Nat} (hl : ∀ x ∈ l, Within h r x) (hi : Inv h r ph l) :
    FirstAsc h [] l := by
  by_cases hp : ph = .first
  · subst hp; exact hi
  · exact (Inv.sibAsc wf hl hi hp).firstAsc []

theorem Inv.lists (wf : TreeWF h r) {ph : Phase} {l : List Nat} (hl : ∀ x ∈ l, Within h r x) (hi : Inv h r ph l) :
    ph.lists h r l := by
  cases ph with
  | first => trivial
  | anti => exact ⟨AntiSorted.docSorted hi, Inv.sibAsc wf hl hi (by simp)⟩
  | sorted => exact ⟨hi, Inv.sibAsc wf hl hi (by simp)⟩
  | down => exact hi.1
  | sib => exact hi

theorem lists_of_docSorted (wf : TreeWF h r) {ph : Phase} {l : List Nat} (hl : Elems h r l) (hs : DocSorted h r l) : ph.lists h r l := by
  have hs' := docSorted_sibAsc wf (fun x hx => (hl x hx).1) hs
  cases ph with
  | first => trivial
  | anti => exact ⟨hs, hs'⟩
  | sorted => exact ⟨hs, hs'⟩
  | down => exact hs'
  | sib => exact hs'

theorem lists_filter {ph : Phase} {l : List Nat} (P : Nat → Bool) (hl : ph.lists h r l) : ph.lists h r (l.filter P) := by
  cases ph with
  | first => trivial
  | anti => exact ⟨List.Pairwise.sublist List.filter_sublist hl.1, Spec.SibAsc.sublist hl.2 List.filter_sublist⟩
  | sorted => exact ⟨List.Pairwise.sublist List.filter_sublist hl.1, Spec.SibAsc.sublist hl.2 List.filter_sublist⟩
  | down => exact Spec.SibAsc.sublist hl List.filter_sublist
  | sib => exact Spec.SibAsc.sublist hl List.filter_sublist

/-- The candidates of a step are ordered as the next phase says. -/
theorem cands_inv (wf : TreeWF h r) {ph : Phase} {c : Comb} {l cs : List Nat} (hl : Nodes h r l) (hi : Inv h r ph l)
    (hd : Comb.down c = true) (hc : cands h c l = .ok cs) : Inv h r (ph.next c) cs := by
  have hw := hl.within
  cases c with
  | childrenAll =>
    have hsorted : DocSorted h r l → DocSorted h r cs := by
      intro hs
      obtain ⟨cs', h1, h2⟩ := childrenAll_sorted wf hw hs
      rw [hc] at h1; cases h1; exact h2
    cases ph with
    | anti => exact hsorted (AntiSorted.docSorted hi)
    | sorted => exact hsorted hi
    | down => exact childrenAll_firstAsc wf hw hc []
    | sib => exact childrenAll_firstAsc wf hw hc []
    | first => exact childrenAll_firstAsc wf hw hc []
  | children =>
    simp only [cands, Except.ok.injEq] at hc
    subst hc
    have hsib : ph ≠ .first → SibAsc h (l.flatMap h.children) := fun hp =>
      children_list_sibAsc wf hw (Inv.sibAsc wf hw hi hp).nodup
    cases ph with
    | anti => exact flatMap_children_anti wf hw hi
    | sorted => exact ⟨hsib (by simp), children_noneUp wf hw (docSorted_noneUp wf hw hi)⟩
    | down => exact ⟨hsib (by simp), children_noneUp wf hw hi.2⟩
    | sib => exact hsib (by simp)
    | first => exact children_list_firstAsc wf hw []
  | next =>
    simp only [cands, Except.ok.injEq] at hc
    subst hc
    have hsib : ph ≠ .first → SibAsc h (l.filterMap h.nextElem) := fun hp =>
      filterMap_next_sibAsc wf hl (Inv.sibAsc wf hw hi hp)
    cases ph with
    | anti => exact next_sorted wf hl hi
    | sorted => exact ⟨hsib (by simp), next_noneUp wf hl hi⟩
    | down => exact hsib (by simp)
    | sib => exact hsib (by simp)
    | first => exact filterMap_next_firstAsc wf hl hi
  | nextAll =>
    have := nextAll_sibAsc wf hw hc
    cases ph with
    | anti => exact ⟨this, nextAll_noneUp wf hw (AntiSorted.docSorted hi) hc⟩
    | sorted => exact ⟨this, nextAll_noneUp wf hw hi hc⟩
    | _ => exact this
  | _ => cases hd

theorem selectRest_decides {Q : List Nat → Prop} (hQ : ∀ l, Elems h r l → DocSorted h r l → Q l)
    (hQf : ∀ l P, Q l → Q (l.filter P)) (wf : TreeWF h r) {ss : List Seg} {Ps : List (Nat → Bool)}
    (hD : List.Forall₂ (fun s p => s.2 = Comb.chain ∧ Decides h r Q s.1 .chain p) ss Ps) {l res : List Nat}
    (hl : Elems h r l) (hq : Q l) (hr : selectRest h l ss = .ok res) : res = l.filter fun x => Ps.all fun p => p x := by
  induction hD generalizing l with
  | nil =>
    simp only [selectRest, Except.ok.injEq] at hr
    simp [← hr]
  | @cons s p ss Ps hs _ ih =>
    simp only [selectRest] at hr
    split at hr
    · rename_i he
      simp only [Except.ok.injEq] at hr
      have : l = [] := by simpa using he
      rw [← hr, this]; rfl
    · split at hr
      · cases hr
      · rename_i l' hl'
        rw [hs.1] at hl'
        obtain ⟨cs, h1, h2⟩ := selectByRule_decides wf hs.2 hQ (fun x hx => (hl x hx).1) (fun _ => hl)
          (fun _ cs hcs => by simp only [cands, Except.ok.injEq] at hcs; subst hcs; exact hq) (by simp) hl'
        simp only [cands, Except.ok.injEq] at h1
        subst h1
        have hl2 : Elems h r l' := by rw [h2]; exact fun x hx => hl x (List.mem_filter.1 hx).1
        rw [ih hl2 (by rw [h2]; exact hQf _ _ hq) hr, h2, List.filter_filter]
        congr 1
        funext x
        simp [Bool.and_comm]

theorem hasAncestor_ok (wf : TreeWF h r) {S : List Nat} {n x : Nat} {π : List Nat} (hx : At h r π x) (hn : π.length < n) :
    ∃ b, hasAncestor h S n x = .ok b ∧ (b = true ↔ ∃ y ∈ S, Within h r y ∧ Below h y x) := by
  induction n generalizing x π with
  | zero => omega
  | succ n ih =>
    have hxw := hx.within
    simp only [hasAncestor]
    have hbel : ∀ {x p : Nat}, Within h r x → h.parent x = some p →
        ∀ e, Within h r e → (Below h e x ↔ e = p ∨ Below h e p) := by
      intro x p hx hpar e he
      obtain ⟨hpw, hidx⟩ := parent_some wf hx hpar
      constructor
      · intro hb
        obtain ⟨q, hq, hc⟩ := hb.last
        have := parent_of_child wf (he.trans hq) hc
        rw [hpar] at this
        obtain rfl : p = q := by simpa using this
        exact within_cases hq
      · rintro (rfl | hb)
        · exact Below.of_child (List.mem_of_getElem? hidx)
        · exact Below.snoc hb.within (List.mem_of_getElem? hidx)
    have hnone : ∀ {x : Nat}, Within h r x → h.parent x = none → ∀ e, Within h r e → ¬ Below h e x := by
      intro x hx hp e he hb
      obtain ⟨q, hq, hc⟩ := hb.last
      rw [parent_of_child wf (he.trans hq) hc] at hp
      cases hp
    cases hp : h.parent x with
    | none =>
      refine ⟨false, rfl, ?_⟩
      simp only [Bool.false_eq_true, false_iff]
      rintro ⟨y, _, hy, hb⟩
      exact hnone hxw hp y hy hb
    | some p =>
      obtain ⟨hpw, hpi⟩ := parent_some wf hxw hp
      obtain ⟨ρ, hρ⟩ := hpw.path
      have hπ : π = ρ ++ [h.index x] := path_unique wf hx (.step hρ hpi)
      by_cases hpS : p ∈ S
      · refine ⟨true, by simp [hpS], ?_⟩
        simp only [true_iff]
        exact ⟨p, hpS, hpw, (hbel hxw hp p hpw).2 (Or.inl rfl)⟩
      · simp only [hpS, if_false]
        cases ha : h.parent p with
        | none =>
          refine ⟨false, rfl, ?_⟩
          simp only [Bool.false_eq_true, false_iff]
          rintro ⟨y, hy, hyw, hb⟩
          rcases (hbel hxw hp y hyw).1 hb with rfl | hb
          · exact hpS hy
          · exact hnone hpw ha y hyw hb
        | some a =>
          obtain ⟨haw, hai⟩ := parent_some wf hpw ha
          obtain ⟨σ, hσ⟩ := haw.path
          have hρ' : ρ = σ ++ [h.index p] := path_unique wf hρ (.step hσ hai)
          by_cases haS : a ∈ S
          · refine ⟨true, by simp [haS], ?_⟩
            simp only [true_iff]
            exact ⟨a, haS, haw, (hbel hxw hp a haw).2 (Or.inr ((hbel hpw ha a haw).2 (Or.inl rfl)))⟩
          · simp only [haS, if_false]
            obtain ⟨b, hb1, hb2⟩ := ih hσ (by rw [hπ, hρ'] at hn; simp at hn; omega)
            refine ⟨b, hb1, hb2.trans ?_⟩
            constructor
            · rintro ⟨y, hy, hyw, hb⟩
              exact ⟨y, hy, hyw, (hbel hxw hp y hyw).2 (Or.inr ((hbel hpw ha y hyw).2 (Or.inr hb)))⟩
            · rintro ⟨y, hy, hyw, hb⟩
              rcases (hbel hxw hp y hyw).1 hb with rfl | hb
              · exact absurd hy hpS
              · rcases (hbel hpw ha y hyw).1 hb with rfl | hb
                · exact absurd hy haS
                · exact ⟨y, hy, hyw, hb⟩

/-- The reverse of a combinator. -/
def upOf : Comb → Comb
  | .childrenAll => .parentAll
  | .children => .parent
  | .nextAll => .prevAll
  | .next => .prev
  | c => c

theorem reverse_down {c : Comb} (hc : Comb.down c = true) : c.reverse = .ok (upOf c) ∧ Comb.up (upOf c) = true := by
  cases c <;> first | exact ⟨rfl, rfl⟩ | cases hc

theorem rel_upOf {c : Comb} (hc : Comb.down c = true) {x y : Nat} (hy : Within h r y) :
    Rel h r (upOf c) x y ↔ Rel h r c y x := by
  cases c with
  | childrenAll => exact ⟨fun hh => hh.2, fun hh => ⟨hy, hh⟩⟩
  | children => exact ⟨fun hh => hh.2, fun hh => ⟨hy, hh⟩⟩
  | next => exact Iff.rfl
  | nextAll => exact Iff.rfl
  | _ => cases hc

/-- The last part of `has_ele` always answers, and answers whether a member of the set is related. -/
theorem hasRelated_ok (wf : TreeWF h r) {S l : List Nat} {d : Comb} (hd : Comb.down d = true) (hS : Nodes h r S)
    (hl : ∀ x ∈ l, Within h r x) :
    ∃ b, hasRelated h S (upOf d) l = .ok b ∧ (b = true ↔ ∃ x ∈ l, ∃ y ∈ S, Rel h r d y x) := by
  have hSw := hS.within
  cases d with
  | childrenAll =>
    simp only [upOf, hasRelated]
    have key : ∀ x ∈ l, ∃ b, hasAncestor h S h.fuel x = .ok b ∧ (b = true ↔ ∃ y ∈ S, Within h r y ∧ Below h y x) := by
      intro x hx
      obtain ⟨π, hπ⟩ := (hl x hx).path
      exact hasAncestor_ok wf hπ (by have := path_length wf hπ; unfold Heap.fuel; omega)
    classical
    have hok : ∀ x ∈ l, hasAncestor h S h.fuel x = .ok (decide (∃ y ∈ S, Within h r y ∧ Below h y x)) := by
      intro x hx
      obtain ⟨b, h1, h2⟩ := key x hx
      rw [h1]
      congr 1
      rw [Bool.eq_iff_iff, h2, decide_eq_true_eq]
    refine ⟨_, anyR_ok hok, ?_⟩
    simp only [List.any_eq_true, decide_eq_true_eq, Rel]
    constructor
    · rintro ⟨x, hx, y, hy, _, hb⟩; exact ⟨x, hx, y, hy, hb⟩
    · rintro ⟨x, hx, y, hy, hb⟩; exact ⟨x, hx, y, hy, hSw y hy, hb⟩
  | children =>
    simp only [upOf, hasRelated]
    refine ⟨_, rfl, ?_⟩
    simp only [List.any_eq_true, Rel]
    constructor
    · rintro ⟨x, hx, hh⟩
      split at hh
      · rename_i p hp
        exact ⟨x, hx, p, by simpa using hh, List.mem_of_getElem? (parent_some wf (hl x hx) hp).2⟩
      · cases hh
    · rintro ⟨x, hx, y, hy, hc⟩
      refine ⟨x, hx, ?_⟩
      rw [parent_of_child wf (hSw y hy) hc]
      simpa using hy
  | next =>
    simp only [upOf, hasRelated]
    have hok : ∀ x ∈ l, ((h.prevElem x).map fun o => match o with | some p => decide (p ∈ S) | none => false) =
        .ok (match h.prevElem x with | .ok (some p) => decide (p ∈ S) | _ => false) := by
      intro x hx
      obtain ⟨o, h1, _⟩ := prevElem_ok wf (hl x hx)
      rw [h1]
      cases o <;> rfl
    refine ⟨_, anyR_ok hok, ?_⟩
    simp only [List.any_eq_true, Rel]
    constructor
    · rintro ⟨x, hx, hh⟩
      obtain ⟨o, h1, h2⟩ := prevElem_ok wf (hl x hx)
      rw [h1] at hh
      cases o with
      | none => cases hh
      | some p => exact ⟨x, hx, p, by simpa using hh, ((h2 p).1 rfl).1⟩
    · rintro ⟨x, hx, y, hy, hs⟩
      refine ⟨x, hx, ?_⟩
      obtain ⟨o, h1, h2⟩ := prevElem_ok wf (hl x hx)
      have := (h2 y).2 ⟨hs, Nodes.elem_of_sib wf hS hy (Or.inl (nextSib_later hs))⟩
      rw [h1, this]
      simpa using hy
  | nextAll =>
    simp only [upOf, hasRelated]
    have hok : ∀ x ∈ l, ((h.prevElems x).map fun ps => ps.any fun p => decide (p ∈ S)) =
        .ok (match h.prevElems x with | .ok ps => ps.any fun p => decide (p ∈ S) | _ => false) := by
      intro x hx
      obtain ⟨o, h1, _⟩ := prevElems_ok wf (hl x hx)
      rw [h1]; rfl
    refine ⟨_, anyR_ok hok, ?_⟩
    simp only [List.any_eq_true, Rel]
    constructor
    · rintro ⟨x, hx, hh⟩
      obtain ⟨o, h1, h2, _⟩ := prevElems_ok wf (hl x hx)
      rw [h1] at hh
      simp only [List.any_eq_true, decide_eq_true_eq] at hh
      obtain ⟨p, hp, hpS⟩ := hh
      exact ⟨x, hx, p, hpS, ((h2 p).1 hp).1⟩
    · rintro ⟨x, hx, y, hy, hs⟩
      refine ⟨x, hx, ?_⟩
      obtain ⟨o, h1, h2, _⟩ := prevElems_ok wf (hl x hx)
      rw [h1]
      simp only [List.any_eq_true, decide_eq_true_eq]
      exact ⟨y, (h2 y).2 ⟨hs, Nodes.elem_of_sib wf hS hy (Or.inl hs)⟩, hy⟩
  | _ => cases hd

/-- A compound: the members are the related elements that satisfy the conjunction, and they form a part of the
candidates or a list in document order. -/
theorem select_decides {Q : List Nat → Prop} (hQ : ∀ l, Elems h r l → DocSorted h r l → Q l)
    (hQf : ∀ l P, Q l → Q (l.filter P)) (wf : TreeWF h r) {c : Comb} {rules : Cmpd} {P : Nat → Bool}
    (hD : DecidesCmpd h r Q c rules P) {l res : List Nat} {oc : Option Comb}
    (hoc : oc = some c ∨ (oc = none ∧ HeadIs c rules)) (hl : Nodes h r l) (hne : l ≠ []) (ho : OrderOk h c l)
    (hchain : c = .chain → Elems h r l) (hsib : c = .siblings → ∃ x, l = [x]) (hcQ : ∀ cs, cands h c l = .ok cs → Q cs)
    (hr : select h l rules oc = .ok res) :
    (∃ cs, (cands h c l = .ok cs ∨ (c = .childrenAll ∧ DocSorted h r cs)) ∧ Elems h r cs ∧ res = cs.filter P) ∧
    ∀ e, e ∈ res ↔ h.isElem e = true ∧ P e = true ∧ ∃ y ∈ l, Rel h r c y e := by
  obtain ⟨s, ss, P0, Ps, rfl, hD0, hDs, hP⟩ := hD
  have hcomb : oc.getD s.2 = c := by
    rcases hoc with rfl | ⟨rfl, m, ss', he⟩
    · rfl
    · simp only [List.cons.injEq] at he
      rw [he.1]; rfl
  have hw := hl.within
  simp only [select, hcomb] at hr
  split at hr
  · cases hr
  · rename_i l' hl'
    unfold selectFirst at hl'
    by_cases hcase : (s.1.inCache && c == .childrenAll) = true
    · rw [if_pos hcase] at hl'
      simp only [Bool.and_eq_true, beq_iff_eq] at hcase
      obtain ⟨hca, rfl⟩ := hcase
      split at hl'
      · cases hl'
      · rename_i cached hcached
        have hcm := hD0.cache rfl hca l cached hne hw hcached
        cases hf : filterR (fun x => hasEle0 h l x .childrenAll) cached with
        | error e => rw [hf] at hl'; cases hl'
        | ok w =>
          rw [hf] at hl'
          simp only [Except.map, Except.ok.injEq] at hl'
          have hwm : ∀ e, e ∈ w ↔ h.isElem e = true ∧ P0 e = true ∧ ∃ y ∈ l, Rel h r .childrenAll y e := by
            intro e
            rw [filterR_mem hf, hcm]
            simp only [hasEle0, Comb.reverse]
            constructor
            · rintro ⟨⟨h1, h2, h3⟩, h4⟩
              obtain ⟨b, hb, hbi⟩ := hasRelated_ok wf (d := .childrenAll) rfl hl
                (l := [e]) (by intro x hx; simp at hx; subst hx; exact h1)
              simp only [upOf] at hb
              rw [hb] at h4
              simp only [Except.ok.injEq] at h4
              obtain ⟨x, hx, y, hy, hr⟩ := hbi.1 h4
              simp at hx; subst hx
              exact ⟨h2, h3, y, hy, hr⟩
            · rintro ⟨h2, h3, y, hy, hrel⟩
              have h1 : Within h r e := (hw y hy).trans (Below.within hrel)
              refine ⟨⟨h1, h2, h3⟩, ?_⟩
              obtain ⟨b, hb, hbi⟩ := hasRelated_ok wf (d := .childrenAll) rfl hl
                (l := [e]) (by intro x hx; simp at hx; subst hx; exact h1)
              simp only [upOf] at hb
              rw [hb, hbi.2 ⟨e, by simp, y, hy, hrel⟩]
          have hww : ∀ x ∈ w, Within h r x := by
            intro x hx
            obtain ⟨_, _, y, hy, hrel⟩ := (hwm x).1 hx
            exact (hw y hy).trans (Below.within hrel)
          obtain ⟨s1, _, s3⟩ := C14_sort_and_unique wf hww
          rw [hl'] at s1 s3
          have hel : Elems h r l' := fun x hx => ⟨hww x ((s3 x).1 hx), ((hwm x).1 ((s3 x).1 hx)).1⟩
          have hres := selectRest_decides hQ hQf wf hDs hel
            (hQ _ hel s1) hr
          refine ⟨⟨l', Or.inr ⟨rfl, s1⟩, hel, ?_⟩, ?_⟩
          · rw [hres]
            refine List.filter_congr ?_
            intro x hx
            rw [hP x, ((hwm x).1 ((s3 x).1 hx)).2.1, Bool.true_and]
          · intro e
            rw [hres, List.mem_filter, s3, hwm, hP]
            simp only [Bool.and_eq_true]
            constructor
            · rintro ⟨⟨a, b, c⟩, d⟩; exact ⟨a, ⟨b, d⟩, c⟩
            · rintro ⟨a, ⟨b, d⟩, c⟩; exact ⟨⟨a, b, c⟩, d⟩
    · rw [if_neg hcase] at hl'
      obtain ⟨cs, h1, h2⟩ := selectByRule_decides wf hD0 hQ hw hchain (fun _ cs hcs => hcQ cs hcs)
        (by
          rintro rfl
          cases hic : s.1.inCache with
          | false => rfl
          | true => exact absurd (by simp [hic]) hcase) hl'
      have hel := cands_elems wf hl hchain hsib h1
      have hel' : Elems h r l' := by rw [h2]; exact fun x hx => hel x (List.mem_filter.1 hx).1
      have hres := selectRest_decides hQ hQf wf hDs hel' (by rw [h2]; exact hQf _ _ (hcQ cs h1)) hr
      have hres' : res = cs.filter P := by
        rw [hres, h2, List.filter_filter]
        refine List.filter_congr ?_
        intro x _
        rw [hP x, Bool.and_comm]
      refine ⟨⟨cs, Or.inl h1, hel, hres'⟩, ?_⟩
      intro e
      rw [hres', List.mem_filter, cands_mem wf hl ho hchain h1]
      constructor
      · rintro ⟨⟨a, c⟩, b⟩; exact ⟨a, b, c⟩
      · rintro ⟨a, b, c⟩; exact ⟨⟨a, c⟩, b⟩

end Visdom
