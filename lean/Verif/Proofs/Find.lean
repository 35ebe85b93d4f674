import Verif.Proofs.Total
/-!
# Upward checks, chains of compounds and processes
-/
namespace Visdom
open Spec

variable {h : Heap} {r : Nat}

/-- Every member is an inclusive ancestor of `x` or an earlier sibling of one. -/
def Up (h : Heap) (r x : Nat) (l : List Nat) : Prop :=
  ∀ y ∈ l, ∃ a, Within h r a ∧ Within h a x ∧ h.parent y = h.parent a ∧ h.index y ≤ h.index a

theorem Up.filter {x : Nat} {l : List Nat} (P : Nat → Bool) (hu : Up h r x l) : Up h r x (l.filter P) :=
  fun y hy => hu y (List.mem_filter.1 hy).1

section
variable (wf : TreeWF h r)
include wf

omit wf in
theorem below_of_within_child {a q c : Nat} (hq : Within h a q) (hc : c ∈ h.kids q) : Below h a c := by
  rcases within_cases hq with rfl | hb
  · exact Below.of_child hc
  · exact Below.trans hb (Below.of_child hc)

theorem before_index {y z : Nat} (hy : Within h r y) (hz : Within h r z) (hb : Before h r y z) (hp : h.parent y = h.parent z) :
    h.index y < h.index z := by
  have hs : SibAsc h [y, z] := docSorted_sibAsc wf (by simp [hy, hz]) (by simp [DocSorted, hb])
  exact (List.pairwise_cons.1 hs).1 z (by simp) hp

/-- Of two inclusive ancestors one is above the other. -/
theorem ancestors_compare {a b x : Nat} (ha : Within h r a) (hb : Within h r b) (hax : Within h a x) (hbx : Within h b x) :
    a = b ∨ Below h a b ∨ Below h b a := by
  induction hax with
  | self =>
    rcases within_cases hbx with rfl | hb'
    · exact Or.inl rfl
    · exact Or.inr (Or.inr hb')
  | @step p c hw hc ih =>
    rcases within_cases hbx with rfl | hb'
    · exact Or.inr (Or.inl (below_of_within_child hw hc))
    · obtain ⟨q, hq, hk⟩ := hb'.last
      have h1 := parent_of_child wf (ha.trans hw) hc
      rw [parent_of_child wf (hb.trans hq) hk] at h1
      cases h1
      exact ih hq

/-- What belongs to a higher ancestor comes before what belongs to a lower one. -/
theorem up_before {a b y z : Nat} (ha : Within h r a) (hab : Below h a b) (hy : Within h r y) (hz : Within h r z)
    (hya : h.parent y = h.parent a) (hyi : h.index y ≤ h.index a) (hzb : h.parent z = h.parent b) : Before h r y z := by
  obtain ⟨q, hq, hk⟩ := hab.last
  have hqr := ha.trans hq
  rw [parent_of_child wf hqr hk] at hzb
  have hzk := List.mem_of_getElem? (parent_some wf hz hzb).2
  cases hp : h.parent a with
  | none =>
    have hroot : ∀ z, Within h r z → h.parent z = none → z = r := by
      intro z hz hn
      rcases within_cases hz with rfl | hb
      · rfl
      · obtain ⟨p, hp, hc⟩ := hb.last
        rw [parent_of_child wf hp hc] at hn; cases hn
    have : y = a := by rw [hroot y hy (hya.trans hp), hroot a ha hp]
    subst this
    exact Or.inl (below_of_within_child hq hzk)
  | some p =>
    obtain ⟨hpw, hia⟩ := parent_some wf ha hp
    obtain ⟨_, hiy⟩ := parent_some wf hy (hya.trans hp)
    rcases Nat.lt_or_eq_of_le hyi with hlt | heq
    · exact Or.inr ⟨p, h.index y, h.index a, y, a, hpw, hlt, hiy, hia, .self, .step hq hzk⟩
    · rw [heq, hia] at hiy
      cases hiy
      exact Or.inl (below_of_within_child hq hzk)

/-- Members that are not siblings are ordered by the ancestors they belong to. -/
theorem up_anchor {x : Nat} {l : List Nat} (hw : ∀ y ∈ l, Within h r y) (hu : Up h r x l) {y z : Nat} (hy : y ∈ l) (hz : z ∈ l)
    (hb : Before h r y z) (hne : h.parent y ≠ h.parent z) :
    ∃ a b, Within h r a ∧ Within h r b ∧ Below h a b ∧ h.parent y = h.parent a ∧ h.index y ≤ h.index a ∧ h.parent z = h.parent b ∧
      h.index z ≤ h.index b := by
  obtain ⟨a, haw, hax, hpa, hia⟩ := hu y hy
  obtain ⟨b, hbw, hbx, hpb, hib⟩ := hu z hz
  rcases ancestors_compare wf haw hbw hax hbx with rfl | hab | hba
  · exact absurd (hpa.trans hpb.symm) hne
  · exact ⟨a, b, haw, hbw, hab, hpa, hia, hpb, hib⟩
  · exact absurd hb (before_asymm wf (hw z hz) (hw y hy) (up_before wf hbw hba (hw z hz) (hw y hy) hpb hib hpa))

/-- Siblings of members are ordered like them. -/
theorem up_siblings {x : Nat} {l : List Nat} (hw : ∀ y ∈ l, Within h r y) (hu : Up h r x l) {y z y' z' : Nat} (hy : y ∈ l) (hz : z ∈ l)
    (hb : Before h r y z) (hne : h.parent y ≠ h.parent z) (hyw : Within h r y') (hzw : Within h r z') (hy' : h.parent y' = h.parent y)
    (hyi : h.index y' ≤ h.index y) (hz' : h.parent z' = h.parent z) : Before h r y' z' := by
  obtain ⟨a, b, haw, _, hab, h1, h2, h3, _⟩ := up_anchor wf hw hu hy hz hb hne
  exact up_before wf haw hab hyw hzw (hy'.trans h1) (Nat.le_trans hyi h2) (hz'.trans h3)

/-- The candidates of an upward step can be listed, and keep the invariants of the upward walk. -/
theorem cands_up {c : Comb} {x : Nat} {l : List Nat} (hc : Comb.up c = true) (hl : Elems h r l) (hd : DocSorted h r l)
    (hu : Up h r x l) : ∃ cs, cands h c l = .ok cs ∧ DocSorted h r cs ∧ Up h r x cs := by
  have hw : ∀ x ∈ l, Within h r x := fun x hx => (hl x hx).1
  have hs : SibAsc h l := docSorted_sibAsc wf hw hd
  have hN : Nodes h r l := Elems.nodes hl
  obtain ⟨cs, hcs⟩ := cands_total wf hw (c := c) (by rintro rfl; cases hc)
  refine ⟨cs, hcs, ?_⟩
  have hns : c = .siblings → ∃ x, l = [x] := by rintro rfl; cases hc
  have hel := cands_elems wf hN (fun _ => hl) hns hcs
  have hord : OrderOk h c l := by
    cases c <;> first | exact True.intro | exact hs | cases hc
  have hmem := cands_mem wf hN hord (fun _ => hl) hcs
  have hup : Up h r x cs := by
    intro e he
    obtain ⟨hee, y, hy, hrel⟩ := (hmem e).1 he
    obtain ⟨a, haw, hax, hpa, hia⟩ := hu y hy
    have hyw := hw y hy
    cases c with
    | parent =>
      have hp : h.parent y = some e := (rel_parent wf hyw).1 hrel
      have hk := (parent_some wf haw (hpa ▸ hp)).2
      exact ⟨e, (hel e he).1, (Within.step .self (List.mem_of_getElem? hk)).trans hax, rfl, Nat.le_refl _⟩
    | parentAll =>
      obtain ⟨hew, hb⟩ := hrel
      obtain ⟨q, hq, hk⟩ := hb.last
      have hp := parent_of_child wf (hew.trans hq) hk
      have hk' := (parent_some wf haw (hpa ▸ hp)).2
      exact ⟨e, hew, (Within.step hq (List.mem_of_getElem? hk')).trans hax, rfl, Nat.le_refl _⟩
    | prev =>
      obtain ⟨_, _, ⟨p, h1, h2⟩, hlt⟩ := (laterSib_index wf).1 (nextSib_later hrel)
      exact ⟨a, haw, hax, by rw [← hpa, h1, h2], Nat.le_trans (Nat.le_of_lt hlt) hia⟩
    | prevAll =>
      obtain ⟨_, _, ⟨p, h1, h2⟩, hlt⟩ := (laterSib_index wf).1 hrel
      exact ⟨a, haw, hax, by rw [← hpa, h1, h2], Nat.le_trans (Nat.le_of_lt hlt) hia⟩
    | chain => cases hrel; exact ⟨a, haw, hax, hpa, hia⟩
    | _ => cases hc
  refine ⟨?_, hup⟩
  cases c with
  | parent =>
    simp only [cands, Except.ok.injEq] at hcs
    subst hcs
    have hsub : (uniqueSiblingFirst h l).Sublist l := by rw [uniqueSiblingFirst_eq wf hw]; exact firstBy_sublist _ _
    have hapart : (uniqueSiblingFirst h l).Pairwise fun a b => h.parent a ≠ h.parent b := by
      rw [uniqueSiblingFirst_eq wf hw]; exact firstBy_pairwise _ _
    have hboth := List.Pairwise.and (List.Pairwise.sublist hsub hd) hapart
    unfold parentsOf DocSorted
    rw [List.pairwise_filterMap]
    refine List.Pairwise.imp_of_mem ?_ hboth
    rintro y z hy hz ⟨hb, hne⟩ p hp q hq
    have hpar : ∀ {y p}, (h.parent y).bind (fun p => if h.isRoot p then none else some p) = some p → h.parent y = some p := by
      intro y p hp
      cases hh : h.parent y with
      | none => rw [hh] at hp; cases hp
      | some w =>
        rw [hh] at hp
        simp only [Option.bind_some] at hp
        split at hp
        · cases hp
        · exact hp
    have hp := hpar hp
    have hq := hpar hq
    obtain ⟨a, b, haw, hbw, hab, h1, _, h3, _⟩ := up_anchor wf hw hu (hsub.subset hy) (hsub.subset hz) hb hne
    have k1 := List.mem_of_getElem? (parent_some wf haw (h1 ▸ hp)).2
    obtain ⟨w, hw1, hw2⟩ := hab.last
    have k2 := parent_of_child wf (haw.trans hw1) hw2
    rw [← h3, hq] at k2
    cases k2
    exact Or.inl ⟨a, k1, hw1⟩
  | parentAll =>
    simp only [cands] at hcs
    cases hall : flatMapR (ancestorsFuel h h.fuel) l with
    | error e => rw [hall] at hcs; cases hcs
    | ok all =>
      rw [hall] at hcs
      simp only [Except.map, Except.ok.injEq] at hcs
      rw [← hcs]
      refine (C14_sort_and_unique wf ?_).1
      intro e he
      obtain ⟨a, ha, y, hy, hey⟩ := ((flatMapR_mem hall).2 e).1 he
      obtain ⟨l', hl', hm⟩ := ancestors_ok wf (hw a ha)
      rw [hl'] at hy; cases hy
      exact ((hm e).1 hey).1
  | prev =>
    simp only [cands] at hcs
    have he : cs = l.flatMap (fun x => match h.prevElem x with | .ok o => o.toList | .error _ => []) := by
      refine flatMapR_inv hcs ?_
      intro x _ y hy
      cases ho : h.prevElem x with
      | error e => rw [ho] at hy; cases hy
      | ok o => rw [ho] at hy; simp only [Except.map, Except.ok.injEq] at hy; exact hy.symm
    rw [he]
    unfold DocSorted
    rw [List.pairwise_flatMap]
    constructor
    · intro x _
      cases ho : h.prevElem x with
      | error e => exact .nil
      | ok o => cases o with
        | none => exact .nil
        | some z => exact List.pairwise_singleton _ _
    · refine List.Pairwise.imp_of_mem ?_ hd
      intro y z hy hz hb y' hy' z' hz'
      obtain ⟨o1, h1, h2⟩ := prevElem_ok wf (hw y hy)
      obtain ⟨o2, h3, h4⟩ := prevElem_ok wf (hw z hz)
      rw [h1] at hy'
      rw [h3] at hz'
      obtain ⟨n1, e1⟩ := (h2 y').1 (by simpa using hy')
      obtain ⟨n2, e2⟩ := (h4 z').1 (by simpa using hz')
      obtain ⟨w1, _, ⟨p, a3, a4⟩, a5⟩ := (laterSib_index wf).1 (nextSib_later n1)
      obtain ⟨w2, _, ⟨q, b3, b4⟩, b5⟩ := (laterSib_index wf).1 (nextSib_later n2)
      by_cases hne : h.parent y = h.parent z
      · have hlt : h.index y < h.index z := before_index wf (hw y hy) (hw z hz) hb hne
        have hlt' := prevSib_lt wf n1 n2 (hl y hy).2 hne hlt
        have hpq : p = q := by rw [a4, b4] at hne; simpa using hne
        subst hpq
        exact Or.inr ⟨p, _, _, _, _, (parent_some wf w1 a3).1, hlt', (parent_some wf w1 a3).2, (parent_some wf w2 b3).2, .self, .self⟩
      · exact up_siblings wf hw hu hy hz hb hne w1 w2 (a3.trans a4.symm) (Nat.le_of_lt a5) (b3.trans b4.symm)
  | prevAll =>
    simp only [cands] at hcs
    have hsub : (uniqueSiblingLast h l).Sublist l := by
      rw [uniqueSiblingLast_eq wf hw]
      have := (firstBy_sublist (key := h.parent) [] l.reverse).reverse
      rwa [List.reverse_reverse] at this
    have hapart : (uniqueSiblingLast h l).Pairwise fun a b => h.parent a ≠ h.parent b := by
      rw [uniqueSiblingLast_eq wf hw, List.pairwise_reverse]
      exact List.Pairwise.imp (fun hab e => hab e.symm) (firstBy_pairwise _ _)
    have he : cs = (uniqueSiblingLast h l).flatMap (fun x => match h.prevElems x with | .ok o => o | .error _ => []) := by
      refine flatMapR_inv hcs ?_
      intro x _ y hy
      rw [hy]
    rw [he]
    unfold DocSorted
    rw [List.pairwise_flatMap]
    constructor
    · intro x hx
      obtain ⟨l', h1, h2, h3⟩ := prevElems_ok wf (hw x (hsub.subset hx))
      rw [h1]
      rcases h3 with rfl | ⟨p, hp, _, hs⟩
      · exact .nil
      · exact sublist_kids_docSorted hp hs
    · refine List.Pairwise.imp_of_mem ?_ (List.Pairwise.and (List.Pairwise.sublist hsub hd) hapart)
      rintro y z hy hz ⟨hb, hne⟩ y' hy' z' hz'
      obtain ⟨l1, h1, h2, _⟩ := prevElems_ok wf (hw y (hsub.subset hy))
      obtain ⟨l2, h3, h4, _⟩ := prevElems_ok wf (hw z (hsub.subset hz))
      rw [h1] at hy'
      rw [h3] at hz'
      obtain ⟨w1, _, ⟨p, a3, a4⟩, a5⟩ := (laterSib_index wf).1 ((h2 y').1 hy').1
      obtain ⟨w2, _, ⟨q, b3, b4⟩, b5⟩ := (laterSib_index wf).1 ((h4 z').1 hz').1
      exact up_siblings wf hw hu (hsub.subset hy) (hsub.subset hz) hb hne w1 w2 (a3.trans a4.symm) (Nat.le_of_lt a5) (b3.trans b4.symm)
  | chain =>
    simp only [cands, Except.ok.injEq] at hcs
    subst hcs; exact hd
  | _ => cases hc

omit wf in
theorem rel_within {c : Comb} (hc : Comb.down c = true) {y e : Nat} (hy : Within h r y) (hr : Rel h r c y e) :
    Within h r e := by
  cases c with
  | childrenAll => exact hy.trans (Below.within hr)
  | children => exact .step hy hr
  | next => exact (laterSib_within (nextSib_later hr)).2
  | nextAll => exact (laterSib_within hr).2
  | _ => cases hc

omit wf in
theorem sel_within {A : Nat → Prop} (hA : ∀ x, A x → Within h r x) {st : List (Comb × (Nat → Bool))}
    (hd : ∀ s ∈ st, Comb.down s.1 = true) {e : Nat} (he : Sel h r A st e) : Within h r e := by
  induction st generalizing A with
  | nil => exact hA e he
  | cons s st ih =>
    refine ih (A := Img h r A s) ?_ (fun t ht => hd t (List.mem_cons_of_mem _ ht)) he
    rintro x ⟨_, _, y, hy, hrel⟩
    exact rel_within (hd s List.mem_cons_self) (hA y hy) hrel

omit wf in
theorem sel_snoc {A : Nat → Prop} {st : List (Comb × (Nat → Bool))} {s : Comb × (Nat → Bool)} {e : Nat} :
    Sel h r A (st ++ [s]) e ↔ Img h r (Sel h r A st) s e := by
  unfold Sel
  rw [List.foldl_append]
  exact Iff.rfl

omit wf in
theorem sel_append {A : Nat → Prop} {st st' : List (Comb × (Nat → Bool))} :
    Sel h r A (st ++ st') = Sel h r (Sel h r A st) st' := by
  unfold Sel
  rw [List.foldl_append]

/-- The body of `hasEle` after the first reversal. -/
def lookRes (h : Heap) (S l : List Nat) (c : Comb) (R : List Cmpd) : Visdom.R Bool :=
  match lookUp h l c R with
  | .error p => .error p
  | .ok none => .ok false
  | .ok (some (l, c')) => hasRelated h S c' l

theorem select_up {c : Comb} {rules : Cmpd} {P : Nat → Bool} (hD : DecidesCmpd h r (Phase.lists h r .sorted) c rules P)
    (hc : Comb.up c = true) {x : Nat} {l found : List Nat} (hne : l ≠ []) (hl : Elems h r l) (hd : DocSorted h r l)
    (hu : Up h r x l) (hr : select h l rules (some c) = .ok found) :
    Elems h r found ∧ DocSorted h r found ∧ Up h r x found ∧
    ∀ e, e ∈ found ↔ h.isElem e = true ∧ P e = true ∧ ∃ y ∈ l, Rel h r c y e := by
  have hs : SibAsc h l := docSorted_sibAsc wf (fun x hx => (hl x hx).1) hd
  obtain ⟨cs, hcs, hsc, huc⟩ := cands_up wf hc hl hd hu
  have hsc' : SibAsc h cs := by
    refine docSorted_sibAsc wf (fun x hx => ?_) hsc
    exact (cands_elems wf (Elems.nodes hl) (fun _ => hl) (by rintro rfl; cases hc) hcs x hx).1
  have hord : OrderOk h c l := by
    cases c <;> first | exact True.intro | exact hs | cases hc
  have hns : c = .siblings → ∃ x, l = [x] := by rintro rfl; cases hc
  obtain ⟨⟨cs', h1, hel, h3⟩, hmem⟩ := select_decides (fun _ hl hs => lists_of_docSorted wf hl hs)
        (fun _ P hs => lists_filter P hs) wf hD
    (Or.inl rfl) (Elems.nodes hl) hne hord (fun _ => hl) hns
    (fun cs' h' => by rw [hcs] at h'; cases h'; exact ⟨hsc, hsc'⟩) hr
  have hel' : Elems h r found := by rw [h3]; exact fun x hx => hel x (List.mem_filter.1 hx).1
  refine ⟨hel', ?_, ?_, hmem⟩
  · rcases h1 with h1 | h1
    · rw [hcs] at h1; cases h1
      rw [h3]; exact List.Pairwise.sublist List.filter_sublist hsc
    · rw [h3]
      exact List.Pairwise.sublist List.filter_sublist h1.2
  · intro e he
    refine huc e ((cands_mem wf (Elems.nodes hl) hord (fun _ => hl) hcs e).2 ?_)
    obtain ⟨a, _, b⟩ := (hmem e).1 he
    exact ⟨a, b⟩

theorem lookRes_decides {S : List Nat} (hS : Nodes h r S) {x : Nat} {R : List Cmpd} {st : List (Comb × (Nat → Bool))}
    (hD : DecidesUp h r R st) {d : Comb} (hd : Comb.down d = true) {l : List Nat} (hne : l ≠ []) (hl : Elems h r l)
    (hs : DocSorted h r l) (hu : Up h r x l) :
    (∀ b, lookRes h S l (upOf d) R = .ok b →
      (b = true ↔ ∃ e ∈ l, ∃ y, Sel h r (· ∈ S) st.reverse y ∧ Rel h r d y e)) ∧
    ((∀ rules ∈ R, ∀ c, Comb.up c = true → AnswersCmpd h r (Phase.lists h r .sorted) c rules) →
      ∃ b, lookRes h S l (upOf d) R = .ok b) := by
  induction hD generalizing d l with
  | nil =>
    obtain ⟨b, h1, h2⟩ := hasRelated_ok wf hd hS (l := l) (fun x hx => (hl x hx).1)
    simp only [lookRes, lookUp]
    refine ⟨?_, fun _ => ⟨b, h1⟩⟩
    intro b' hb'
    rw [h1] at hb'; cases hb'
    exact h2
  | @cons rules s R st hs' hrest ih =>
    obtain ⟨⟨m, ss, rfl⟩, hd', hDec⟩ := hs'
    have hup := (reverse_down hd).2
    have hdec := hDec (upOf d) hup
    have hdown : ∀ t ∈ st, Comb.down t.1 = true := by
      intro t ht
      have key : ∀ {R st}, DecidesUp h r R st → t ∈ st → Comb.down t.1 = true := by
        intro R st hR ht
        induction hR with
        | nil => cases ht
        | cons h1 _ ih =>
          rcases List.mem_cons.1 ht with rfl | ht
          · exact h1.2.1
          · exact ih ht
      exact key hrest ht
    have hSelW : ∀ z, Sel h r (· ∈ S) st.reverse z → Within h r z := fun z hz =>
      sel_within hS.within (fun t ht => hdown t (List.mem_reverse.1 ht)) hz
    constructor
    · intro b hb
      simp only [lookRes, lookUp] at hb
      split at hb
      · cases hb
      · rename_i hres
        have hb' : b = false := by simpa using hb.symm
        subst hb'
        split at hres
        · cases hres
        · rename_i found hf
          obtain ⟨fe, fs, fu, fm⟩ := select_up wf hdec hup hne hl hs hu hf
          split at hres
          · rename_i hemp
            have hemp : found = [] := by simpa using hemp
            simp only [Bool.false_eq_true, false_iff]
            rintro ⟨e, he, y, hy, hrel⟩
            rw [List.reverse_cons, sel_snoc] at hy
            obtain ⟨hye, hyP, z, hz, hzy⟩ := hy
            have hyw : Within h r y := rel_within hd' (hSelW z hz) hzy
            have : y ∈ found := (fm y).2 ⟨hye, hyP, e, he, (rel_upOf hd hyw).2 hrel⟩
            rw [hemp] at this; cases this
          · rename_i hnem
            simp only [(reverse_down hd').1] at hres
            have key := (ih hd' (by simpa using hnem) fe fs fu).1 false (by unfold lookRes; rw [hres])
            simp only [Bool.false_eq_true, false_iff] at key ⊢
            rintro ⟨e, he, y, hy, hrel⟩
            apply key
            rw [List.reverse_cons, sel_snoc] at hy
            obtain ⟨hye, hyP, z, hz, hzy⟩ := hy
            have hyw : Within h r y := rel_within hd' (hSelW z hz) hzy
            exact ⟨y, (fm y).2 ⟨hye, hyP, e, he, (rel_upOf hd hyw).2 hrel⟩, z, hz, hzy⟩
      · rename_i l' c' hres
        split at hres
        · cases hres
        · rename_i found hf
          obtain ⟨fe, fs, fu, fm⟩ := select_up wf hdec hup hne hl hs hu hf
          split at hres
          · cases hres
          · rename_i hnem
            simp only [(reverse_down hd').1] at hres
            have key := (ih hd' (by simpa using hnem) fe fs fu).1 b (by unfold lookRes; rw [hres]; exact hb)
            rw [key]
            constructor
            · rintro ⟨y, hy, z, hz, hzy⟩
              obtain ⟨hye, hyP, e, he, hrel⟩ := (fm y).1 hy
              refine ⟨e, he, y, ?_, (rel_upOf hd (fe y hy).1).1 hrel⟩
              rw [List.reverse_cons, sel_snoc]
              exact ⟨hye, hyP, z, hz, hzy⟩
            · rintro ⟨e, he, y, hy, hrel⟩
              rw [List.reverse_cons, sel_snoc] at hy
              obtain ⟨hye, hyP, z, hz, hzy⟩ := hy
              have hyw : Within h r y := rel_within hd' (hSelW z hz) hzy
              exact ⟨y, (fm y).2 ⟨hye, hyP, e, he, (rel_upOf hd hyw).2 hrel⟩, z, hz, hzy⟩
    · intro hA
      obtain ⟨cs, hcs, hsc, huc⟩ := cands_up wf hup hl hs hu
      have hsc' : SibAsc h cs := by
        refine docSorted_sibAsc wf (fun x hx => ?_) hsc
        exact (cands_elems wf (Elems.nodes hl) (fun _ => hl) (by intro e; rw [e] at hup; cases hup) hcs x hx).1
      obtain ⟨found, hf⟩ := select_answers wf (fun _ hl hs => lists_of_docSorted wf hl hs)
        (fun _ P hs => lists_filter P hs)
        (hA _ List.mem_cons_self (upOf d) hup) hdec (oc := some (upOf d)) (Or.inl rfl) (Elems.nodes hl) hne (fun _ => hl)
        (by intro e; rw [e] at hup; cases hup) ⟨cs, hcs, hsc, hsc'⟩
      obtain ⟨fe, fs, fu, fm⟩ := select_up wf hdec hup hne hl hs hu hf
      simp only [lookRes, lookUp, hf]
      by_cases hemp : found.isEmpty = true
      · rw [if_pos hemp]; exact ⟨_, rfl⟩
      · rw [if_neg hemp]
        simp only [(reverse_down hd').1]
        exact (ih hd' (by simpa using hemp) fe fs fu).2 fun rules hr => hA rules (List.mem_cons_of_mem _ hr)

theorem decidesUp_reverse {up : List Cmpd} {st : List (Comb × (Nat → Bool))} (hD : DecidesUp h r up st) :
    DecidesUp h r up.reverse st.reverse := List.rel_reverse hD

/-- `hasEle` decides whether the element is reached from the set through the steps and the last combinator. -/
theorem hasEle_decides {S : List Nat} (hS : Nodes h r S) {x : Nat} (hx : Within h r x) (hxe : h.isElem x = true)
    {up : List Cmpd} {st : List (Comb × (Nat → Bool))} (hD : DecidesUp h r up st) {d : Comb} (hd : Comb.down d = true) :
    (∀ b, hasEle h S x d up = .ok b → (b = true ↔ ∃ y, Sel h r (· ∈ S) st y ∧ Rel h r d y x)) ∧
    ((∀ rules ∈ up, ∀ c, Comb.up c = true → AnswersCmpd h r (Phase.lists h r .sorted) c rules) →
      ∃ b, hasEle h S x d up = .ok b) := by
  have key := lookRes_decides wf hS (x := x) (decidesUp_reverse wf hD) hd (l := [x]) (by simp)
    (by intro y hy; simp at hy; subst hy; exact ⟨hx, hxe⟩) (List.pairwise_singleton _ _)
    (by intro y hy; simp at hy; subst hy; exact ⟨_, hx, .self, rfl, Nat.le_refl _⟩)
  have heq : hasEle h S x d up = lookRes h S [x] (upOf d) up.reverse := by
    unfold hasEle lookRes
    simp only [(reverse_down hd).1]
    split <;> simp_all
  rw [heq]
  refine ⟨fun b hb => ?_, fun hA => key.2 fun rules hr => hA rules (List.mem_reverse.1 hr)⟩
  rw [key.1 b hb, List.reverse_reverse]
  simp

/-- One step from the left: the elements reached, in the order of the next phase. -/
theorem select_step {ph : Phase} {c : Comb} {rules : Cmpd} {P : Nat → Bool}
    (hD : DecidesCmpd h r ((ph.next c).lists h r) c rules P) (hd : Comb.down c = true) {l res : List Nat} {oc : Option Comb}
    (hoc : oc = some c ∨ (oc = none ∧ HeadIs c rules)) (hl : Nodes h r l) (hne : l ≠ []) (hi : Inv h r ph l)
    (hr : select h l rules oc = .ok res) :
    Elems h r res ∧ Inv h r (ph.next c) res ∧ ∀ e, e ∈ res ↔ Img h r (· ∈ l) (c, P) e := by
  have hord : OrderOk h c l := by
    cases c <;> first | exact True.intro | exact Inv.firstAsc wf hl.within hi | cases hd
  have hch : c = .chain → Elems h r l := by rintro rfl; cases hd
  have hns : c = .siblings → ∃ x, l = [x] := by rintro rfl; cases hd
  obtain ⟨⟨cs, h1, hel, h3⟩, hmem⟩ := select_decides (fun _ hl hs => lists_of_docSorted wf hl hs) (fun _ P hs => lists_filter P hs) wf hD
    hoc hl hne hord hch hns
    (fun cs hcs => Inv.lists wf (fun x hx => (cands_elems wf hl hch hns hcs x hx).1) (cands_inv wf hl hi hd hcs)) hr
  refine ⟨by rw [h3]; exact fun x hx => hel x (List.mem_filter.1 hx).1, ?_, hmem⟩
  rw [h3]
  rcases h1 with h1 | h1
  · exact Inv.filter P (cands_inv wf hl hi hd h1)
  · obtain ⟨rfl, h1⟩ := h1
    refine Inv.filter P ?_
    have hw : ∀ x ∈ cs, Within h r x := fun x hx => (hel x hx).1
    cases ph with
    | anti => exact h1
    | sorted => exact h1
    | down => exact (docSorted_sibAsc wf hw h1).firstAsc []
    | sib => exact (docSorted_sibAsc wf hw h1).firstAsc []
    | first => exact (docSorted_sibAsc wf hw h1).firstAsc []

theorem selectChain_decides {ph : Phase} {q : List Cmpd} {st : List (Comb × (Nat → Bool))} (hD : DecidesSteps h r ph q st)
    {l res : List Nat} (hl : Nodes h r l) (hi : Inv h r ph l) (hr : selectChain h l q = .ok res) :
    (q ≠ [] → Elems h r res) ∧ Inv h r (ph.after (st.map (·.1))) res ∧ ∀ e, e ∈ res ↔ Sel h r (· ∈ l) st e := by
  induction hD generalizing l with
  | nil =>
    simp only [selectChain, Except.ok.injEq] at hr
    subst hr
    exact ⟨fun hh => absurd rfl hh, hi, fun e => Iff.rfl⟩
  | @cons ph c P rules q st hh hd hdec _ ih =>
    simp only [selectChain] at hr
    split at hr
    · rename_i hemp
      have hemp : l = [] := by simpa using hemp
      simp only [Except.ok.injEq] at hr
      subst hr
      subst hemp
      refine ⟨fun _ x hx => (by cases hx), ?_, ?_⟩
      · have : ∀ ph : Phase, Inv h r ph [] := by
          intro ph; cases ph
          · exact .nil
          · exact .nil
          · exact ⟨.nil, .nil⟩
          · exact .nil
          · exact True.intro
        exact this _
      · intro e
        simp only [List.not_mem_nil, false_iff]
        intro he
        have : ∀ (st : List (Comb × (Nat → Bool))) (A : Nat → Prop), (∀ x, ¬ A x) → ∀ e, ¬ Sel h r A st e := by
          intro st
          induction st with
          | nil => intro A hA e; exact hA e
          | cons s st ih2 =>
            intro A hA e
            refine ih2 (Img h r A s) ?_ e
            rintro x ⟨_, _, y, hy, _⟩
            exact hA y hy
        exact this _ _ (by simp) e he
    · rename_i hnem
      split at hr
      · cases hr
      · rename_i l' hl'
        obtain ⟨e1, e2, e3⟩ := select_step wf hdec hd (Or.inr ⟨rfl, hh⟩) hl (by simpa using hnem) hi hl'
        obtain ⟨f1, f2, f3⟩ := ih (Elems.nodes e1) e2 hr
        refine ⟨fun _ => ?_, f2, ?_⟩
        · by_cases hq : q = []
          · subst hq
            simp only [selectChain, Except.ok.injEq] at hr
            rw [← hr]; exact e1
          · exact f1 hq
        · intro e
          rw [f3]
          have : (fun x => x ∈ l') = Img h r (fun x => x ∈ l) (c, P) := by
            funext x; exact propext (e3 x)
          rw [this]
          exact Iff.rfl

theorem selectChain_answers {ph : Phase} {q : List Cmpd} {st : List (Comb × (Nat → Bool))} (hD : DecidesSteps h r ph q st)
    (hA : AnswersSteps h r ph q) {l : List Nat} (hl : Nodes h r l) (hi : Inv h r ph l) :
    ∃ res, selectChain h l q = .ok res := by
  induction hD generalizing l with
  | nil => exact ⟨l, rfl⟩
  | @cons ph c P rules q st hh hd hdec _ ih =>
    simp only [selectChain]
    split
    · exact ⟨_, rfl⟩
    · rename_i hnem
      cases hA with
      | @cons _ c' _ _ hh' hc hans hrest =>
        have hcc : c' = c := by
          obtain ⟨m, ss, rfl⟩ := hh
          obtain ⟨m', ss', he⟩ := hh'
          simp only [List.cons.injEq, Prod.mk.injEq] at he
          exact he.1.2.symm
        subst hcc
        have hns : c' = .siblings → ∃ x, l = [x] := by rintro rfl; cases hd
        have hch : c' = .chain → Elems h r l := by rintro rfl; cases hd
        obtain ⟨cs, hcs⟩ : ∃ cs, cands h c' l = .ok cs := by
          by_cases hca : c' = .childrenAll
          · rw [hca]
            exact childrenAll_noneUp wf hl.within (Inv.noneUp wf hl.within hi (hc hca))
          · exact cands_total wf hl.within hca
        have hQ2 := Inv.lists wf (fun x hx => (cands_elems wf hl hch hns hcs x hx).1) (cands_inv wf hl hi hd hcs)
        obtain ⟨l', hl'⟩ := select_answers wf (fun _ hl hs => lists_of_docSorted wf hl hs) (fun _ P hs => lists_filter P hs) hans hdec
          (oc := none) (Or.inr ⟨rfl, hh⟩) hl (by simpa using hnem) hch hns ⟨cs, hcs, hQ2⟩
        obtain ⟨e1, e2, e3⟩ := select_step wf hdec hd (Or.inr ⟨rfl, hh⟩) hl (by simpa using hnem) hi hl'
        rw [hl']
        exact ih hrest (Elems.nodes e1) e2

/-- What is reached from the set through steps that start downwards is below the set. -/
theorem sel_below {S : List Nat} (hS : ∀ x ∈ S, Within h r x) {d : Comb} {D : Nat → Bool}
    (hd : d = .children ∨ d = .childrenAll)
    {st : List (Comb × (Nat → Bool))} (hst : ∀ s ∈ st, Comb.down s.1 = true) {y : Nat}
    (hy : Sel h r (· ∈ S) ((d, D) :: st) y) : ∃ s ∈ S, Below h s y := by
  have hstep : ∀ {c : Comb} {z e : Nat}, Comb.down c = true → (∃ s ∈ S, Below h s z) → Rel h r c z e → ∃ s ∈ S, Below h s e := by
    rintro c z e hc ⟨s, hs, hb⟩ hrel
    refine ⟨s, hs, ?_⟩
    have hsib : LaterSib h r z e → Below h s e := by
      rintro ⟨p, i, j, hp, _, hi, hj⟩
      obtain ⟨q, hq, hk⟩ := hb.last
      have h1 := parent_of_child wf hp (List.mem_of_getElem? hi)
      have h2 := parent_of_child wf ((hS s hs).trans hq) hk
      rw [h1] at h2
      obtain rfl : p = q := by simpa using h2
      exact Spec.Below.snoc hq (List.mem_of_getElem? hj)
    cases c with
    | childrenAll =>
      obtain ⟨q, hq, hk⟩ := Spec.Below.last hrel
      exact Spec.Below.snoc (hb.within.trans hq) hk
    | children => exact Spec.Below.snoc hb.within hrel
    | next => exact hsib (nextSib_later hrel)
    | nextAll => exact hsib hrel
    | _ => cases hc
  have hall : ∀ (st : List (Comb × (Nat → Bool))) (A : Nat → Prop), (∀ s ∈ st, Comb.down s.1 = true) →
      (∀ x, A x → ∃ s ∈ S, Below h s x) → ∀ y, Sel h r A st y → ∃ s ∈ S, Below h s y := by
    intro st
    induction st with
    | nil => intro A _ hA y hy; exact hA y hy
    | cons s st ih =>
      intro A hd hA y hy
      refine ih (Img h r A s) (fun t ht => hd t (List.mem_cons_of_mem _ ht)) ?_ y hy
      rintro x ⟨_, _, z, hz, hrel⟩
      exact hstep (hd s List.mem_cons_self) (hA z hz) hrel
  refine hall st (Img h r (· ∈ S) (d, D)) hst ?_ y hy
  rintro x ⟨_, _, z, hz, hrel⟩
  refine ⟨z, hz, ?_⟩
  rcases hd with rfl | rfl
  · exact Spec.Below.snoc .self hrel
  · exact hrel

omit wf in
theorem decidesUp_down {R : List Cmpd} {st : List (Comb × (Nat → Bool))} (hD : DecidesUp h r R st) :
    ∀ t ∈ st, Comb.down t.1 = true := by
  induction hD with
  | nil => intro t ht; cases ht
  | cons h1 _ ih =>
    intro t ht
    rcases List.mem_cons.1 ht with rfl | ht
    · exact h1.2.1
    · exact ih t ht

omit wf in
theorem headIs_head {c : Comb} {s : Seg} {ss : List Seg} (hh : HeadIs c (s :: ss)) : s.2 = c := by
  obtain ⟨m, ss', he⟩ := hh
  simp only [List.cons.injEq] at he
  rw [he.1]

/-- The first compound of a looked-up query. -/
theorem findFirst_look {ph : Phase} {up : List Cmpd} {first : Cmpd} {d : Comb} {D : Nat → Bool}
    {st1 : List (Comb × (Nat → Bool))} {c : Comb} {P : Nat → Bool}
    (hup : DecidesUp h r up ((d, D) :: st1)) (hdd : d = .children ∨ d = .childrenAll) (hh : HeadIs c first)
    (hd : Comb.down c = true) (hdec : DecidesCmpd h r ((ph.next .childrenAll).lists h r) .childrenAll first P)
    {S res : List Nat} (hS : Nodes h r S) (hne : S ≠ []) (hi : Inv h r ph S)
    (hr : findFirst h S (some up) first = .ok res) :
    Elems h r res ∧ Inv h r (ph.next .childrenAll) res ∧
    ∀ e, e ∈ res ↔ Sel h r (· ∈ S) ((d, D) :: st1 ++ [(c, P)]) e := by
  simp only [findFirst] at hr
  split at hr
  · cases hr
  · rename_i found hf
    obtain ⟨e1, e2, e3⟩ := select_step wf hdec rfl (Or.inl rfl) hS hne hi hf
    cases first with
    | nil => cases hr
    | cons s ss =>
      simp only [headIs_head hh] at hr
      have hok := fun {x} => hasEle_decides wf hS (x := x)
      have hdown := decidesUp_down hup
      have hmem : ∀ e, e ∈ res ↔ e ∈ found ∧ ∃ y, Sel h r (· ∈ S) ((d, D) :: st1) y ∧ Rel h r c y e := by
        intro e
        rw [filterR_mem hr]
        constructor
        · rintro ⟨he, hb⟩
          exact ⟨he, ((hok (e1 e he).1 (e1 e he).2 hup hd).1 true hb).1 rfl⟩
        · rintro ⟨he, hex⟩
          refine ⟨he, ?_⟩
          have hdef : ∀ (l res : List Nat), filterR (fun x => hasEle h S x c up) l = .ok res → ∀ e ∈ l,
              ∃ b, hasEle h S e c up = .ok b := by
            intro l
            induction l with
            | nil => intro _ _ e he; cases he
            | cons a l ih =>
              intro res hr e he
              simp only [filterR] at hr
              split at hr
              · cases hr
              · rename_i b hb
                split at hr
                · cases hr
                · rename_i y hy
                  rcases List.mem_cons.1 he with rfl | he
                  · exact ⟨b, hb⟩
                  · exact ih y hy e he
          obtain ⟨b, hb⟩ := hdef _ _ hr e he
          rw [hb, ((hok (e1 e he).1 (e1 e he).2 hup hd).1 b hb).2 hex]
      have hsub : res = found.filter fun x => decide (x ∈ res) := by
        have : ∀ (f : Nat → Visdom.R Bool) (l res : List Nat), filterR f l = .ok res →
            res = l.filter fun x => match f x with | .ok true => true | _ => false := by
          intro f l res hr
          refine filterR_inv hr ?_
          intro x hx b hb
          rw [hb]; cases b <;> rfl
        conv_lhs => rw [this _ _ _ hr]
        refine List.filter_congr ?_
        intro x hx
        rw [eq_comm, Bool.eq_iff_iff, decide_eq_true_eq, filterR_mem hr]
        simp only [hx, true_and]
        split <;> simp_all
      refine ⟨fun x hx => e1 x ((hmem x).1 hx).1, ?_, ?_⟩
      · rw [hsub]; exact Inv.filter _ e2
      · intro e
        rw [hmem, e3, sel_snoc]
        unfold Img
        constructor
        · rintro ⟨⟨a, b, _⟩, y, hy, hrel⟩
          exact ⟨a, b, y, hy, hrel⟩
        · rintro ⟨a, b, y, hy, hrel⟩
          refine ⟨⟨a, b, ?_⟩, y, hy, hrel⟩
          have : Sel h r (· ∈ S) ((d, D) :: (st1 ++ [(c, fun _ => true)])) e := by
            have hs : Sel h r (· ∈ S) ((d, D) :: st1 ++ [(c, fun _ => true)]) e := sel_snoc.2 ⟨a, rfl, y, hy, hrel⟩
            exact hs
          obtain ⟨s, hs, hb⟩ := sel_below wf hS.within hdd (by
            intro t ht
            rcases List.mem_append.1 ht with ht | ht
            · exact hdown t (List.mem_cons_of_mem _ ht)
            · simp at ht; subst ht; exact hd) this
          exact ⟨s, hs, hb⟩

/-- A process returns exactly the elements reached through its steps, in the order of the last phase. -/
theorem findProc_decides {ph ph' : Phase} {p : Proc} {st : List (Comb × (Nat → Bool))} (hD : DecidesProc h r ph p st ph')
    {S res : List Nat} (hS : Nodes h r S) (hne : S ≠ []) (hi : Inv h r ph S) (hr : findProc h S p = .ok res) :
    Elems h r res ∧ Inv h r ph' res ∧ ∀ e, e ∈ res ↔ Sel h r (· ∈ S) st e := by
  cases hD with
  | @plain q st hq hD =>
    cases q with
    | nil => exact absurd rfl hq
    | cons first rest =>
      have : selectChain h S (first :: rest) = .ok res := by
        simp only [findProc, findFirst] at hr
        simp only [selectChain]
        rw [if_neg (by simpa using hne)]
        exact hr
      obtain ⟨a, b, c⟩ := selectChain_decides wf hD hS hi this
      exact ⟨a hq, b, c⟩
  | @look up first rest d D st1 c P st2 hup hdd hh hd hdec hrest =>
    simp only [findProc] at hr
    split at hr
    · cases hr
    · rename_i group hg
      obtain ⟨a, b, hm⟩ := findFirst_look wf hup hdd hh hd hdec hS hne hi hg
      obtain ⟨f1, f2, f3⟩ := selectChain_decides wf hrest (Elems.nodes a) b hr
      refine ⟨?_, f2, ?_⟩
      · cases rest with
        | nil =>
          simp only [selectChain, Except.ok.injEq] at hr
          rw [← hr]; exact a
        | cons _ _ => exact f1 (by simp)
      · intro e
        rw [f3, List.append_cons, sel_append]
        have : (fun x => x ∈ group) = Sel h r (· ∈ S) ((d, D) :: st1 ++ [(c, P)]) := by
          funext x; exact propext (hm x)
        rw [this]

theorem findProc_answers {ph ph' : Phase} {p : Proc} {st : List (Comb × (Nat → Bool))} (hD : DecidesProc h r ph p st ph')
    (hA : AnswersProc h r ph p) {S : List Nat} (hS : Nodes h r S) (hne : S ≠ []) (hi : Inv h r ph S) :
    ∃ res, findProc h S p = .ok res := by
  cases hD with
  | @plain q st hq hD =>
    cases hA with
    | plain hA =>
      obtain ⟨res, hres⟩ := selectChain_answers wf hD hA hS hi
      cases q with
      | nil => exact absurd rfl hq
      | cons first rest =>
        simp only [selectChain] at hres
        rw [if_neg (by simpa using hne)] at hres
        exact ⟨res, by simpa only [findProc, findFirst] using hres⟩
  | @look up first rest d D st1 c P st2 hup hdd hh hd hdec hrest =>
    cases hA with
    | look hph hAup hAf hAr =>
      have hnext : ph.next .childrenAll = .sorted := by rcases hph with rfl | rfl <;> rfl
      have hdoc : DocSorted h r S := by
        rcases hph with rfl | rfl
        · exact AntiSorted.docSorted hi
        · exact hi
      obtain ⟨cs, hcs, hcsd⟩ := childrenAll_sorted wf hS.within hdoc
      have hel := cands_elems wf hS (c := .childrenAll) (by simp) (by simp) hcs
      rw [hnext] at hdec hrest
      obtain ⟨found, hf⟩ := select_answers wf (fun _ hl hs => lists_of_docSorted wf hl hs) (fun _ P hs => lists_filter P hs) hAf hdec
        (oc := some .childrenAll) (Or.inl rfl) hS hne (by simp) (by simp)
        ⟨cs, hcs, hcsd, docSorted_sibAsc wf (fun x hx => (hel x hx).1) hcsd⟩
      obtain ⟨e1, _, _⟩ := select_step wf (ph := ph) (by rw [hnext]; exact hdec) rfl (Or.inl rfl) hS hne hi hf
      have hgroup : ∃ group, findFirst h S (some up) first = .ok group := by
        simp only [findFirst, hf]
        cases first with
        | nil => obtain ⟨_, _, he⟩ := hh; cases he
        | cons s ss =>
          simp only [headIs_head hh]
          exact filterR_total fun x hx => (hasEle_decides wf hS (e1 x hx).1 (e1 x hx).2 hup hd).2 hAup
      obtain ⟨group, hg⟩ := hgroup
      obtain ⟨a, b, _⟩ := findFirst_look wf hup hdd hh hd (ph := ph) (by rw [hnext]; exact hdec) hS hne hi hg
      rw [hnext] at b
      obtain ⟨res, hres⟩ := selectChain_answers wf hrest hAr (Elems.nodes a) b
      exact ⟨res, by simpa only [findProc, hg] using hres⟩

end
end Visdom
