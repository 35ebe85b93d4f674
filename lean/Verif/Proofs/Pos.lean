import Verif.Proofs.PosOnly
import Verif.Proofs.Find
import Verif.Model.Compile
import Verif.Props.Nth
import Mathlib.Data.List.Sort
import Mathlib.Data.List.Perm.Subperm
/-!
# The positional rules decide positions among siblings
-/
namespace Visdom
open Spec
variable {h : Heap} {r : Nat}

/-! ### names -/

theorem upper_lower_inj {a b : Char} : asciiUpper (asciiLower a) = asciiUpper (asciiLower b) ↔ lowerCode a = lowerCode b := by
  constructor
  · intro he
    have := congrArg Char.toNat he
    rw [toNat_asciiUpper, toNat_asciiUpper, toNat_asciiLower, toNat_asciiLower] at this
    have la : ¬ (65 ≤ lowerCode a ∧ lowerCode a ≤ 90) := by unfold lowerCode; split <;> omega
    have lb : ¬ (65 ≤ lowerCode b ∧ lowerCode b ≤ 90) := by unfold lowerCode; split <;> omega
    split at this <;> split at this <;> omega
  · intro he
    have : asciiLower a = asciiLower b := char_ext (by rw [toNat_asciiLower, toNat_asciiLower, he])
    rw [this]

theorem map_upper_lower {a b : List Char} :
    (a.map asciiLower).map asciiUpper = (b.map asciiLower).map asciiUpper ↔ SameIgnoringCase a b := by
  unfold SameIgnoringCase
  induction a generalizing b with
  | nil => cases b <;> simp
  | cons x a ih =>
    cases b with
    | nil => simp
    | cons y b => simp only [List.map_cons, List.cons.injEq, upper_lower_inj, ih]

theorem tagName_eq {x y : Nat} (hx : h.isElem x = true) (hy : h.isElem y = true) :
    tagName h x = tagName h y ↔ SameIgnoringCase (h.node x).name (h.node y).name := by
  unfold tagName tagNames
  rw [if_pos hx, if_pos hy, map_upper_lower]

/-! ### positions -/

/-- The 0-based position of a child. -/
def place (h : Heap) (last ofType : Bool) (C : List Nat) (c : Nat) : Nat :=
  let D := if last then C.reverse else C
  if ofType then nameCount h c (D.take (D.idxOf c)) else D.idxOf c

theorem idxOf_filter {c : Nat} {D : List Nat} {p : Nat → Bool} (hc : c ∈ D) (hp : p c = true) :
    (D.filter p).idxOf c = (D.take (D.idxOf c)).countP p := by
  induction D with
  | nil => cases hc
  | cons d D ih =>
    by_cases hd : d = c
    · subst hd; simp [hp]
    · have hc' : c ∈ D := (List.mem_cons.1 hc).resolve_left (Ne.symm hd)
      rw [List.idxOf_cons_ne _ hd, List.take_succ_cons, List.countP_cons]
      by_cases hpd : p d = true
      · rw [List.filter_cons_of_pos hpd, List.idxOf_cons_ne _ hd, ih hc', if_pos hpd]
      · rw [List.filter_cons_of_neg hpd, ih hc', if_neg hpd]; rfl

theorem getElem?_iff_idxOf {l : List Nat} {c i : Nat} (hn : l.Nodup) (hc : c ∈ l) : l[i]? = some c ↔ i = l.idxOf c := by
  have hlt := List.idxOf_lt_length_of_mem hc
  constructor
  · intro hi
    obtain ⟨hil, he⟩ := List.getElem?_eq_some_iff.1 hi
    have := hn.idxOf_getElem i hil
    rw [he] at this
    exact this.symm
  · rintro rfl
    rw [List.getElem?_eq_getElem hlt, List.getElem_idxOf]

theorem children_nodup (wf : TreeWF h r) {p : Nat} (hp : Within h r p) : (h.children p).Nodup :=
  (kids_nodup wf hp).sublist List.filter_sublist

theorem nodup_order {C : List Nat} (hn : C.Nodup) (last : Bool) : (if last then C.reverse else C).Nodup := by
  cases last
  · exact hn
  · exact List.nodup_reverse.2 hn

theorem group_eq {last ofType : Bool} {p c : Nat} (hce : h.isElem c = true) :
    group h last ofType p c = (if last then (h.children p).reverse else h.children p).filter
      fun y => !ofType || tagName h y == tagName h c := by
  have hf : ((h.kids p).filter fun y => h.isElem y && (!ofType || decide (SameIgnoringCase (h.node y).name (h.node c).name))) =
      (h.children p).filter fun y => !ofType || tagName h y == tagName h c := by
    unfold Heap.children
    rw [List.filter_filter]
    refine List.filter_congr ?_
    intro y _
    cases hy : h.isElem y with
    | false => simp
    | true =>
      have := tagName_eq hy hce
      cases ofType with
      | false => simp
      | true =>
        simp only [Bool.true_and, Bool.not_true, Bool.false_or, Bool.and_true]
        rw [Bool.eq_iff_iff, decide_eq_true_eq, beq_iff_eq, this]
  unfold group
  simp only [hf]
  cases last with
  | false => rfl
  | true => simp [List.filter_reverse]

theorem atPos_iff (wf : TreeWF h r) {last ofType : Bool} {p c j : Nat} (hp : Within h r p) (hc : c ∈ h.children p) :
    AtPos h r last ofType c j ↔ j = place h last ofType (h.children p) c + 1 := by
  obtain ⟨hck, hce⟩ := mem_children.1 hc
  have hD := nodup_order (children_nodup wf hp) last
  have hcD : c ∈ (if last then (h.children p).reverse else h.children p) := by cases last <;> simp [hc]
  have hkey : ∀ (i : Nat), (group h last ofType p c)[i]? = some c ↔ i = place h last ofType (h.children p) c := by
    intro i
    rw [group_eq hce, getElem?_iff_idxOf (hD.sublist List.filter_sublist) (List.mem_filter.2 ⟨hcD, by simp⟩),
      idxOf_filter hcD (by simp)]
    unfold place
    cases ofType with
    | false =>
      simp only [Bool.not_false, Bool.true_or, List.countP_true, List.length_take, Bool.false_eq_true, if_false]
      rw [Nat.min_eq_left (List.idxOf_lt_length_of_mem hcD).le]
    | true => simp only [Bool.not_true, Bool.false_or, if_true, nameCount]
  constructor
  · rintro ⟨q, i, hq, hcq, hi, rfl⟩
    have h1 := parent_of_child wf hp hck
    have h2 := parent_of_child wf hq hcq
    have : p = q := by rw [h1] at h2; exact Option.some.inj h2
    subst this
    rw [(hkey i).1 hi]
  · rintro rfl
    exact ⟨p, _, hp, hck, (hkey _).2 rfl, rfl⟩

theorem place_lt {last ofType : Bool} {C : List Nat} {c : Nat} (hc : c ∈ C) : place h last ofType C c < C.length := by
  have hcD : c ∈ (if last then C.reverse else C) := by cases last <;> simp [hc]
  have hl : (if last then C.reverse else C).length = C.length := by cases last <;> simp
  have hlt := List.idxOf_lt_length_of_mem hcD
  unfold place
  cases ofType with
  | false => simp only [Bool.false_eq_true, if_false]; omega
  | true =>
    simp only [if_true, nameCount]
    refine Nat.lt_of_le_of_lt List.countP_le_length ?_
    rw [List.length_take]; omega

/-- The allowed positions are those of the selected ones. -/
def PosList (sel : Nat → Prop) (total : Nat) (allow : List Nat) : Prop :=
  allow.Pairwise (· < ·) ∧ ∀ j : Nat, j ∈ allow ↔ j < total ∧ sel (j + 1)

/-- What the rules need of the allowed positions: those below the number of children are the selected ones. Among all
siblings there must be no others and they must be sorted, among those of one name 0 must come first. -/
structure PosFit (ofType : Bool) (sel : Nat → Prop) (total : Nat) (allow : List Nat) : Prop where
  mem : ∀ j < total, j ∈ allow ↔ sel (j + 1)
  zero : ZeroFirst allow
  sorted : ofType = false → allow.Pairwise (· < ·)
  lt : ofType = false → ∀ j ∈ allow, j < total

theorem PosList.fit {sel : Nat → Prop} {total : Nat} {allow : List Nat} (ha : PosList sel total allow) (ofType : Bool) :
    PosFit ofType sel total allow where
  mem := fun j hj => by rw [ha.2]; exact ⟨fun h' => h'.2, fun h' => ⟨hj, h'⟩⟩
  zero := zeroFirst_of_sorted ha.1
  sorted := fun _ => ha.1
  lt := fun _ j hj => ((ha.2 j).1 hj).1

/-- `nthChildHandle` or `ofTypeCore`. -/
def posHandle (h : Heap) (ofType asc : Bool) (sibs allow C : List Nat) : R (List Nat) :=
  if ofType then ofTypeCore h asc allow C sibs else nthChildHandle asc sibs allow C

theorem children_index (wf : TreeWF h r) {p : Nat} (hp : Within h r p) :
    (h.children p).Pairwise fun a b => h.index a < h.index b := by
  have := children_sibAsc wf hp
  unfold SibAsc at this
  refine this.imp_of_mem ?_
  intro a b ha hb hab
  exact hab (by rw [parent_of_child wf hp (mem_children.1 ha).1, parent_of_child wf hp (mem_children.1 hb).1])

section
variable {last ofType : Bool} {sel : Nat → Prop} {P : Nat → Bool}

/-- `P` holds for the elements at a selected position. -/
def IsPos (h : Heap) (r : Nat) (last ofType : Bool) (sel : Nat → Prop) (P : Nat → Bool) : Prop :=
  ∀ x, Within h r x → h.isElem x = true → (P x = true ↔ ∃ j, AtPos h r last ofType x j ∧ sel j)

theorem IsPos.iff_place (wf : TreeWF h r) (hP : IsPos h r last ofType sel P) {p c : Nat} (hp : Within h r p)
    (hc : c ∈ h.children p) : P c = true ↔ sel (place h last ofType (h.children p) c + 1) := by
  obtain ⟨hck, hce⟩ := mem_children.1 hc
  rw [hP c (.step hp hck) hce]
  constructor
  · rintro ⟨j, hj, hs⟩; rw [(atPos_iff wf hp hc).1 hj] at hs; exact hs
  · intro hs; exact ⟨_, (atPos_iff wf hp hc).2 rfl, hs⟩

theorem IsPos.iff_allow (wf : TreeWF h r) (hP : IsPos h r last ofType sel P) {p c : Nat} {allow : List Nat}
    (hp : Within h r p) (hc : c ∈ h.children p) (ha : PosFit ofType sel (h.children p).length allow) :
    P c = true ↔ place h last ofType (h.children p) c ∈ allow := by
  rw [hP.iff_place wf hp hc, ha.mem _ (place_lt hc)]

theorem posHandle_filter (wf : TreeWF h r) (hP : IsPos h r last ofType sel P) {p : Nat} {allow sibs res : List Nat}
    (hp : Within h r p) (ha : PosFit ofType sel (h.children p).length allow) (hsub : sibs.Sublist (h.children p))
    (hr : posHandle h ofType (!last) sibs allow (h.children p) = .ok res) : res = sibs.filter P := by
  have hn := children_nodup wf hp
  unfold posHandle at hr
  cases hof : ofType with
  | false =>
    subst hof
    simp only [Bool.false_eq_true, if_false] at hr
    refine nthChildHandle_filter hn (ha.sorted rfl) hsub ?_ hr
    intro i c hc
    have hcm := List.mem_of_getElem? hc
    rw [hP.iff_allow wf hp hcm ha]
    have hidx := (getElem?_iff_idxOf hn hcm).1 hc
    have hil := (List.getElem?_eq_some_iff.1 hc).1
    cases last with
    | false => simp only [place, Bool.not_false, if_true, Bool.false_eq_true, if_false, hidx]
    | true =>
      simp only [place, Bool.not_true, if_true, Bool.false_eq_true, if_false]
      have : (h.children p).reverse[(h.children p).length - 1 - i]? = some c := by
        rw [List.getElem?_reverse (by omega), show (h.children p).length - 1 - ((h.children p).length - 1 - i) = i by omega]
        exact hc
      rw [(getElem?_iff_idxOf (List.nodup_reverse.2 hn) (List.mem_reverse.2 hcm)).1 this]
  | true =>
    subst hof
    simp only [if_true] at hr
    refine ofTypeCore_filter (children_index wf hp) ha.zero hsub ?_ hr
    intro i c hc
    have hcm : c ∈ h.children p := by
      have := List.mem_of_getElem? hc
      cases last <;> simpa using this
    have hord : (if (!last) = true then h.children p else (h.children p).reverse) =
        (if last = true then (h.children p).reverse else h.children p) := by cases last <;> rfl
    rw [hP.iff_allow wf hp hcm ha]
    simp only [place, if_true]
    rw [hord] at hc ⊢
    rw [(getElem?_iff_idxOf (nodup_order hn last) (List.mem_of_getElem? hc)).1 hc]

theorem posHandle_total {asc : Bool} {sibs allow C : List Nat} (hb : ofType = false → ∀ a ∈ allow, a < C.length) (hne : allow ≠ []) :
    ∃ res, posHandle h ofType asc sibs allow C = .ok res := by
  unfold posHandle
  cases ofType with
  | false => exact nthChildHandle_total (hb rfl)
  | true => exact ofTypeCore_total hne

/-! ### groups of siblings -/

theorem sibs_sublist (wf : TreeWF h r) {p : Nat} {l : List Nat} (hp : Within h r p) (hl : Elems h r l) (hs : SibAsc h l)
    (hpar : ∀ x ∈ l, h.parent x = some p) : l.Sublist (h.children p) := by
  have h1 : l.Pairwise fun a b => h.index a < h.index b := by
    unfold SibAsc at hs
    refine hs.imp_of_mem ?_
    intro a b ha hb hab
    exact hab (by rw [hpar a ha, hpar b hb])
  have hsub : ∀ x ∈ l, x ∈ h.children p := by
    intro x hx
    obtain ⟨hw, he⟩ := hl x hx
    obtain ⟨_, hxi⟩ := parent_some wf hw (hpar x hx)
    exact mem_children.2 ⟨List.mem_of_getElem? hxi, he⟩
  have : Std.Antisymm (α := Nat) fun a b => h.index a < h.index b := ⟨fun a b h1 h2 => absurd h1 (by omega)⟩
  exact List.sublist_of_subperm_of_pairwise (hs.nodup.subperm hsub) h1 (children_index wf hp)

theorem _root_.Visdom.Spec.SibAsc.runAsc {l : List Nat} (hs : SibAsc h l) : RunAsc h l := List.Pairwise.isChain hs

/-- Among the children of one node both orders are the same. -/
theorem _root_.Visdom.Spec.RunAsc.sibAsc {p : Nat} {l : List Nat} (hs : RunAsc h l) (hpar : ∀ x ∈ l, h.parent x = some p) : SibAsc h l := by
  have h1 : l.IsChain fun a b => h.index a < h.index b :=
    List.IsChain.imp_of_mem_imp (fun a b ha hb hab => hab (by rw [hpar a ha, hpar b hb])) hs
  have : Trans (α := Nat) (β := Nat) (γ := Nat) (fun a b => h.index a < h.index b) (fun a b => h.index a < h.index b)
      (fun a b => h.index a < h.index b) := ⟨fun h1 h2 => Nat.lt_trans h1 h2⟩
  have h2 := List.isChain_iff_pairwise.1 h1
  unfold SibAsc
  exact List.Pairwise.imp (S := fun a b => h.parent a = h.parent b → h.index a < h.index b) (fun h1 _ => h1) h2

theorem _root_.Visdom.Spec.RunAsc.slice {l : List Nat} (hs : RunAsc h l) (d : SibData) : RunAsc h (slice l d) :=
  List.IsChain.infix hs (slice_infix l d)

theorem elems_parent (wf : TreeWF h r) {l : List Nat} (hl : Elems h r l) : ∀ x ∈ l, h.parent x ≠ none := by
  intro x hx
  obtain ⟨hw, he⟩ := hl x hx
  obtain ⟨p, hxp, _⟩ := parent_inv wf hw (elem_ne_root wf he)
  rw [hxp]; simp

theorem elems_parent_within (wf : TreeWF h r) {l : List Nat} (hl : Elems h r l) {x p : Nat} (hx : x ∈ l)
    (hxp : h.parent x = some p) : Within h r p := (parent_some wf (hl x hx).1 hxp).1

theorem handleNthOfType_eq {asc : Bool} {l : List Nat} {d : SibData} {p : Nat} {a : List Nat} (hp : d.parent = some p)
    (ha : d.allow = some a) (hne : a ≠ []) : handleNthOfType h asc l d = ofTypeCore h asc a (h.children p) (slice l d) := by
  unfold handleNthOfType ofTypeCore
  cases a with
  | nil => exact absurd rfl hne
  | cons a as => simp only [ha, hp]; rfl

theorem handleNthChild_eq {asc : Bool} {l : List Nat} {d : SibData} {p : Nat} {a : List Nat} (hp : d.parent = some p)
    (ha : d.allow = some a) (hne : a ≠ []) : handleNthChild h asc l d = nthChildHandle asc (slice l d) a (h.children p) := by
  unfold handleNthChild
  cases a with
  | nil => exact absurd rfl hne
  | cons a as => simp only [ha, hp]

/-- The callback of the positional rules. -/
def posCb (h : Heap) (ofType asc : Bool) (l : List Nat) (d : SibData) : R (List Nat) :=
  if ofType then handleNthOfType h asc l d else handleNthChild h asc l d

theorem posCb_eq {asc : Bool} {l : List Nat} {d : SibData} {p : Nat} {a : List Nat} (hp : d.parent = some p)
    (ha : d.allow = some a) : posCb h ofType asc l d =
      if a = [] then .ok [] else posHandle h ofType asc (slice l d) a (h.children p) := by
  unfold posCb posHandle
  split
  · split
    · rename_i hne; subst hne; unfold handleNthOfType; rw [ha]
    · rename_i hne; exact handleNthOfType_eq hp ha hne
  · split
    · rename_i hne; subst hne; unfold handleNthChild; rw [ha]
    · rename_i hne; exact handleNthChild_eq hp ha hne

theorem groupPos_filter (wf : TreeWF h r) (hP : IsPos h r last ofType sel P) {allowFn : Nat → R (Option (List Nat))}
    (hallow : ∀ p a, Within h r p → h.children p ≠ [] → allowFn (h.children p).length = .ok a →
      ∃ al, a = some al ∧ PosFit ofType sel (h.children p).length al)
    {L res : List Nat} (hL : Elems h r L) (hs : RunAsc h L)
    (hr : groupDo h allowFn (posCb h ofType (!last) L) L = .ok res) : res = L.filter P := by
  refine groupDo_filter (elems_parent wf hL) ?_ hr
  intro d p hdp hda hpar hne y hy
  have hsl := slice_sublist L d
  have hel : Elems h r (slice L d) := fun x hx => hL x (hsl.subset hx)
  obtain ⟨x, hx⟩ := List.exists_mem_of_ne_nil _ hne
  have hpw : Within h r p := elems_parent_within wf hel hx (hpar x hx)
  have hsub := sibs_sublist wf hpw hel ((hs.slice d).sibAsc hpar) hpar
  have hcne : h.children p ≠ [] := List.ne_nil_of_mem (hsub.subset hx)
  obtain ⟨al, hal, hpl⟩ := hallow p _ hpw hcne hda
  rw [posCb_eq hdp hal] at hy
  split at hy
  · rename_i he
    subst he
    simp only [Except.ok.injEq] at hy
    rw [← hy, eq_comm, List.filter_eq_nil_iff]
    intro c hc hPc
    have := (hP.iff_allow wf hpw (hsub.subset hc) hpl).1 hPc
    cases this
  · exact posHandle_filter wf hP hpw hpl hsub hy

theorem groupPos_total (wf : TreeWF h r) {allowFn : Nat → R (Option (List Nat))}
    (hok : ∀ n, ∃ a, allowFn n = .ok a)
    (hallow : ∀ p a, Within h r p → h.children p ≠ [] → allowFn (h.children p).length = .ok a →
      ∃ al, a = some al ∧ (ofType = false → ∀ j ∈ al, j < (h.children p).length))
    {asc : Bool} {L : List Nat} (hL : Elems h r L) (hs : RunAsc h L) :
    ∃ res, groupDo h allowFn (posCb h ofType asc L) L = .ok res := by
  refine groupDo_total (elems_parent wf hL) (fun p _ => hok _) ?_
  intro d p hdp hda hpar hne
  have hsl := slice_sublist L d
  have hel : Elems h r (slice L d) := fun x hx => hL x (hsl.subset hx)
  obtain ⟨x, hx⟩ := List.exists_mem_of_ne_nil _ hne
  have hpw : Within h r p := elems_parent_within wf hel hx (hpar x hx)
  have hsub := sibs_sublist wf hpw hel ((hs.slice d).sibAsc hpar) hpar
  have hcne : h.children p ≠ [] := List.ne_nil_of_mem (hsub.subset hx)
  obtain ⟨al, hal, hb⟩ := hallow p _ hpw hcne hda
  rw [posCb_eq hdp hal]
  split
  · exact ⟨_, rfl⟩
  · rename_i hne; exact posHandle_total hb hne

/-! ### marking the children of one parent -/

theorem specPass_eq {asc : Bool} {mark : List Nat → List Bool} {x : Nat} {l : List (Nat × Bool × Bool)}
    (hm : mark (if asc then h.children x else (h.children x).reverse) =
      (if asc then h.children x else (h.children x).reverse).map P)
    (hr : specPass h asc mark x = .ok l) : l = (h.children x).map fun c => (c, P c, true) := by
  have hz : ∀ C : List Nat, (C.zip (C.map P)).map (fun e => (e.1, e.2, true)) = C.map fun c => (c, P c, true) := by
    intro C
    induction C with
    | nil => rfl
    | cons c C ih => simp only [List.map_cons, List.zip_cons_cons, ih]
  unfold specPass at hr
  cases asc with
  | true =>
    simp only [if_true] at hm hr
    rw [hm, hz] at hr
    exact (Except.ok.inj hr).symm
  | false =>
    simp only [Bool.false_eq_true, if_false] at hm hr
    split at hr
    · cases hr
    · rw [hm, ← List.map_reverse, List.reverse_reverse, hz] at hr
      exact (Except.ok.inj hr).symm

theorem specPass_total {asc : Bool} {mark : List Nat → List Bool} {x : Nat} (ha : asc = true ∨ h.kids x ≠ []) :
    ∃ l, specPass h asc mark x = .ok l := by
  unfold specPass
  split
  · exact ⟨_, rfl⟩
  · rcases ha with ha | ha
    · simp_all
    · rw [if_neg (by unfold Heap.childLen; intro h0; exact ha (List.eq_nil_of_length_eq_zero h0))]
      exact ⟨_, rfl⟩

/-- `nthChildSpec` or `nthOfTypeSpec`. -/
def posSpec (h : Heap) (ofType asc : Bool) (index : Int) (x : Nat) : R (List (Nat × Bool × Bool)) :=
  if ofType then nthOfTypeSpec h asc index x else nthChildSpec h asc index x

theorem posSpec_eq (wf : TreeWF h r) {index : Int} (hP : IsPos h r last ofType (fun j => (j : Int) = index) P) {x : Nat}
    {l : List (Nat × Bool × Bool)} (hx : Within h r x) (hr : posSpec h ofType (!last) index x = .ok l) :
    l = (h.children x).map (fun c => (c, P c, true)) ∨
      (l = [] ∧ ∀ e, Within h r e → h.isElem e = true → P e = false) := by
  have hn := children_nodup wf hx
  have hord : (if (!last) = true then h.children x else (h.children x).reverse) =
      (if last = true then (h.children x).reverse else h.children x) := by cases last <;> rfl
  by_cases hi : 0 < index
  · left
    unfold posSpec at hr
    cases hof : ofType with
    | false =>
      subst hof
      simp only [Bool.false_eq_true, if_false, nthChildSpec, if_pos hi] at hr
      refine specPass_eq ?_ hr
      apply List.ext_getElem?
      intro i
      rw [List.getElem?_map, List.getElem?_map, hord]
      cases hc : (if last = true then (h.children x).reverse else h.children x)[i]? with
      | none =>
        have := List.getElem?_eq_none_iff.1 hc
        rw [List.getElem?_eq_none (by simpa using this)]; rfl
      | some c =>
        have hlt := (List.getElem?_eq_some_iff.1 hc).1
        have hcm : c ∈ h.children x := by
          have := List.mem_of_getElem? hc
          cases last <;> simpa using this
        rw [List.getElem?_range hlt]
        simp only [Option.map_some, Option.some.injEq]
        rw [Bool.eq_iff_iff, hP.iff_place wf hx hcm, decide_eq_true_eq]
        simp only [place, Bool.false_eq_true, if_false]
        rw [← (getElem?_iff_idxOf (nodup_order hn last) (List.mem_of_getElem? hc)).1 hc]
        omega
    | true =>
      subst hof
      simp only [if_true, nthOfTypeSpec, if_pos hi] at hr
      have key : ∀ bs, nameMarks h [(index - 1).toNat] [] (if last = true then (h.children x).reverse else h.children x) = .ok bs →
          bs = (if last = true then (h.children x).reverse else h.children x).map P := by
        intro bs hbs
        obtain ⟨hlen, hmark⟩ := nameMarks_spec counts_nil (zeroFirst_of_sorted (List.pairwise_singleton _ _)) hbs
        apply List.ext_getElem?
        intro i
        rw [List.getElem?_map]
        cases hc : (if last = true then (h.children x).reverse else h.children x)[i]? with
        | none =>
          have := List.getElem?_eq_none_iff.1 hc
          rw [List.getElem?_eq_none (by omega)]; rfl
        | some c =>
          have hcm : c ∈ h.children x := by
            have := List.mem_of_getElem? hc
            cases last <;> simpa using this
          rw [hmark i c hc]
          simp only [Option.map_some, Option.some.injEq]
          rw [Bool.eq_iff_iff, hP.iff_place wf hx hcm, decide_eq_true_eq]
          simp only [place, if_true, List.mem_singleton, Nat.zero_add]
          rw [← (getElem?_iff_idxOf (nodup_order hn last) (List.mem_of_getElem? hc)).1 hc]
          omega
      cases last with
      | false =>
        simp only [Bool.not_false, if_true] at hr
        split at hr
        · cases hr
        · rename_i bs hbs
          exact specPass_eq (by simpa using key bs hbs) hr
      | true =>
        simp only [Bool.not_true, Bool.false_eq_true, if_false] at hr
        split at hr
        · cases hr
        · split at hr
          · cases hr
          · rename_i bs hbs
            exact specPass_eq (by simpa using key bs hbs) hr
  · right
    refine ⟨?_, ?_⟩
    · unfold posSpec at hr
      split at hr
      · unfold nthOfTypeSpec at hr; rw [if_neg hi] at hr; exact (Except.ok.inj hr).symm
      · unfold nthChildSpec at hr; rw [if_neg hi] at hr; exact (Except.ok.inj hr).symm
    · intro e he hee
      cases hPe : P e with
      | false => rfl
      | true =>
        exfalso
        obtain ⟨j, ⟨_, i, _, _, _, rfl⟩, hj⟩ := (hP e he hee).1 hPe
        omega

theorem posSpec_total {index : Int} {x : Nat} (ha : last = false ∨ h.kids x ≠ []) :
    ∃ l, posSpec h ofType (!last) index x = .ok l := by
  unfold posSpec
  split
  · unfold nthOfTypeSpec
    split
    · cases last with
      | false =>
        obtain ⟨bs, hbs⟩ := nameMarks_total (h := h) (allow := [(index - 1).toNat]) (names := []) (l := h.children x) (by simp)
        simp only [Bool.not_false, if_true, hbs]
        exact specPass_total (Or.inl rfl)
      | true =>
        have hk : h.kids x ≠ [] := ha.resolve_left (by simp)
        obtain ⟨bs, hbs⟩ := nameMarks_total (h := h) (allow := [(index - 1).toNat]) (names := []) (l := (h.children x).reverse) (by simp)
        simp only [Bool.not_true, Bool.false_eq_true, if_false, hbs]
        rw [if_neg (by unfold Heap.childLen; intro h0; exact hk (List.eq_nil_of_length_eq_zero h0))]
        exact specPass_total (Or.inr hk)
    · exact ⟨_, rfl⟩
  · unfold nthChildSpec
    split
    · refine specPass_total ?_
      cases last with
      | false => exact Or.inl rfl
      | true => exact Or.inr (ha.resolve_left (by simp))
    · exact ⟨_, rfl⟩
end

end Visdom
