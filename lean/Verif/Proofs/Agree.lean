import Verif.Spec.Selector
import Verif.Proofs.Tree
/-!
# What a selector means depends on the tree alone
-/
namespace Visdom
open Spec

/-- The heaps agree on the tree. -/
def Agree (h h' : Heap) (r : Nat) : Prop := ∀ x, Within h r x → h'.node x = h.node x

section
variable {h h' : Heap} {r : Nat}

theorem Agree.kids (a : Agree h h' r) {x : Nat} (hx : Within h r x) : h'.kids x = h.kids x := by unfold Heap.kids; rw [a x hx]

theorem Agree.isElem (a : Agree h h' r) {x : Nat} (hx : Within h r x) : h'.isElem x = h.isElem x := by unfold Heap.isElem; rw [a x hx]

theorem Agree.within (a : Agree h h' r) {x y : Nat} (hx : Within h r x) (hw : Within h x y) : Within h' x y := by
  induction hw with
  | self => exact .self
  | step hp hc ih => exact ih.step (by rw [a.kids (hx.trans hp)]; exact hc)

theorem Agree.within' (a : Agree h h' r) {x y : Nat} (hx : Within h r x) (hw : Within h' x y) : Within h x y := by
  induction hw with
  | self => exact .self
  | step hp hc ih => exact ih.step (by rw [a.kids (hx.trans ih)] at hc; exact hc)

theorem Agree.within_iff (a : Agree h h' r) {x y : Nat} (hx : Within h r x) : Within h' x y ↔ Within h x y :=
  ⟨a.within' hx, a.within hx⟩

theorem Agree.symm (a : Agree h h' r) : Agree h' h r := fun x hx => (a x (a.within' .self hx)).symm

theorem Agree.below_iff (a : Agree h h' r) {x y : Nat} (hx : Within h r x) : Below h' x y ↔ Below h x y := by
  unfold Below
  rw [a.kids hx]
  exact exists_congr fun c => and_congr_right fun hc => a.within_iff (hx.step hc)

theorem mem_of_get {l : List Nat} {i a : Nat} (hg : l[i]? = some a) : a ∈ l := List.mem_of_getElem? hg

theorem Agree.later (a : Agree h h' r) {y e : Nat} (hl : LaterSib h r y e) : LaterSib h' r y e := by
  obtain ⟨p, i, j, hp, hij, h1, h2⟩ := hl
  exact ⟨p, i, j, a.within .self hp, hij, by rw [a.kids hp]; exact h1, by rw [a.kids hp]; exact h2⟩

theorem Agree.later_iff (a : Agree h h' r) {y e : Nat} : LaterSib h' r y e ↔ LaterSib h r y e := ⟨a.symm.later, a.later⟩

theorem Agree.next (a : Agree h h' r) {y e : Nat} (hl : NextSib h r y e) : NextSib h' r y e := by
  obtain ⟨p, i, j, hp, hij, h1, h2, h3⟩ := hl
  refine ⟨p, i, j, a.within .self hp, hij, by rw [a.kids hp]; exact h1, by rw [a.kids hp]; exact h2, fun k z hk1 hk2 hz => ?_⟩
  rw [a.kids hp] at hz
  rw [a.isElem (hp.step (List.mem_of_getElem? hz))]
  exact h3 k z hk1 hk2 hz

theorem Agree.next_iff (a : Agree h h' r) {y e : Nat} : NextSib h' r y e ↔ NextSib h r y e := ⟨a.symm.next, a.next⟩

theorem Agree.sib (a : Agree h h' r) {y e : Nat} (hl : Sib h r y e) : Sib h' r y e := by
  obtain ⟨p, hp, h1, h2, h3⟩ := hl
  exact ⟨p, a.within .self hp, by rw [a.kids hp]; exact h1, by rw [a.kids hp]; exact h2, h3⟩

theorem Agree.rel_iff (a : Agree h h' r) {c : Comb} {y e : Nat} (hy : Within h r y) : Rel h' r c y e ↔ Rel h r c y e := by
  cases c with
  | childrenAll => exact a.below_iff hy
  | children => simp only [Rel, a.kids hy]
  | parent =>
    simp only [Rel]
    rw [a.within_iff .self]
    exact and_congr_right fun he => by rw [a.kids he]
  | parentAll =>
    simp only [Rel]
    rw [a.within_iff .self]
    exact and_congr_right fun he => a.below_iff he
  | nextAll => exact a.later_iff
  | next => exact a.next_iff
  | prevAll => exact a.later_iff
  | prev => exact a.next_iff
  | siblings => exact ⟨a.symm.sib, a.sib⟩
  | chain => exact Iff.rfl

theorem rel_inside {c : Comb} {y e : Nat} (hy : Within h r y) (hr : Rel h r c y e) : Within h r e := by
  cases c with
  | childrenAll => obtain ⟨c, hc, hw⟩ := hr; exact (hy.step hc).trans hw
  | children => exact hy.step hr
  | parent => exact hr.1
  | parentAll => exact hr.1
  | nextAll => obtain ⟨p, i, j, hp, _, _, h2⟩ := hr; exact hp.step (mem_of_get h2)
  | next => obtain ⟨p, i, j, hp, _, _, h2, _⟩ := hr; exact hp.step (mem_of_get h2)
  | prevAll => obtain ⟨p, i, j, hp, _, h2, _⟩ := hr; exact hp.step (mem_of_get h2)
  | prev => obtain ⟨p, i, j, hp, _, h2, _, _⟩ := hr; exact hp.step (mem_of_get h2)
  | siblings => obtain ⟨p, hp, _, h2, _⟩ := hr; exact hp.step h2
  | chain => cases hr; exact hy

theorem sel_inside {st : List (Comb × (Nat → Bool))} : ∀ {A : Nat → Prop}, (∀ y, A y → Within h r y) → ∀ x, Sel h r A st x → Within h r x := by
  induction st with
  | nil => intro A hA x hx; exact hA x hx
  | cons s st ih =>
    intro A hA x hx
    exact ih (A := Img h r A s) (fun y hy => by obtain ⟨_, _, z, hz, hr⟩ := hy; exact rel_inside (hA z hz) hr) x hx

/-- The steps have the same combinators and the same tests on the nodes of the tree. -/
def StepsEq (h : Heap) (r : Nat) : List (Comb × (Nat → Bool)) → List (Comb × (Nat → Bool)) → Prop :=
  List.Forall₂ fun s t => s.1 = t.1 ∧ ∀ x, Within h r x → s.2 x = t.2 x

theorem Agree.sel_iff (a : Agree h h' r) {st st' : List (Comb × (Nat → Bool))} (hs : StepsEq h r st st') :
    ∀ {A A' : Nat → Prop}, (∀ y, A y → Within h r y) → (∀ y, A' y ↔ A y) → ∀ x, Sel h' r A' st' x ↔ Sel h r A st x := by
  induction hs with
  | nil => intro A A' _ hAA x; exact hAA x
  | @cons s t st st' hst _ ih =>
    intro A A' hA hAA x
    refine ih (A := Img h r A s) (A' := Img h' r A' t) (fun y hy => ?_) (fun e => ?_) x
    · obtain ⟨_, _, z, hz, hr⟩ := hy; exact rel_inside (hA z hz) hr
    · constructor
      · rintro ⟨h1, h2, y, hy, hr⟩
        have hy' := (hAA y).1 hy
        rw [← hst.1, a.rel_iff (hA y hy')] at hr
        have he := rel_inside (hA y hy') hr
        exact ⟨by rw [← a.isElem he]; exact h1, by rw [hst.2 e he]; exact h2, y, hy', hr⟩
      · rintro ⟨h1, h2, y, hy, hr⟩
        have he := rel_inside (hA y hy) hr
        refine ⟨by rw [a.isElem he]; exact h1, by rw [← hst.2 e he]; exact h2, y, (hAA y).2 hy, ?_⟩
        rw [← hst.1, a.rel_iff (hA y hy)]
        exact hr

theorem Agree.group (a : Agree h h' r) {last ofType : Bool} {p x : Nat} (hp : Within h r p) (hx : Within h r x) :
    Spec.group h' last ofType p x = Spec.group h last ofType p x := by
  have : ((h'.kids p).filter fun y => h'.isElem y && (!ofType || decide (SameIgnoringCase (h'.node y).name (h'.node x).name))) =
      (h.kids p).filter fun y => h.isElem y && (!ofType || decide (SameIgnoringCase (h.node y).name (h.node x).name)) := by
    rw [a.kids hp]
    refine List.filter_congr fun y hy => ?_
    rw [a.isElem (hp.step hy), a y (hp.step hy), a x hx]
  simp only [Spec.group, this]

theorem Agree.atPos (a : Agree h h' r) {last ofType : Bool} {x j : Nat} (hp : AtPos h r last ofType x j) : AtPos h' r last ofType x j := by
  obtain ⟨p, i, h1, h2, h3, h4⟩ := hp
  exact ⟨p, i, a.within .self h1, by rw [a.kids h1]; exact h2, by rw [a.group h1 (h1.step h2)]; exact h3, h4⟩

theorem Agree.atPos_iff (a : Agree h h' r) {last ofType : Bool} {x j : Nat} : AtPos h' r last ofType x j ↔ AtPos h r last ofType x j :=
  ⟨a.symm.atPos, a.atPos⟩

theorem Agree.named_iff (a : Agree h h' r) {n : List Char} {x : Nat} (hx : Within h r x) : Named h' n x ↔ Named h n x := by
  unfold Named; rw [a.isElem hx, a x hx]

theorem Agree.hasAttr_iff (a : Agree h h' r) {n : List Char} {x : Nat} (hx : Within h r x) : HasAttr h' n x ↔ HasAttr h n x := by
  unfold HasAttr; rw [a x hx]

theorem Agree.selectedIn (a : Agree h h' r) {x : Nat} (hx : Within h r x) (hs : SelectedIn h x) : SelectedIn h' x := by
  induction hs with
  | here h1 h2 => exact .here ((a.named_iff hx).2 h1) ((a.hasAttr_iff hx).2 h2)
  | inside h1 h2 h3 _ ih =>
    exact .inside (fun h5 => h1 ((a.named_iff hx).1 h5)) (by rw [a.kids hx]; exact h2) (by rw [a.isElem (hx.step h2)]; exact h3)
      (ih (hx.step h2))

theorem Agree.selectedIn_iff (a : Agree h h' r) {x : Nat} (hx : Within h r x) : SelectedIn h' x ↔ SelectedIn h x :=
  ⟨a.symm.selectedIn (a.within .self hx), a.selectedIn hx⟩

theorem Agree.checked (a : Agree h h' r) {x : Nat} (hx : Within h r x) (hc : Checked h r x) : Checked h' r x := by
  rcases hc with ⟨h1, h2, h3⟩ | ⟨h1, h2⟩
  · exact .inl ⟨(a.named_iff hx).2 h1, by rw [a x hx]; exact h2, (a.hasAttr_iff hx).2 h3⟩
  · refine .inr ⟨(a.named_iff hx).2 h1, ?_⟩
    rcases h2 with h2 | ⟨⟨p, p1, p2, p3, p4⟩, h3, h4⟩
    · exact .inl ((a.hasAttr_iff hx).2 h2)
    · refine .inr ⟨⟨p, a.within .self p1, by rw [a.kids p1]; exact p2, (a.named_iff p1).2 p3, fun h5 => p4 ((a.hasAttr_iff p1).1 h5)⟩,
        fun y hy h5 => ?_, fun y hy h5 h6 => ?_⟩
      · rw [a.later_iff] at hy
        obtain ⟨q, i, j, hq, _, h7, _⟩ := id hy
        exact h3 y hy ((a.named_iff (hq.step (mem_of_get h7))).1 h5)
      · rw [a.later_iff] at hy
        obtain ⟨q, i, j, hq, _, _, h7⟩ := id hy
        have hw := hq.step (mem_of_get h7)
        exact h4 y hy (by rw [← a.isElem hw]; exact h5) ((a.selectedIn_iff hw).1 h6)

theorem Agree.checked_iff (a : Agree h h' r) {x : Nat} (hx : Within h r x) : Checked h' r x ↔ Checked h r x :=
  ⟨a.symm.checked (a.within .self hx), a.checked hx⟩

variable {env : Env}

mutual
theorem Agree.sat_iff (a : Agree h h' r) : ∀ (s : Sim) (x : Nat), Within h r x → (s.Sat h' r env x ↔ s.Sat h r env x)
  | .all, _, _ => by simp only [Sim.Sat]
  | .name n, x, hx => by simp only [Sim.Sat]; exact a.named_iff hx
  | .cls c, x, hx => by simp only [Sim.Sat]; rw [a x hx]
  | .id i, x, _ => by simp only [Sim.Sat]
  | .attr key, x, hx => by simp only [Sim.Sat]; exact a.hasAttr_iff hx
  | .attrTest key t v, x, hx => by simp only [Sim.Sat]; rw [a x hx]
  | .nth last ofType c b, x, _ => by simp only [Sim.Sat, a.atPos_iff]
  | .nthIdx last ofType b, x, _ => by simp only [Sim.Sat, a.atPos_iff]
  | .edge last ofType, x, _ => by simp only [Sim.Sat, a.atPos_iff]
  | .only ofType, x, _ => by simp only [Sim.Sat, a.atPos_iff]
  | .root, x, hx => by simp only [Sim.Sat]; rw [a.named_iff hx, a.kids .self]
  | .empty, x, hx => by
    simp only [Sim.Sat]
    rw [a.kids hx]
    exact forall_congr' fun c => imp_congr_right fun hc => by rw [a c (hx.step hc)]
  | .contains t, x, _ => by simp only [Sim.Sat]
  | .checked, x, hx => by simp only [Sim.Sat]; exact a.checked_iff hx
  | .not sel, x, hx => by simp only [Sim.Sat]; rw [a.anySat_iff sel x hx]
  | .has sel, x, hx => by
    simp only [Sim.Sat]
    refine exists_congr fun e => ?_
    rw [a.below_iff hx]
    refine and_congr_right fun hb => ?_
    have he : Within h r e := by obtain ⟨c, hc, hw⟩ := hb; exact (hx.step hc).trans hw
    rw [a.isElem he, a.anySat_iff sel e he]
  | .alias sel, x, hx => by simp only [Sim.Sat]; exact a.anySat_iff sel x hx

theorem Agree.anySat_iff (a : Agree h h' r) : ∀ (sel : List (List (Comb × List Sim))) (x : Nat), Within h r x →
    (anySat h' r env sel x ↔ anySat h r env sel x)
  | [], _, _ => by simp only [anySat]
  | c :: cs, x, hx => by
    simp only [anySat]
    rw [a.anySat_iff cs x hx, a.sel_iff (A := (· = r)) (a.steps_eq c) (fun y hy => hy ▸ .self) (fun _ => Iff.rfl)]

theorem Agree.steps_eq (a : Agree h h' r) : ∀ (c : List (Comb × List Sim)), StepsEq h r (steps h r env c) (steps h' r env c)
  | [] => by simp only [steps]; exact .nil
  | (c, ss) :: l => by
    simp only [steps, step]
    refine .cons ⟨rfl, fun x hx => ?_⟩ (a.steps_eq l)
    exact decide_eq_decide.2 (a.cmpdSat_iff ss x hx).symm

theorem Agree.cmpdSat_iff (a : Agree h h' r) : ∀ (ss : List Sim) (x : Nat), Within h r x → (cmpdSat h' r env ss x ↔ cmpdSat h r env ss x)
  | [], _, _ => by simp only [cmpdSat]
  | s :: ss, x, hx => by
    simp only [cmpdSat]
    rw [a.sat_iff s x hx, a.cmpdSat_iff ss x hx]
end

theorem Agree.treeWF (a : Agree h h' r) (hs : h.size ≤ h'.size) (wf : TreeWF h r) : TreeWF h' r := by
  refine ⟨?_, ?_, fun x hx hk => ?_, fun x hx h1 h2 => ?_, fun p i c hp hc => ?_, fun x hx => ?_⟩
  · unfold Heap.parent; rw [a r .self]; exact wf.rootParent
  · rw [a r .self]; exact wf.rootKind
  · have hw := a.within' .self hx
    rw [a x hw] at hk
    exact wf.onlyRoot x hw hk
  · have hw := a.within' .self hx
    rw [a x hw] at h1 h2
    rw [a.kids hw]
    exact wf.leaf x hw h1 h2
  · have hw := a.within' .self hp
    rw [a.kids hw] at hc
    unfold Heap.parent Heap.index
    rw [a c (hw.step (mem_of_get hc))]
    exact wf.link p i c hw hc
  · exact Nat.lt_of_lt_of_le (wf.bound x (a.within' .self hx)) hs

theorem Agree.metas (a : Agree h h' r) (m : Metas h r) : Metas h' r := by
  intro x hx he
  have hw := a.within' .self hx
  rw [a.isElem hw] at he
  rw [a x hw]
  exact m x hw he

theorem Agree.before_iff (a : Agree h h' r) {x y : Nat} (hx : Within h r x) : Before h' r x y ↔ Before h r x y := by
  have key : ∀ {h h' : Heap}, Agree h h' r → Within h r x → Before h r x y → Before h' r x y := by
    intro h h' a hx hb
    rcases hb with hb | ⟨p, i, j, u, v, h1, h2, h3, h4, h5, h6⟩
    · exact .inl ((a.below_iff hx).2 hb)
    · exact .inr ⟨p, i, j, u, v, a.within .self h1, h2, by rw [a.kids h1]; exact h3, by rw [a.kids h1]; exact h4,
        a.within (h1.step (mem_of_get h3)) h5, a.within (h1.step (mem_of_get h4)) h6⟩
  exact ⟨key a.symm (a.within .self hx), key a hx⟩

end
end Visdom
