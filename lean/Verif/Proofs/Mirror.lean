import Verif.Spec.Mirror
import Verif.Proofs.Agree
/-!
# What a selector means depends on the shape of the tree alone
-/
namespace Visdom
open Spec

section
variable {h h' : Heap} {r r' : Nat} {f g : Nat → Nat}

theorem Spec.Mirror.within (m : Mirror h r h' r' f g) {x y : Nat} (hx : Within h r x) (hw : Within h x y) : Within h' (f x) (f y) := by
  induction hw with
  | self => exact .self
  | step hp hc ih => exact ih.step (by rw [m.kids _ (hx.trans hp)]; exact List.mem_map_of_mem hc)

theorem Spec.Mirror.inside (m : Mirror h r h' r' f g) {x : Nat} (hx : Within h r x) : Within h' r' (f x) := m.root ▸ m.within .self hx

theorem Spec.Mirror.preimage (m : Mirror h r h' r' f g) {z : Nat} (hz : Within h' r' z) : ∃ x, Within h r x ∧ f x = z := by
  induction hz with
  | self => exact ⟨r, .self, m.root⟩
  | step _ hc ih =>
    obtain ⟨x, hx, rfl⟩ := ih
    rw [m.kids x hx] at hc
    obtain ⟨c, h1, rfl⟩ := List.mem_map.1 hc
    exact ⟨c, hx.step h1, rfl⟩

theorem Spec.Mirror.symm (m : Mirror h r h' r' f g) : Mirror h' r' h r g f := by
  refine ⟨by rw [← m.root]; exact m.back r .self, fun z hz => ?_, fun z hz => ?_, fun z hz => ?_⟩ <;> obtain ⟨x, hx, rfl⟩ := m.preimage hz
  · rw [m.back x hx, m.kids x hx, List.map_map]
    symm
    conv => rhs; rw [← List.map_id (h.kids x)]
    exact List.map_congr_left fun c hc => m.back c (hx.step hc)
  · rw [m.back x hx]
    obtain ⟨h1, h2, h3⟩ := m.data x hx
    exact ⟨h1.symm, h2.symm, h3.symm⟩
  · rw [m.back x hx]

theorem Spec.Mirror.inj (m : Mirror h r h' r' f g) {x y : Nat} (hx : Within h r x) (hy : Within h r y) (he : f x = f y) : x = y := by
  rw [← m.back x hx, he, m.back y hy]

theorem Spec.Mirror.isElem (m : Mirror h r h' r' f g) {x : Nat} (hx : Within h r x) : h'.isElem (f x) = h.isElem x := by
  unfold Heap.isElem; rw [(m.data x hx).1]

theorem Spec.Mirror.below (m : Mirror h r h' r' f g) {x y : Nat} (hx : Within h r x) (hb : Below h x y) : Below h' (f x) (f y) := by
  obtain ⟨c, hc, hw⟩ := hb
  exact ⟨f c, by rw [m.kids x hx]; exact List.mem_map_of_mem hc, m.within (hx.step hc) hw⟩

theorem Spec.Mirror.get (m : Mirror h r h' r' f g) {p i a : Nat} (hp : Within h r p) (hg : (h.kids p)[i]? = some a) : (h'.kids (f p))[i]? = some (f a) := by
  rw [m.kids p hp, List.getElem?_map, hg]; rfl

theorem Spec.Mirror.before (m : Mirror h r h' r' f g) {x y : Nat} (hx : Within h r x) (hb : Before h r x y) : Before h' r' (f x) (f y) := by
  rcases hb with hb | ⟨p, i, j, a, b, hp, hij, h1, h2, h3, h4⟩
  · exact .inl (m.below hx hb)
  · exact .inr ⟨f p, i, j, f a, f b, m.inside hp, hij, m.get hp h1, m.get hp h2, m.within (hp.step (mem_of_get h1)) h3,
      m.within (hp.step (mem_of_get h2)) h4⟩

theorem Spec.Mirror.docSorted (m : Mirror h r h' r' f g) {l : List Nat} (hl : ∀ x ∈ l, Within h r x) (hs : DocSorted h r l) :
    DocSorted h' r' (l.map f) := by
  unfold DocSorted at hs ⊢
  rw [List.pairwise_map]
  exact (List.Pairwise.and_mem.1 hs).imp fun hb => m.before (hl _ hb.1) hb.2.2

theorem Spec.Mirror.later (m : Mirror h r h' r' f g) {y e : Nat} (hl : LaterSib h r y e) : LaterSib h' r' (f y) (f e) := by
  obtain ⟨p, i, j, hp, hij, h1, h2⟩ := hl
  exact ⟨f p, i, j, m.inside hp, hij, m.get hp h1, m.get hp h2⟩

theorem Spec.Mirror.next (m : Mirror h r h' r' f g) {y e : Nat} (hl : NextSib h r y e) : NextSib h' r' (f y) (f e) := by
  obtain ⟨p, i, j, hp, hij, h1, h2, h3⟩ := hl
  refine ⟨f p, i, j, m.inside hp, hij, m.get hp h1, m.get hp h2, fun k z hk1 hk2 hz => ?_⟩
  rw [m.kids p hp, List.getElem?_map] at hz
  obtain ⟨c, hc, rfl⟩ := Option.map_eq_some_iff.1 hz
  rw [m.isElem (hp.step (mem_of_get hc))]
  exact h3 k c hk1 hk2 hc

theorem Spec.Mirror.rel (m : Mirror h r h' r' f g) {c : Comb} {y e : Nat} (hy : Within h r y) (hr : Rel h r c y e) : Rel h' r' c (f y) (f e) := by
  have he := rel_inside hy hr
  cases c with
  | childrenAll => exact m.below hy hr
  | children => simp only [Rel] at hr ⊢; rw [m.kids y hy]; exact List.mem_map_of_mem hr
  | parent => exact ⟨m.inside he, by rw [m.kids e he]; exact List.mem_map_of_mem hr.2⟩
  | parentAll => exact ⟨m.inside he, m.below he hr.2⟩
  | nextAll => exact m.later hr
  | next => exact m.next hr
  | prevAll => exact m.later hr
  | prev => exact m.next hr
  | siblings =>
    obtain ⟨p, hp, h1, h2, h3⟩ := hr
    exact ⟨f p, m.inside hp, by rw [m.kids p hp]; exact List.mem_map_of_mem h1, by rw [m.kids p hp]; exact List.mem_map_of_mem h2,
      fun h4 => h3 (m.inj hy he h4)⟩
  | chain => cases hr; rfl

/-- The steps have the same combinators and the same tests on corresponding nodes. -/
def StepsMirror (h : Heap) (r : Nat) (f : Nat → Nat) : List (Comb × (Nat → Bool)) → List (Comb × (Nat → Bool)) → Prop :=
  List.Forall₂ fun s t => s.1 = t.1 ∧ ∀ x, Within h r x → t.2 (f x) = s.2 x

theorem Spec.Mirror.sel (m : Mirror h r h' r' f g) {st st' : List (Comb × (Nat → Bool))} (hs : StepsMirror h r f st st') :
    ∀ {A A' : Nat → Prop}, (∀ y, A y → Within h r y) → (∀ y, A y → A' (f y)) → ∀ x, Sel h r A st x → Sel h' r' A' st' (f x) := by
  induction hs with
  | nil => intro A A' _ hAA x hx; exact hAA x hx
  | @cons s t st st' hst _ ih =>
    intro A A' hA hAA x hx
    refine ih (A := Img h r A s) (A' := Img h' r' A' t) (fun y hy => ?_) (fun e he => ?_) x hx
    · obtain ⟨_, _, z, hz, hr⟩ := hy; exact rel_inside (hA z hz) hr
    · obtain ⟨h1, h2, y, hy, hr⟩ := he
      have he := rel_inside (hA y hy) hr
      exact ⟨by rw [m.isElem he]; exact h1, by rw [hst.2 e he]; exact h2, f y, hAA y hy, hst.1 ▸ m.rel (hA y hy) hr⟩

theorem Spec.Mirror.stepsSymm (m : Mirror h r h' r' f g) {st st' : List (Comb × (Nat → Bool))} (hs : StepsMirror h r f st st') :
    StepsMirror h' r' g st' st := by
  induction hs with
  | nil => exact .nil
  | cons hst _ ih =>
    refine .cons ⟨hst.1.symm, fun z hz => ?_⟩ ih
    obtain ⟨x, hx, rfl⟩ := m.preimage hz
    rw [m.back x hx, hst.2 x hx]

theorem Spec.Mirror.sel_iff (m : Mirror h r h' r' f g) {st st' : List (Comb × (Nat → Bool))} (hs : StepsMirror h r f st st') {A A' : Nat → Prop}
    (hA : ∀ y, A y → Within h r y) (hA' : ∀ z, A' z → Within h' r' z) (hAA : ∀ y, Within h r y → (A' (f y) ↔ A y)) {x : Nat} (hx : Within h r x) :
    Sel h' r' A' st' (f x) ↔ Sel h r A st x := by
  constructor
  · intro h1
    have := m.symm.sel (m.stepsSymm hs) (A := A') (A' := A) hA' (fun z hz => by
      obtain ⟨y, hy, rfl⟩ := m.preimage (hA' z hz)
      rw [m.back y hy]; exact (hAA y hy).1 hz) _ h1
    rwa [m.back x hx] at this
  · exact m.sel hs hA (fun y hy => (hAA y (hA y hy)).2 hy) x

theorem Spec.Mirror.group (m : Mirror h r h' r' f g) {last ofType : Bool} {p x : Nat} (hp : Within h r p) (hx : Within h r x) :
    Spec.group h' last ofType (f p) (f x) = (Spec.group h last ofType p x).map f := by
  have : ((h'.kids (f p)).filter fun y => h'.isElem y && (!ofType || decide (SameIgnoringCase (h'.node y).name (h'.node (f x)).name))) =
      ((h.kids p).filter fun y => h.isElem y && (!ofType || decide (SameIgnoringCase (h.node y).name (h.node x).name))).map f := by
    rw [m.kids p hp, List.filter_map]
    congr 1
    refine List.filter_congr fun y hy => ?_
    have hy' := hp.step hy
    simp only [Function.comp_apply]
    rw [m.isElem hy', (m.data y hy').2.1, (m.data x hx).2.1]
  simp only [Spec.group, this]
  split
  · rw [List.map_reverse]
  · rfl

theorem Spec.Mirror.atPos (m : Mirror h r h' r' f g) {last ofType : Bool} {x j : Nat} (hp : AtPos h r last ofType x j) : AtPos h' r' last ofType (f x) j := by
  obtain ⟨p, i, h1, h2, h3, h4⟩ := hp
  refine ⟨f p, i, m.inside h1, by rw [m.kids p h1]; exact List.mem_map_of_mem h2, ?_, h4⟩
  rw [m.group h1 (h1.step h2), List.getElem?_map, h3]; rfl

theorem Spec.Mirror.atPos_iff (m : Mirror h r h' r' f g) {last ofType : Bool} {x j : Nat} (hx : Within h r x) :
    AtPos h' r' last ofType (f x) j ↔ AtPos h r last ofType x j :=
  ⟨fun h1 => by have := m.symm.atPos h1; rwa [m.back x hx] at this, m.atPos⟩

theorem Spec.Mirror.named_iff (m : Mirror h r h' r' f g) {n : List Char} {x : Nat} (hx : Within h r x) : Named h' n (f x) ↔ Named h n x := by
  unfold Named; rw [m.isElem hx, (m.data x hx).2.1]

theorem Spec.Mirror.hasAttr_iff (m : Mirror h r h' r' f g) {n : List Char} {x : Nat} (hx : Within h r x) : HasAttr h' n (f x) ↔ HasAttr h n x := by
  unfold HasAttr; rw [(m.data x hx).2.2]

theorem Spec.Mirror.selectedIn (m : Mirror h r h' r' f g) {x : Nat} (hx : Within h r x) (hs : SelectedIn h x) : SelectedIn h' (f x) := by
  induction hs with
  | here h1 h2 => exact .here ((m.named_iff hx).2 h1) ((m.hasAttr_iff hx).2 h2)
  | inside h1 h2 h3 _ ih =>
    exact .inside (fun h5 => h1 ((m.named_iff hx).1 h5)) (by rw [m.kids _ hx]; exact List.mem_map_of_mem h2) (by rw [m.isElem (hx.step h2)]; exact h3)
      (ih (hx.step h2))

theorem Spec.Mirror.selectedIn_iff (m : Mirror h r h' r' f g) {x : Nat} (hx : Within h r x) : SelectedIn h' (f x) ↔ SelectedIn h x :=
  ⟨fun h1 => by have := m.symm.selectedIn (m.inside hx) h1; rwa [m.back x hx] at this, m.selectedIn hx⟩

theorem Spec.Mirror.checked (m : Mirror h r h' r' f g) {x : Nat} (hx : Within h r x) (hc : Checked h r x) : Checked h' r' (f x) := by
  rcases hc with ⟨h1, h2, h3⟩ | ⟨h1, h2⟩
  · exact .inl ⟨(m.named_iff hx).2 h1, by rw [(m.data x hx).2.2]; exact h2, (m.hasAttr_iff hx).2 h3⟩
  · refine .inr ⟨(m.named_iff hx).2 h1, ?_⟩
    rcases h2 with h2 | ⟨⟨p, p1, p2, p3, p4⟩, h3, h4⟩
    · exact .inl ((m.hasAttr_iff hx).2 h2)
    · refine .inr ⟨⟨f p, m.inside p1, by rw [m.kids p p1]; exact List.mem_map_of_mem p2, (m.named_iff p1).2 p3, fun h5 => p4 ((m.hasAttr_iff p1).1 h5)⟩,
        fun z hz h5 => ?_, fun z hz h5 h6 => ?_⟩
      · have hz' := m.symm.later hz
        obtain ⟨q, i, j, hq, _, h7, _⟩ := id hz
        obtain ⟨y, hy, rfl⟩ := m.preimage (hq.step (mem_of_get h7))
        rw [m.back y hy, m.back x hx] at hz'
        exact h3 y hz' ((m.named_iff hy).1 h5)
      · have hz' := m.symm.later hz
        obtain ⟨q, i, j, hq, _, _, h7⟩ := id hz
        obtain ⟨y, hy, rfl⟩ := m.preimage (hq.step (mem_of_get h7))
        rw [m.back y hy, m.back x hx] at hz'
        exact h4 y hz' (by rw [← m.isElem hy]; exact h5) ((m.selectedIn_iff hy).1 h6)

theorem Spec.Mirror.checked_iff (m : Mirror h r h' r' f g) {x : Nat} (hx : Within h r x) : Checked h' r' (f x) ↔ Checked h r x :=
  ⟨fun h1 => by have := m.symm.checked (m.inside hx) h1; rwa [m.back x hx] at this, m.checked hx⟩

theorem Spec.Mirror.mem_kids (m : Mirror h r h' r' f g) {p x : Nat} (hp : Within h r p) (hx : Within h r x) : f x ∈ h'.kids (f p) ↔ x ∈ h.kids p := by
  rw [m.kids p hp]
  refine ⟨fun h1 => ?_, List.mem_map_of_mem⟩
  obtain ⟨c, hc, he⟩ := List.mem_map.1 h1
  rw [← m.inj (hp.step hc) hx he]; exact hc

variable {env env' : Env}

mutual
theorem Spec.Mirror.sat_iff (m : Mirror h r h' r' f g) (v : EnvMirror h r env r' env' f) :
    ∀ (s : Sim) (x : Nat), Within h r x → (s.Sat h' r' env' (f x) ↔ s.Sat h r env x)
  | .all, _, _ => by simp only [Sim.Sat]
  | .name n, x, hx => by simp only [Sim.Sat]; exact m.named_iff hx
  | .cls c, x, hx => by simp only [Sim.Sat]; rw [(m.data x hx).2.2]
  | .id i, x, hx => by simp only [Sim.Sat]; exact v.byId i x hx
  | .attr key, x, hx => by simp only [Sim.Sat]; exact m.hasAttr_iff hx
  | .attrTest key t v, x, hx => by simp only [Sim.Sat]; rw [(m.data x hx).2.2]
  | .nth last ofType c b, x, hx => by simp only [Sim.Sat, m.atPos_iff hx]
  | .nthIdx last ofType b, x, hx => by simp only [Sim.Sat, m.atPos_iff hx]
  | .edge last ofType, x, hx => by simp only [Sim.Sat, m.atPos_iff hx]
  | .only ofType, x, hx => by simp only [Sim.Sat, m.atPos_iff hx]
  | .root, x, hx => by simp only [Sim.Sat]; rw [m.named_iff hx, v.isDoc, ← m.root, m.mem_kids .self hx]
  | .empty, x, hx => by
    simp only [Sim.Sat]
    rw [m.kids x hx]
    simp only [List.mem_map, forall_exists_index, and_imp, forall_apply_eq_imp_iff₂]
    exact forall_congr' fun c => imp_congr_right fun hc => by rw [(m.data c (hx.step hc)).1]
  | .contains t, x, hx => by simp only [Sim.Sat]; rw [v.text x hx]
  | .checked, x, hx => by simp only [Sim.Sat]; exact m.checked_iff hx
  | .not sel, x, hx => by simp only [Sim.Sat]; rw [m.anySat_iff v sel x hx]
  | .has sel, x, hx => by
    simp only [Sim.Sat]
    constructor
    · rintro ⟨z, hb, h1, h2⟩
      have hb' := m.symm.below (m.inside hx) hb
      have hz : Within h' r' z := by obtain ⟨c, hc, hw⟩ := hb; exact ((m.inside hx).step hc).trans hw
      obtain ⟨e, he, rfl⟩ := m.preimage hz
      rw [m.back e he, m.back x hx] at hb'
      exact ⟨e, hb', by rw [← m.isElem he]; exact h1, (m.anySat_iff v sel e he).1 h2⟩
    · rintro ⟨e, hb, h1, h2⟩
      have he : Within h r e := by obtain ⟨c, hc, hw⟩ := hb; exact (hx.step hc).trans hw
      exact ⟨f e, m.below hx hb, by rw [m.isElem he]; exact h1, (m.anySat_iff v sel e he).2 h2⟩
  | .alias sel, x, hx => by simp only [Sim.Sat]; exact m.anySat_iff v sel x hx

theorem Spec.Mirror.anySat_iff (m : Mirror h r h' r' f g) (v : EnvMirror h r env r' env' f) :
    ∀ (sel : List (List (Comb × List Sim))) (x : Nat), Within h r x → (anySat h' r' env' sel (f x) ↔ anySat h r env sel x)
  | [], _, _ => by simp only [anySat]
  | c :: cs, x, hx => by
    simp only [anySat]
    rw [m.anySat_iff v cs x hx, m.sel_iff (A := (· = r)) (A' := (· = r')) (m.steps_eq v c) (fun y hy => hy ▸ .self) (fun y hy => hy ▸ .self)
      (fun y hy => ⟨fun h1 => m.inj hy .self (h1.trans m.root.symm), fun h1 => h1 ▸ m.root⟩) hx]

theorem Spec.Mirror.steps_eq (m : Mirror h r h' r' f g) (v : EnvMirror h r env r' env' f) :
    ∀ (c : List (Comb × List Sim)), StepsMirror h r f (steps h r env c) (steps h' r' env' c)
  | [] => by simp only [steps]; exact .nil
  | (c, ss) :: l => by
    simp only [steps, step]
    refine .cons ⟨rfl, fun x hx => ?_⟩ (m.steps_eq v l)
    exact decide_eq_decide.2 (m.cmpdSat_iff v ss x hx)

theorem Spec.Mirror.cmpdSat_iff (m : Mirror h r h' r' f g) (v : EnvMirror h r env r' env' f) :
    ∀ (ss : List Sim) (x : Nat), Within h r x → (cmpdSat h' r' env' ss (f x) ↔ cmpdSat h r env ss x)
  | [], _, _ => by simp only [cmpdSat]
  | s :: ss, x, hx => by
    simp only [cmpdSat]
    rw [m.sat_iff v s x hx, m.cmpdSat_iff v ss x hx]
end

end
end Visdom
