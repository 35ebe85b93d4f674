import Verif.Proofs.EndsEngine
/-!
# Queries end: the methods
-/
namespace Visdom
open Spec

variable {h : Heap} {T : Nat → Prop} {env : Env}

section
variable (sd : Firm h T env)
include sd

theorem Firm.filterProc_halts {X : List Nat} (hX : ∀ x ∈ X, Among h T x) (q : Option Nat) {p : Proc} (hp : PEnd h T p) : Halts (Visdom.filterProc h X q p) := by
  unfold Visdom.filterProc
  split
  · exact .ok
  · exact .fail (by simp)
  · rename_i s ss hq
    have hr : CmpdEnd h T (s :: ss) := hp.query _ (List.mem_of_getLast? hq)
    have hs := hr s List.mem_cons_self
    have hss : CmpdEnd h T ss := fun t ht => hr t (List.mem_cons_of_mem _ ht)
    split
    · rename_i he; exact (sd.selectByRule_halts hs hX _).err he
    · rename_i k hk
      have hka := (sd.selectByRule hs.inn hX hk).1.among hX
      split
      · rename_i he; exact (sd.selectRest_halts hss hka).err he
      · exact .ok
      · rename_i x f hf
        have hfa := (sd.selectRest hss.inn hka hf).among hka
        split
        · simp only
          split
          · rename_i he
            refine Halts.err (.filter fun e hm => ?_) he
            exact sd.hasEle_halts (hfa e hm) _ fun r hr => hp.query r ((List.dropLast_sublist _).subset hr)
          · exact .ok
        · exact .ok

theorem Firm.filterProcs_halts {X : List Nat} (hX : ∀ x ∈ X, Among h T x) : ∀ {ps : List Proc} {q : Option Nat} {res : List Nat}, (∀ p ∈ ps, PEnd h T p) →
    Halts (Visdom.filterProcs h X ps q res)
  | [], _, _, _ => .ok
  | p :: ps, q, res, hp => by
    have ht := fun q res => Firm.filterProcs_halts hX (q := q) (res := res) fun q hq => hp q (List.mem_cons_of_mem _ hq)
    rw [Visdom.filterProcs]
    split
    · rename_i he; exact (sd.filterProc_halts hX q (hp p List.mem_cons_self)).err he
    · split
      · exact ht _ _
      · split
        · rename_i he; exact (addElems_halts _ _).err he
        · exact ht _ _

theorem Firm.isProcs_halts {X : List Nat} (hX : ∀ x ∈ X, Among h T x) : ∀ {ps : List Proc} {q : Option Nat}, (∀ p ∈ ps, PEnd h T p) → Halts (Visdom.isProcs h X ps q)
  | [], _, _ => .ok
  | p :: ps, q, hp => by
    rw [Visdom.isProcs]
    split
    · rename_i he; exact (sd.filterProc_halts hX q (hp p List.mem_cons_self)).err he
    · split
      · exact Firm.isProcs_halts hX fun q hq => hp q (List.mem_cons_of_mem _ hq)
      · exact .ok

theorem Firm.filterSel_halts {X : List Nat} (hX : ∀ x ∈ X, Among h T x) {ps : List Proc} (hp : ∀ p ∈ ps, PEnd h T p) : Halts (Visdom.filterSel h X ps) := by
  unfold Visdom.filterSel
  split
  · exact .ok
  · exact sd.filterProcs_halts hX hp

theorem Firm.notSel_halts {X : List Nat} (hX : ∀ x ∈ X, Among h T x) {ps : List Proc} (hp : ∀ p ∈ ps, PEnd h T p) : Halts (Visdom.notSel h X ps) := by
  unfold Visdom.notSel
  split
  · exact .ok
  · exact (sd.filterProcs_halts hX hp).map

theorem Firm.isSel_halts {X : List Nat} (hX : ∀ x ∈ X, Among h T x) {ps : List Proc} (hp : ∀ p ∈ ps, PEnd h T p) : Halts (Visdom.isSel h X ps) := by
  unfold Visdom.isSel
  split
  · exact .ok
  · exact sd.isProcs_halts hX hp

theorem Firm.isAllSel_halts {X : List Nat} (hX : ∀ x ∈ X, Among h T x) {ps : List Proc} (hp : ∀ p ∈ ps, PEnd h T p) : Halts (Visdom.isAllSel h X ps) := by
  unfold Visdom.isAllSel
  split
  · exact .ok
  · exact (sd.filterProcs_halts hX hp).map

theorem Firm.hasLoop_halts {ps : List Proc} (hp : ∀ p ∈ ps, PEnd h T p) : ∀ {n n' x : Nat}, DownOk h h T n n' x → Halts (Visdom.hasLoop h ps n x)
  | 0, _, _, d => by obtain ⟨_, _, h1, _⟩ := sd.cp.down_pos d; cases h1
  | n + 1, n', x, d => by
    obtain ⟨_, k, _, rfl⟩ := sd.cp.down_pos d
    rw [Visdom.hasLoop]
    split
    · exact .ok
    · split
      · rename_i he; exact (sd.isProcs_halts (fun c hc => d.among.child hc) hp).err he
      · exact .ok
      · exact .any fun c hc => Firm.hasLoop_halts hp (d.child hc)

theorem Firm.hasSel_halts {X : List Nat} (hX : ∀ x ∈ X, Among h T x) {ps : List Proc} (hp : ∀ p ∈ ps, PEnd h T p) : Halts (Visdom.hasSel h X ps) := by
  unfold Visdom.hasSel
  split
  · exact .ok
  · exact .filter fun x hx => sd.hasLoop_halts hp (sd.cp.down (hX x hx))

theorem Firm.hasInLoop_halts {S : List Nat} : ∀ {n n' x : Nat}, DownOk h h T n n' x → Halts (Visdom.hasInLoop h S n x)
  | 0, _, _, d => by obtain ⟨_, _, h1, _⟩ := sd.cp.down_pos d; cases h1
  | n + 1, n', x, d => by
    obtain ⟨_, k, _, rfl⟩ := sd.cp.down_pos d
    rw [Visdom.hasInLoop]
    split
    · exact .ok
    · split
      · exact .ok
      · exact .any fun c hc => Firm.hasInLoop_halts (d.child hc)

theorem Firm.hasIn_halts {X : List Nat} (hX : ∀ x ∈ X, Among h T x) (S : List Nat) : Halts (Visdom.hasIn h X S) :=
  .filter fun x hx => sd.hasInLoop_halts (sd.cp.down (hX x hx))

end

theorem all_end : MEnd h T allMatcher :=
  ⟨all_in, (by rintro s ⟨⟩), (by rintro g ⟨⟩), (by rintro F ⟨⟩ l c _; exact .ok), (by rintro s ⟨⟩)⟩

theorem headCmpds_end {c : Comb} {q : List Cmpd} (hq : ∀ r ∈ q, CmpdEnd h T r) : ∀ r ∈ headCmpds c q, CmpdEnd h T r := by
  unfold headCmpds
  split
  · rename_i m ss rest
    intro r hr
    rcases List.mem_cons.1 hr with rfl | hr
    · intro s hs
      have := hq _ List.mem_cons_self
      rcases List.mem_cons.1 hs with rfl | hs
      · exact this (m, .childrenAll) List.mem_cons_self
      · exact this s (List.mem_cons_of_mem _ hs)
    · exact hq r (List.mem_cons_of_mem _ hr)
  · rintro r ⟨⟩
  · intro r hr
    rcases List.mem_cons.1 hr with rfl | hr
    · intro s hs
      rw [List.mem_singleton.1 hs]; exact all_end
    · exact hq r hr

theorem headComb_end {c : Comb} {p : Proc} (hp : PEnd h T p) : PEnd h T (headComb c p) := by
  unfold headComb
  split
  · rename_i si hsi
    exact ⟨hp.query, by rintro g ⟨⟩; exact headCmpds_end (hp.look si hsi)⟩
  · rename_i hn
    exact ⟨headCmpds_end hp.query, fun g hg => hp.look g hg⟩

theorem star_end {c : Comb} : ∀ p ∈ [({ query := [[(allMatcher, c)]] } : Proc)], PEnd h T p := by
  intro p hp
  rw [List.mem_singleton.1 hp]
  refine ⟨fun r hr s hs => ?_, by rintro g ⟨⟩⟩
  rw [List.mem_singleton.1 hr] at hs
  rw [List.mem_singleton.1 hs]; exact all_end

/-- The matchers of a selector that may be absent end. -/
def OEnd (h : Heap) (T : Nat → Prop) (o : Option (List Proc)) : Prop := ∀ ps, o = some ps → ∀ p ∈ ps, PEnd h T p

section
variable (sd : Firm h T env)
include sd

theorem Firm.withComb_halts {X : List Nat} (hX : ∀ x ∈ X, Among h T x) {sel : Option (List Proc)} (hp : OEnd h T sel) (c : Comb) : Halts (selectWithComb h X sel c) := by
  unfold selectWithComb
  split
  · exact sd.findSelector_halts hX star_end
  · rename_i ps
    split
    · exact .ok
    · refine sd.findSelector_halts hX fun p hm => ?_
      obtain ⟨q, hq, rfl⟩ := List.mem_map.1 hm
      exact headComb_end (hp ps rfl q hq)

theorem Firm.siblingsSel_halts {X : List Nat} (hX : ∀ x ∈ X, Among h T x) {sel : Option (List Proc)} (hp : OEnd h T sel) : Halts (Visdom.siblingsSel h X sel) := by
  unfold Visdom.siblingsSel
  refine Halts.map (.flat fun e he => ?_)
  refine sd.findSelector_halts (by simpa using sd.pairs hX e he) ?_
  simp only
  split
  · exact star_end
  · rename_i ps
    intro p hm
    obtain ⟨q, hq, rfl⟩ := List.mem_map.1 hm
    exact headComb_end (hp ps rfl q hq)

theorem Firm.untilAdds_halts {X : List Nat} (hX : ∀ x ∈ X, Among h T x) {f : Option (List Proc)} (hf : OEnd h T f) : Halts (Visdom.untilAdds h f X) := by
  unfold Visdom.untilAdds
  split
  · exact .ok
  · rename_i ps; exact sd.isProcs_halts hX (hf ps rfl)

/-- A walk whose steps make a number smaller ends. -/
theorem Firm.untilWalk_halts {c : Comb} (μ : Nat → Nat) (hμ : ∀ x l y, Among h T x → Visdom.selectByRule h [x] allMatcher c = .ok l → y ∈ l → μ y < μ x)
    {u : List Proc} (hu : ∀ p ∈ u, PEnd h T p) {f : Option (List Proc)} (hf : OEnd h T f) (b : Bool) : ∀ {n x : Nat}, Among h T x → μ x < n →
    Halts (Visdom.untilWalk h c u f b n x)
  | 0, _, _, hn => absurd hn (Nat.not_lt_zero _)
  | n + 1, x, hx, hn => by
    have hx' : ∀ y ∈ [x], Among h T y := by simpa using hx
    rw [Visdom.untilWalk]
    split
    · rename_i he; exact (sd.selectByRule_halts all_end hx' c).err he
    · rename_i l hl
      have hla := (sd.selectByRule all_in hx' hl).1.among hx'
      split
      · exact .ok
      · rename_i y ys
        split
        · rename_i he; exact (sd.isProcs_halts hla hu).err he
        · split
          · exact (sd.untilAdds_halts hla hf).map
          · exact .ok
        · split
          · rename_i he; exact (sd.untilAdds_halts hla hf).err he
          · refine Halts.map (Firm.untilWalk_halts μ hμ hu hf b (hla y List.mem_cons_self) ?_)
            have := hμ x _ y hx hl List.mem_cons_self
            omega

theorem Firm.nextUntil_halts {X : List Nat} (hX : ∀ x ∈ X, Among h T x) {u : List Proc} (hu : ∀ p ∈ u, PEnd h T p) {f : Option (List Proc)} (hf : OEnd h T f) (b : Bool) :
    Halts (nextUntil h X u f b) :=
  .flat fun x hx => sd.untilWalk_halts (toEnd h) (fun _ _ _ hx hl hy => sd.cp.next_step hx hl hy) hu hf b (sd.usf hX x hx) (sd.cp.toEnd_fuel (sd.usf hX x hx)).1

theorem Firm.prevUntil_halts {X : List Nat} (hX : ∀ x ∈ X, Among h T x) {u : List Proc} (hu : ∀ p ∈ u, PEnd h T p) {f : Option (List Proc)} (hf : OEnd h T f) (b : Bool) :
    Halts (prevUntil h X u f b) :=
  Halts.map (.flat fun x hx => sd.untilWalk_halts (toFront h) (fun _ _ _ hx hl hy => sd.cp.prev_step hx hl hy) hu hf b (sd.usl hX x hx)
    (sd.cp.toFront_fuel (sd.usl hX x hx)).1)

theorem Firm.parentsUntil_halts {X : List Nat} (hX : ∀ x ∈ X, Among h T x) {u : List Proc} (hu : ∀ p ∈ u, PEnd h T p) {f : Option (List Proc)} (hf : OEnd h T f) (b : Bool) :
    Halts (parentsUntil h X u f b) :=
  Halts.map (.flat fun x hx => sd.untilWalk_halts (fun y => (h.treeIndexs y).length) (fun _ _ _ hx hl hy => sd.cp.parent_step hx hl hy) hu hf b (sd.usf hX x hx)
    (Nat.lt_succ_of_le (sd.cp.depth_fuel (sd.usf hX x hx)).1))

theorem Firm.closestWalk_halts {ps : List Proc} (hp : ∀ p ∈ ps, PEnd h T p) : ∀ {n n' x : Nat}, UpOk h T n n' x → Halts (Visdom.closestWalk h ps n x)
  | 0, _, _, d => by obtain ⟨_, _, h1, _⟩ := d.pos; cases h1
  | n + 1, n', x, d => by
    obtain ⟨_, k, _, rfl⟩ := d.pos
    rw [Visdom.closestWalk]
    split
    · rename_i he; exact (sd.isProcs_halts (by simpa using d.among) hp).err he
    · exact .ok
    · split
      · exact .ok
      · rename_i q hq
        split
        · exact .ok
        · exact Firm.closestWalk_halts hp (sd.cp.upOk_parent d hq)

theorem Firm.closest_halts {X : List Nat} (hX : ∀ x ∈ X, Among h T x) {sel : Option (List Proc)} (hp : OEnd h T sel) : Halts (Visdom.closest h X sel) := by
  unfold Visdom.closest
  split
  · exact .ok
  · rename_i ps
    split
    · rename_i he; exact Halts.err (.filter fun x hx => sd.isProcs_halts (by simpa using hX x hx) (hp ps rfl)) he
    · simp only
      split
      · exact .ok
      · refine Halts.map (.flat fun x hx => Halts.map (sd.closestWalk_halts (hp ps rfl) (sd.cp.upOk ?_)))
        exact hX x (List.mem_filter.1 (usf_sub sd x hx)).1

end
end Visdom
