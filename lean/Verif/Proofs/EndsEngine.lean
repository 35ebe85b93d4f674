import Verif.Proofs.ElemsText
/-!
# Queries end: the evaluation of selectors
-/
namespace Visdom
open Spec

variable {h : Heap} {T : Nat → Prop} {env : Env}

/-- The call ends: with an answer or with a panic. -/
def Halts {α : Type} (a : R α) : Prop := a ≠ .error .diverge

section
variable {α β : Type}

theorem Halts.ok {x : α} : Halts (.ok x : R α) := by rintro ⟨⟩
theorem Halts.fail {e : Panic} (he : e ≠ .diverge) : Halts (.error e : R α) := by rintro ⟨⟩; exact he rfl
theorem Halts.err {a : R α} {e : Panic} (ha : Halts a) (hx : a = .error e) : Halts (.error e : R β) := by
  subst hx; rintro ⟨⟩; exact ha rfl
theorem Halts.map {a : R α} {f : α → β} (ha : Halts a) : Halts (a.map f) := by
  cases a with
  | error e => exact ha.err rfl
  | ok x => exact .ok

theorem Halts.flat {F : α → R (List β)} : ∀ {l : List α}, (∀ a ∈ l, Halts (F a)) → Halts (flatMapR F l)
  | [], _ => .ok
  | a :: l, hl => by
    rw [flatMapR]
    split
    · rename_i hx; exact (hl a List.mem_cons_self).err hx
    · split
      · rename_i hx; exact (Halts.flat fun b hb => hl b (List.mem_cons_of_mem _ hb)).err hx
      · exact .ok

theorem Halts.filter {g : α → R Bool} : ∀ {l : List α}, (∀ a ∈ l, Halts (g a)) → Halts (filterR g l)
  | [], _ => .ok
  | a :: l, hl => by
    rw [filterR]
    split
    · rename_i hx; exact (hl a List.mem_cons_self).err hx
    · split
      · rename_i hx; exact (Halts.filter fun b hb => hl b (List.mem_cons_of_mem _ hb)).err hx
      · exact .ok

theorem Halts.any {g : α → R Bool} : ∀ {l : List α}, (∀ a ∈ l, Halts (g a)) → Halts (anyR g l)
  | [], _ => .ok
  | a :: l, hl => by
    rw [anyR]
    split
    · rename_i hx; exact (hl a List.mem_cons_self).err hx
    · exact .ok
    · exact Halts.any fun b hb => hl b (List.mem_cons_of_mem _ hb)
end

/-! ### Single steps -/

theorem nextElems_halts (x : Nat) : Halts (h.nextElems x) := by
  unfold Heap.nextElems
  split
  · exact .ok
  · split
    · exact .fail (by simp)
    · exact .ok

theorem prevElem_halts (x : Nat) : Halts (h.prevElem x) := by
  unfold Heap.prevElem
  split
  · exact .ok
  · split
    · exact .fail (by simp)
    · exact .ok

theorem prevElems_halts (x : Nat) : Halts (h.prevElems x) := by
  unfold Heap.prevElems
  split
  · exact .ok
  · split
    · exact .fail (by simp)
    · exact .ok

theorem siblings_halts (x : Nat) : Halts (h.siblings x) := by
  unfold Heap.siblings
  split
  · exact .ok
  · simp only
    split
    · exact nextElems_halts x
    · split
      · exact .fail (by simp)
      · split
        · exact prevElems_halts x
        · split
          · exact .fail (by simp)
          · exact .ok

theorem uniqueParentsFrom_halts : ∀ (l : List Nat) (t : Nat), Halts (uniqueParentsFrom h t l)
  | [], _ => .ok
  | x :: l, t => by
    rw [uniqueParentsFrom]
    split
    · exact (uniqueParentsFrom_halts l x).map
    · exact uniqueParentsFrom_halts l t
    · exact .fail (by simp)

theorem uniqueParents_halts (l : List Nat) : Halts (uniqueParents h l) := by
  cases l with
  | nil => exact .ok
  | cons x l => exact (uniqueParentsFrom_halts l x).map

theorem addElems_halts (F S : List Nat) : Halts (addElems h F S) := by
  unfold addElems
  split
  · exact .ok
  · split
    · exact .ok
    · rename_i hF _
      obtain ⟨m, hm, -⟩ := addMids_total (h := h) (F := F) (by simpa using hF) S.length S 0
      rw [hm]; exact .ok

theorem reverse_halts (c : Comb) : Halts c.reverse := by cases c <;> first | exact .ok | exact .fail (by simp)

/-! ### Matchers and rules -/

/-- The matcher ends on every node of the trees. -/
structure MEnd (h : Heap) (T : Nat → Prop) (m : Matcher) : Prop where
  inn : MIn h T m
  kid : KidSpec h T m
  one : ∀ g, m.one = some g → ∀ x, Among h T x → Halts (g x)
  all : ∀ F, m.all = some F → ∀ l c, (∀ x ∈ l, Among h T x) → Halts (F l c)
  spec : ∀ s, m.spec = some s → ∀ x, Among h T x → Halts (s x)

theorem MEnd.apply {m : Matcher} (hm : MEnd h T m) {l : List Nat} (hl : ∀ x ∈ l, Among h T x) (c : Option Bool) : Halts (m.apply l c) := by
  unfold Matcher.apply
  split
  · rename_i F hF; exact hm.all F hF l c hl
  · split
    · rename_i g hg; exact .filter fun x hx => hm.one g hg x (hl x hx)
    · exact .fail (by simp)

theorem MEnd.getAll {m : Matcher} (hm : MEnd h T m) {l : List Nat} (hl : ∀ x ∈ l, Among h T x) (c : Option Bool) : Halts (m.getAll l c) := by
  unfold Matcher.getAll
  split
  · rename_i F hF; exact hm.all F hF l c hl
  · exact .fail (by simp)

section
variable (sd : Firm h T env)
include sd

theorem Firm.dfsOne_halts {g : Nat → R Bool} (hg : ∀ x, Among h T x → Halts (g x)) : ∀ {n n' x : Nat}, DownOk h h T n n' x → Halts (Visdom.dfsOne h g n x)
  | 0, _, _, d => by obtain ⟨_, _, h1, _⟩ := sd.cp.down_pos d; cases h1
  | n + 1, n', x, d => by
    obtain ⟨_, k, _, rfl⟩ := sd.cp.down_pos d
    rw [Visdom.dfsOne]
    refine .flat fun c hc => ?_
    split
    · rename_i hx; exact (hg c (d.among.child hc)).err hx
    · split
      · rename_i hx
        refine Halts.err ?_ hx
        split
        · exact Firm.dfsOne_halts hg (d.child hc)
        · exact .ok
      · exact .ok

theorem Firm.dfsSpec_halts {s : Nat → R (List (Nat × Bool × Bool))} (hs : ∀ x, Among h T x → Halts (s x))
    (hk : ∀ x l, Among h T x → s x = .ok l → ∀ e ∈ l, e.1 ∈ h.kids x) : ∀ {n n' x : Nat}, DownOk h h T n n' x → Halts (Visdom.dfsSpec h s n x)
  | 0, _, _, d => by obtain ⟨_, _, h1, _⟩ := sd.cp.down_pos d; cases h1
  | n + 1, n', x, d => by
    obtain ⟨_, k, _, rfl⟩ := sd.cp.down_pos d
    rw [Visdom.dfsSpec]
    split
    · rename_i hx; exact (hs x d.among).err hx
    · rename_i l hl
      refine .flat fun e he => ?_
      split
      · rename_i hx
        refine Halts.err ?_ hx
        split
        · exact Firm.dfsSpec_halts hs hk (d.kid (hk x l d.among hl e he))
        · exact .ok
      · exact .ok

theorem Firm.dfsAll_halts {F : List Nat → Option Bool → R (List Nat)} (hF : ∀ l c, (∀ x ∈ l, Among h T x) → Halts (F l c)) :
    ∀ {n n' x : Nat}, DownOk h h T n n' x → Halts (Visdom.dfsAll h F n x)
  | 0, _, _, d => by obtain ⟨_, _, h1, _⟩ := sd.cp.down_pos d; cases h1
  | n + 1, n', x, d => by
    obtain ⟨_, k, _, rfl⟩ := sd.cp.down_pos d
    rw [Visdom.dfsAll]
    split
    · exact .ok
    · split
      · rename_i hx; exact (hF _ _ fun c hc => d.among.child hc).err hx
      · refine .flat fun e he => ?_
        split
        · rename_i hx
          refine Halts.err ?_ hx
          split
          · exact Firm.dfsAll_halts hF (d.child (markMatched_mem he))
          · exact .ok
        · exact .ok

theorem Firm.overTops_halts {E : Nat → R (List Nat)} (hE : ∀ x, Among h T x → Halts (E x)) {l : List Nat} (hl : ∀ x ∈ l, Among h T x) : Halts (Visdom.overTops h E l) := by
  unfold Visdom.overTops
  split
  · split
    · rename_i hx; exact (uniqueParents_halts l).err hx
    · rename_i u hu
      have hua := rel_among sd (sd.cp.uniqueParents (f := id) ⟨rfl, hl⟩) hu
      exact .flat fun x hx => hE x (hua x hx)
  · exact .flat fun x hx => hE x (hl x hx)

theorem Firm.ancestors_halts : ∀ {n n' x : Nat}, UpOk h T n n' x → Halts (ancestorsFuel h n x)
  | 0, _, _, d => by obtain ⟨_, _, h1, _⟩ := d.pos; cases h1
  | n + 1, n', x, d => by
    obtain ⟨_, k, _, rfl⟩ := d.pos
    rw [ancestorsFuel]
    split
    · exact .ok
    · rename_i p hp
      split
      · exact .ok
      · split
        · rename_i hx; exact (Firm.ancestors_halts (sd.cp.upOk_parent d hp)).err hx
        · exact .ok

/-- A rule ends. -/
theorem Firm.selectByRule_halts {m : Matcher} (hm : MEnd h T m) {l : List Nat} (hl : ∀ x ∈ l, Among h T x) (c : Comb) : Halts (Visdom.selectByRule h l m c) := by
  cases c with
  | chain => exact hm.apply hl none
  | childrenAll =>
    rw [Visdom.selectByRule]
    split
    · rename_i g hg; exact sd.overTops_halts (fun x hx => sd.dfsOne_halts (hm.one g hg) (sd.cp.down hx)) hl
    · split
      · rename_i s hs; exact sd.overTops_halts (fun x hx => sd.dfsSpec_halts (hm.spec s hs) (hm.kid s hs) (sd.cp.down hx)) hl
      · split
        · rename_i F hF; exact sd.overTops_halts (fun x hx => sd.dfsAll_halts (hm.all F hF) (sd.cp.down hx)) hl
        · exact .fail (by simp)
  | children =>
    rw [Visdom.selectByRule]
    split
    · rename_i g hg; exact .flat fun x hx => .filter fun c hc => hm.one g hg c ((hl x hx).child hc)
    · split
      · rename_i s hs; exact .flat fun x hx => (hm.spec s hs x (hl x hx)).map
      · split
        · rename_i F hF; exact .flat fun x hx => hm.all F hF _ _ fun c hc => (hl x hx).child hc
        · exact .fail (by simp)
  | parent =>
    rw [Visdom.selectByRule]
    have hp := sd.parentsOf (sd.usf hl)
    split
    · rename_i g hg; exact .filter fun c hc => hm.one g hg c (hp c hc).1
    · exact hm.getAll (fun x hx => (hp x hx).1) none
  | parentAll =>
    rw [Visdom.selectByRule]
    split
    · rename_i hx; exact Halts.err (.flat fun x hx => sd.ancestors_halts (sd.cp.upOk (hl x hx))) hx
    · rename_i all ha
      have hp : ∀ y ∈ all, El h T y := sd.flat ha fun x hx y hy => sd.ancestors (hl x hx) hy
      split
      · rename_i g hg; exact Halts.map (.filter fun c hc => hm.one g hg c (hp c hc).1)
      · exact hm.getAll (fun x hx => (hp x (sort_mem hx)).1) none
  | nextAll =>
    rw [Visdom.selectByRule]
    refine .flat fun x hx => ?_
    split
    · rename_i he; exact (nextElems_halts x).err he
    · rename_i ns hns
      exact hm.apply (fun y hy => (sd.nextElems (sd.usf hl x hx) hns y hy).1) none
  | next =>
    rw [Visdom.selectByRule]
    have hp : ∀ y ∈ l.filterMap h.nextElem, El h T y := fun y hy => by
      obtain ⟨x, hx, hn⟩ := List.mem_filterMap.1 hy
      exact sd.nexts (hl x hx) hn
    split
    · rename_i g hg; exact .filter fun c hc => hm.one g hg c (hp c hc).1
    · exact hm.apply (fun x hx => (hp x hx).1) none
  | prevAll =>
    rw [Visdom.selectByRule]
    refine .flat fun x hx => ?_
    split
    · rename_i he; exact (prevElems_halts x).err he
    · rename_i ns hns
      exact hm.apply (fun y hy => (sd.prevElems (sd.usl hl x hx) hns y hy).1) none
  | prev =>
    rw [Visdom.selectByRule]
    split
    · rename_i he; exact Halts.err (.flat fun x _ => (prevElem_halts x).map) he
    · rename_i ps hps
      have hp : ∀ y ∈ ps, El h T y := sd.flat hps fun x hx y hy e he => by
        obtain ⟨o, ho, rfl⟩ := map_ok hy
        cases o with
        | none => cases he
        | some z => rw [List.mem_singleton.1 he]; exact sd.prev (hl x hx) ho
      split
      · rename_i g hg; exact .filter fun c hc => hm.one g hg c (hp c hc).1
      · exact hm.apply (fun x hx => (hp x hx).1) none
  | siblings =>
    rw [Visdom.selectByRule]
    refine .flat fun e he => ?_
    have hea := sd.pairs hl e he
    split
    · rename_i hx
      refine Halts.err ?_ hx
      split
      · exact .ok
      · exact siblings_halts e.1
    · rename_i ns hns
      refine hm.apply (fun y hy => ?_) none
      split at hns
      · cases hns; exact hea.child hy
      · exact (sd.siblings hea hns y hy).1

/-! ### Compounds and processes -/

theorem Firm.hasAncestor_halts {S : List Nat} : ∀ {n n' x : Nat}, UpOk h T n n' x → Halts (Visdom.hasAncestor h S n x)
  | 0, _, _, d => by obtain ⟨_, _, h1, _⟩ := d.pos; cases h1
  | n + 1, n', x, d => by
    obtain ⟨_, k, _, rfl⟩ := d.pos
    rw [Visdom.hasAncestor]
    split
    · exact .ok
    · rename_i p hp
      have d1 := sd.cp.upOk_parent d hp
      split
      · exact .ok
      · split
        · exact .ok
        · rename_i a ha
          split
          · exact .ok
          · obtain ⟨m, m', rfl, rfl⟩ := d1.pos
            refine Firm.hasAncestor_halts (n' := m') ?_
            obtain ⟨r, π, hr, hπ, h1, h2⟩ := sd.cp.upOk_parent d1 ha
            exact ⟨r, π, hr, hπ, by omega, by omega⟩

theorem Firm.hasRelated_halts {S l : List Nat} (hl : ∀ x ∈ l, Among h T x) (c : Comb) : Halts (Visdom.hasRelated h S c l) := by
  unfold Visdom.hasRelated
  split
  · exact .ok
  · exact .any fun x hx => sd.hasAncestor_halts (sd.cp.upOk (hl x hx))
  · exact .any fun x _ => (prevElem_halts x).map
  · exact .any fun x _ => (prevElems_halts x).map
  · exact .ok
  · exact .fail (by simp)

theorem Firm.hasEle0_halts {S : List Nat} {x : Nat} (hx : Among h T x) (c : Comb) : Halts (Visdom.hasEle0 h S x c) := by
  unfold Visdom.hasEle0
  split
  · rename_i he; exact (reverse_halts c).err he
  · exact sd.hasRelated_halts (by simpa using hx) _
end

/-- The matchers of a compound end. -/
def CmpdEnd (h : Heap) (T : Nat → Prop) (r : Cmpd) : Prop := ∀ s ∈ r, MEnd h T s.1

theorem CmpdEnd.inn {r : Cmpd} (hr : CmpdEnd h T r) : CmpdIn h T r := fun s hs => (hr s hs).inn

/-- The matchers of a process end. -/
structure PEnd (h : Heap) (T : Nat → Prop) (p : Proc) : Prop where
  query : ∀ r ∈ p.query, CmpdEnd h T r
  look : ∀ g, p.shouldIn = some g → ∀ r ∈ g, CmpdEnd h T r

section
variable (sd : Firm h T env)
include sd

theorem Firm.selectRest_halts : ∀ {ss : List Seg} {l : List Nat}, CmpdEnd h T ss → (∀ x ∈ l, Among h T x) → Halts (Visdom.selectRest h l ss)
  | [], _, _, _ => .ok
  | s :: ss, l, hc, hl => by
    have hs := hc s List.mem_cons_self
    rw [Visdom.selectRest]
    split
    · exact .ok
    · split
      · rename_i he; exact (sd.selectByRule_halts hs hl s.2).err he
      · rename_i k hk
        exact Firm.selectRest_halts (fun s hs => hc s (List.mem_cons_of_mem _ hs)) ((sd.selectByRule hs.inn hl hk).1.among hl)

theorem Firm.selectFirst_halts {m : Matcher} (hm : MEnd h T m) {l : List Nat} (hl : ∀ x ∈ l, Among h T x) (c : Comb) : Halts (Visdom.selectFirst h l m c) := by
  unfold Visdom.selectFirst
  split
  · split
    · rename_i he; exact (hm.apply hl _).err he
    · rename_i k hk
      exact Halts.map (.filter fun x hx => sd.hasEle0_halts ((hm.inn.apply hl hk).among hl x hx) c)
  · exact sd.selectByRule_halts hm hl c

theorem Firm.select_halts {r : Cmpd} (hr : CmpdEnd h T r) {l : List Nat} (hl : ∀ x ∈ l, Among h T x) (c : Option Comb) : Halts (Visdom.select h l r c) := by
  unfold Visdom.select
  split
  · exact .fail (by simp)
  · rename_i s ss
    have hs := hr s List.mem_cons_self
    split
    · rename_i he; exact (sd.selectFirst_halts hs hl _).err he
    · rename_i k hk
      exact sd.selectRest_halts (fun s hs => hr s (List.mem_cons_of_mem _ hs)) ((sd.selectFirst hs.inn hl hk).1.among hl)

theorem Firm.lookUp_halts : ∀ {g : List Cmpd} {l : List Nat} {c : Comb}, (∀ r ∈ g, CmpdEnd h T r) → (∀ x ∈ l, Among h T x) → Halts (Visdom.lookUp h l c g)
  | [], _, _, _, _ => .ok
  | r :: g, l, c, hg, hl => by
    have hr := hg r List.mem_cons_self
    rw [Visdom.lookUp]
    split
    · rename_i he; exact (sd.select_halts hr hl _).err he
    · rename_i k hk
      split
      · exact .ok
      · split
        · exact .fail (by simp)
        · split
          · rename_i he; exact (reverse_halts _).err he
          · exact Firm.lookUp_halts (fun r hr => hg r (List.mem_cons_of_mem _ hr)) ((sd.select hr.inn hl hk).1.among hl)

theorem Firm.lookUp_among : ∀ {g : List Cmpd} {l l' : List Nat} {c c' : Comb}, (∀ r ∈ g, CmpdEnd h T r) → (∀ x ∈ l, Among h T x) →
    Visdom.lookUp h l c g = .ok (some (l', c')) → ∀ x ∈ l', Among h T x
  | [], _, _, _, _, _, hl, he => by cases he; exact hl
  | r :: g, l, l', c, c', hg, hl, he => by
    have hr := hg r List.mem_cons_self
    rw [Visdom.lookUp] at he
    split at he
    · cases he
    · rename_i k hk
      split at he
      · cases he
      · split at he
        · cases he
        · split at he
          · cases he
          · exact Firm.lookUp_among (fun r hr => hg r (List.mem_cons_of_mem _ hr)) ((sd.select hr.inn hl hk).1.among hl) he

theorem Firm.hasEle_halts {S : List Nat} {x : Nat} (hx : Among h T x) (c : Comb) {g : List Cmpd} (hg : ∀ r ∈ g, CmpdEnd h T r) : Halts (Visdom.hasEle h S x c g) := by
  unfold Visdom.hasEle
  have hg' : ∀ r ∈ g.reverse, CmpdEnd h T r := fun r hr => hg r (List.mem_reverse.1 hr)
  have hx' : ∀ y ∈ [x], Among h T y := by simpa using hx
  split
  · rename_i he; exact (reverse_halts c).err he
  · split
    · rename_i he; exact (sd.lookUp_halts hg' hx').err he
    · exact .ok
    · rename_i he; exact sd.hasRelated_halts (sd.lookUp_among hg' hx' he) _

theorem Firm.selectChain_halts : ∀ {q : List Cmpd} {l : List Nat}, (∀ r ∈ q, CmpdEnd h T r) → (∀ x ∈ l, Among h T x) → Halts (Visdom.selectChain h l q)
  | [], _, _, _ => .ok
  | r :: q, l, hq, hl => by
    have hr := hq r List.mem_cons_self
    rw [Visdom.selectChain]
    split
    · exact .ok
    · split
      · rename_i he; exact (sd.select_halts hr hl _).err he
      · rename_i k hk
        exact Firm.selectChain_halts (fun r hr => hq r (List.mem_cons_of_mem _ hr)) ((sd.select hr.inn hl hk).1.among hl)

theorem Firm.findFirst_halts {S : List Nat} (hS : ∀ x ∈ S, Among h T x) {o : Option (List Cmpd)} (ho : ∀ g, o = some g → ∀ r ∈ g, CmpdEnd h T r) {r : Cmpd}
    (hr : CmpdEnd h T r) : Halts (Visdom.findFirst h S o r) := by
  unfold Visdom.findFirst
  split
  · rename_i g
    split
    · rename_i he; exact (sd.select_halts hr hS _).err he
    · rename_i k hk
      split
      · exact .fail (by simp)
      · exact .filter fun x hx => sd.hasEle_halts ((sd.select hr.inn hS hk).1.among hS x hx) _ (ho g rfl)
  · exact sd.select_halts hr hS none

theorem Firm.findFirst_among {S : List Nat} (hS : ∀ x ∈ S, Among h T x) {o : Option (List Cmpd)} {r : Cmpd} (hr : CmpdEnd h T r) {k : List Nat}
    (hk : Visdom.findFirst h S o r = .ok k) : ∀ x ∈ k, Among h T x := by
  unfold Visdom.findFirst at hk
  split at hk
  · split at hk
    · cases hk
    · rename_i k' hk'
      split at hk
      · cases hk
      · exact fun x hx => (sd.select hr.inn hS hk').1.among hS x (filterR_sub hk |>.subset hx)
  · exact (sd.select hr.inn hS hk).1.among hS

theorem Firm.findProc_halts {S : List Nat} (hS : ∀ x ∈ S, Among h T x) {p : Proc} (hp : PEnd h T p) : Halts (Visdom.findProc h S p) := by
  unfold Visdom.findProc
  split
  · exact .fail (by simp)
  · rename_i r q hq
    have hr := hp.query r (by rw [hq]; exact List.mem_cons_self)
    split
    · rename_i he; exact (sd.findFirst_halts hS hp.look hr).err he
    · rename_i k hk
      exact sd.selectChain_halts (fun r' hr' => hp.query r' (by rw [hq]; exact List.mem_cons_of_mem _ hr')) (sd.findFirst_among hS hr hk)

theorem Firm.findProcs_halts {S : List Nat} (hS : ∀ x ∈ S, Among h T x) : ∀ {ps : List Proc} {res : List Nat}, (∀ p ∈ ps, PEnd h T p) → Halts (Visdom.findProcs h S ps res)
  | [], _, _ => .ok
  | p :: ps, res, hp => by
    have ht := fun res => Firm.findProcs_halts hS (res := res) fun q hq => hp q (List.mem_cons_of_mem _ hq)
    rw [Visdom.findProcs]
    split
    · rename_i he; exact (sd.findProc_halts hS (hp p List.mem_cons_self)).err he
    · split
      · exact ht _
      · split
        · rename_i he; exact (addElems_halts _ _).err he
        · exact ht _

theorem Firm.findSelector_halts {S : List Nat} (hS : ∀ x ∈ S, Among h T x) {ps : List Proc} (hp : ∀ p ∈ ps, PEnd h T p) : Halts (Visdom.findSelector h S ps) := by
  unfold Visdom.findSelector
  split
  · exact .ok
  · exact sd.findProcs_halts hS hp

end
end Visdom
