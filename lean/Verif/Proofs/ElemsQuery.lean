import Verif.Proofs.ElemsOnly
import Verif.Proofs.Sets
/-!
# Queries answer with elements: compounds, processes and methods
-/
namespace Visdom
open Spec

variable {h : Heap} {T : Nat → Prop} {env : Env}

/-- The matchers of a compound give nodes asked about or elements. -/
def CmpdIn (h : Heap) (T : Nat → Prop) (r : Cmpd) : Prop := ∀ s ∈ r, MIn h T s.1

/-- The first compound begins with a combinator that leads to elements. -/
def Leads (q : List Cmpd) : Prop := ∀ s ss rest, q = (s :: ss) :: rest → s.2 ≠ .chain

/-- The matchers of a process give nodes asked about or elements. -/
structure PIn (h : Heap) (T : Nat → Prop) (p : Proc) : Prop where
  query : ∀ r ∈ p.query, CmpdIn h T r
  lead : p.shouldIn = none → Leads p.query

theorem map_ok {α β : Type} {a : R α} {f : α → β} {r : β} (hr : a.map f = .ok r) : ∃ y, a = .ok y ∧ f y = r := by
  cases a with
  | error e => cases hr
  | ok y => cases hr; exact ⟨y, rfl, rfl⟩

theorem addElems_from {F S res : List Nat} (hr : addElems h F S = .ok res) : ∀ y ∈ res, y ∈ F ∨ y ∈ S := by
  unfold addElems at hr
  split at hr
  · cases hr; exact fun y hy => .inr hy
  · split at hr
    · cases hr; exact fun y hy => .inl hy
    · rename_i hF _
      obtain ⟨m, hm, hs⟩ := addMids_total (h := h) (F := F) (by simpa using hF) S.length S 0
      rw [hm] at hr
      cases hr
      intro y hy
      exact ((assemble_mem F 0 m y).1 hy).imp id fun h1 => hs.subset h1

section
variable (sd : Firm h T env)
include sd

theorem Firm.selectRest : ∀ {ss : List Seg} {l res : List Nat}, CmpdIn h T ss → (∀ x ∈ l, Among h T x) → selectRest h l ss = .ok res → From h T l res
  | [], l, res, _, _, hr => by cases hr; exact .refl
  | s :: ss, l, res, hc, hl, hr => by
    rw [Visdom.selectRest] at hr
    split at hr
    · cases hr; exact .refl
    · split at hr
      · cases hr
      · rename_i k hk
        have h1 := (sd.selectByRule (hc s List.mem_cons_self) hl hk).1
        exact h1.trans (Firm.selectRest (fun t ht => hc t (List.mem_cons_of_mem _ ht)) (h1.among hl) hr)

theorem Firm.selectFirst {m : Matcher} (hm : MIn h T m) {l res : List Nat} {c : Comb} (hl : ∀ x ∈ l, Among h T x) (hr : selectFirst h l m c = .ok res) : From h T l res ∧ (c ≠ .chain → ∀ y ∈ res, El h T y) := by
  unfold Visdom.selectFirst at hr
  split at hr
  · rename_i hc
    split at hr
    · cases hr
    · rename_i k hk
      have hk' := hm.cache (by simp at hc; exact hc.1) l k hl hk
      cases hf : filterR (fun x => hasEle0 h l x c) k with
      | error e => rw [hf] at hr; cases hr
      | ok k2 =>
        rw [hf] at hr
        cases hr
        have : ∀ y ∈ sortAndUnique h k2, El h T y := fun y hy => hk' y ((filterR_mem hf y).1 (sort_mem hy)).1
        exact ⟨.els this, fun _ => this⟩
  · exact sd.selectByRule hm hl hr

theorem Firm.select {r : Cmpd} (hc : CmpdIn h T r) {l res : List Nat} {c : Option Comb} (hl : ∀ x ∈ l, Among h T x)
    (hr : select h l r c = .ok res) : From h T l res ∧ ((∀ s ss, r = s :: ss → c.getD s.2 ≠ .chain) → ∀ y ∈ res, El h T y) := by
  unfold Visdom.select at hr
  split at hr
  · cases hr
  · rename_i s ss
    split at hr
    · cases hr
    · rename_i k hk
      obtain ⟨h1, h2⟩ := sd.selectFirst (hc s List.mem_cons_self) hl hk
      have h3 := sd.selectRest (fun t ht => hc t (List.mem_cons_of_mem _ ht)) (h1.among hl) hr
      exact ⟨h1.trans h3, fun hn => h3.el (h2 (hn s ss rfl))⟩

theorem Firm.selectChain : ∀ {q : List Cmpd} {l res : List Nat}, (∀ r ∈ q, CmpdIn h T r) → (∀ x ∈ l, Among h T x) → selectChain h l q = .ok res → From h T l res
  | [], l, res, _, _, hr => by cases hr; exact .refl
  | r :: q, l, res, hc, hl, hr => by
    rw [Visdom.selectChain] at hr
    split at hr
    · cases hr; exact .refl
    · split at hr
      · cases hr
      · rename_i k hk
        have h1 := (sd.select (hc r List.mem_cons_self) hl hk).1
        exact h1.trans (Firm.selectChain (fun t ht => hc t (List.mem_cons_of_mem _ ht)) (h1.among hl) hr)

theorem Firm.findProc {p : Proc} (hp : PIn h T p) {l res : List Nat} (hl : ∀ x ∈ l, Among h T x) (hr : findProc h l p = .ok res) : ∀ y ∈ res, El h T y := by
  obtain ⟨hq, hlead⟩ := hp
  unfold Visdom.findProc at hr
  split at hr
  · cases hr
  · rename_i first rest hpq
    rw [hpq] at hq hlead
    split at hr
    · cases hr
    · rename_i g hg
      have hge : ∀ y ∈ g, El h T y := by
        unfold findFirst at hg
        split at hg
        · split at hg
          · cases hg
          · rename_i k hk
            have h1 := (sd.select (hq first List.mem_cons_self) hl hk).2 fun s ss _ => by simp
            split at hg
            · cases hg
            · exact fun y hy => h1 y ((filterR_mem hg y).1 hy).1
        · rename_i hsi
          exact (sd.select (hq first List.mem_cons_self) hl hg).2 fun s ss hs => hlead hsi s ss rest (by rw [hs])
      exact (sd.selectChain (fun t ht => hq t (List.mem_cons_of_mem _ ht)) (fun x hx => (hge x hx).1) hr).el hge

theorem Firm.findProcs : ∀ {ps : List Proc} {l acc res : List Nat}, (∀ p ∈ ps, PIn h T p) → (∀ x ∈ l, Among h T x) → (∀ y ∈ acc, El h T y) →
    findProcs h l ps acc = .ok res → ∀ y ∈ res, El h T y
  | [], l, acc, res, _, _, ha, hr => by cases hr; exact ha
  | p :: ps, l, acc, res, hp, hl, ha, hr => by
    rw [Visdom.findProcs] at hr
    split at hr
    · cases hr
    · rename_i g hg
      have h1 := sd.findProc (hp p List.mem_cons_self) hl hg
      split at hr
      · exact Firm.findProcs (fun q hq => hp q (List.mem_cons_of_mem _ hq)) hl ha hr
      · split at hr
        · cases hr
        · rename_i acc' ha'
          exact Firm.findProcs (fun q hq => hp q (List.mem_cons_of_mem _ hq)) hl
            (fun y hy => (addElems_from ha' y hy).elim (ha y) (h1 y)) hr

theorem Firm.findSelector {ps : List Proc} {l res : List Nat} (hp : ∀ p ∈ ps, PIn h T p) (hl : ∀ x ∈ l, Among h T x) (hr : findSelector h l ps = .ok res) :
    ∀ y ∈ res, El h T y := by
  unfold Visdom.findSelector at hr
  split at hr
  · cases hr; rintro y ⟨⟩
  · exact sd.findProcs hp hl (by rintro y ⟨⟩) hr

theorem Firm.filterProc {p : Proc} (hp : PIn h T p) {l res : List Nat} {q q' : Option Nat} (hl : ∀ x ∈ l, Among h T x) (hr : filterProc h l q p = .ok (res, q')) : From h T l res := by
  unfold Visdom.filterProc at hr
  split at hr
  · cases hr; exact .nil
  · cases hr
  · rename_i s ss hlast
    have hc := hp.query _ (List.mem_of_getLast? hlast)
    split at hr
    · cases hr
    · rename_i f0 h0
      have h1 := (sd.selectByRule (hc s List.mem_cons_self) hl h0).1
      split at hr
      · cases hr
      · cases hr; exact .nil
      · rename_i x f h2
        have h3 := h1.trans (sd.selectRest (fun t ht => hc t (List.mem_cons_of_mem _ ht)) (h1.among hl) h2)
        split at hr
        · simp only at hr
          split at hr
          · cases hr
          · rename_i k hk
            cases hr
            exact fun y hy => h3 y ((filterR_mem hk y).1 hy).1
        · cases hr; exact h3

theorem Firm.filterProcs : ∀ {ps : List Proc} {l acc res : List Nat} {q : Option Nat}, (∀ p ∈ ps, PIn h T p) → (∀ x ∈ l, Among h T x) → From h T l acc →
    filterProcs h l ps q acc = .ok res → From h T l res
  | [], l, acc, res, _, _, _, ha, hr => by cases hr; exact ha
  | p :: ps, l, acc, res, q, hp, hl, ha, hr => by
    rw [Visdom.filterProcs] at hr
    split at hr
    · cases hr
    · rename_i g q' hg
      have h1 := sd.filterProc (hp p List.mem_cons_self) hl hg
      split at hr
      · exact Firm.filterProcs (fun q hq => hp q (List.mem_cons_of_mem _ hq)) hl ha hr
      · split at hr
        · cases hr
        · rename_i acc' ha'
          exact Firm.filterProcs (fun q hq => hp q (List.mem_cons_of_mem _ hq)) hl
            (fun y hy => (addElems_from ha' y hy).elim (ha y) (h1 y)) hr

theorem Firm.filterSel {ps : List Proc} {l res : List Nat} (hp : ∀ p ∈ ps, PIn h T p) (hl : ∀ x ∈ l, Among h T x) (hr : filterSel h l ps = .ok res) :
    From h T l res := by
  unfold Visdom.filterSel at hr
  split at hr
  · cases hr; exact .nil
  · exact sd.filterProcs hp hl .nil hr

end

theorem notInFrom_sub (S : List Nat) : ∀ (X : List Nat) (i : Nat), (notInFrom S X i).Sublist X
  | [], _ => List.nil_sublist _
  | x :: X, i => by
    rw [notInFrom]
    split
    · exact (notInFrom_sub S X _).cons x
    · exact (notInFrom_sub S X _).cons_cons x

theorem filterR_sub {g : Nat → R Bool} : ∀ {l res : List Nat}, filterR g l = .ok res → res.Sublist l
  | [], res, hr => by cases hr; exact List.nil_sublist _
  | a :: l, res, hr => by
    rw [filterR] at hr
    split at hr
    · cases hr
    · split at hr
      · cases hr
      · rename_i k hk
        cases hr
        split
        · exact (filterR_sub hk).cons_cons a
        · exact (filterR_sub hk).cons a

theorem notSel_sub {ps : List Proc} {l res : List Nat} (hr : notSel h l ps = .ok res) : res.Sublist l := by
  unfold notSel at hr
  split at hr
  · cases hr; exact List.nil_sublist _
  · cases hf : filterProcs h l ps none [] with
    | error e => rw [hf] at hr; cases hr
    | ok k =>
      rw [hf] at hr
      cases hr
      simp only
      split
      · exact List.Sublist.refl _
      · exact notInFrom_sub _ _ _

theorem hasSel_sub {ps : List Proc} {l res : List Nat} (hr : hasSel h l ps = .ok res) : res.Sublist l := by
  unfold hasSel at hr
  split at hr
  · cases hr; exact List.nil_sublist _
  · exact filterR_sub hr

theorem headCmpds_in {c : Comb} {q : List Cmpd} (hq : ∀ r ∈ q, CmpdIn h T r) : ∀ r ∈ headCmpds c q, CmpdIn h T r := by
  have hall : MIn h T allMatcher := .ofAll fun l c res _ hr => by cases hr; exact .refl
  unfold headCmpds
  split
  · rename_i m ss rest
    intro r hr
    rcases List.mem_cons.1 hr with rfl | hr
    · intro s hs
      rcases List.mem_cons.1 hs with rfl | hs
      · exact hq ((m, .childrenAll) :: ss) List.mem_cons_self (m, .childrenAll) List.mem_cons_self
      · exact hq _ List.mem_cons_self s (List.mem_cons_of_mem _ hs)
    · exact hq r (List.mem_cons_of_mem _ hr)
  · exact hq
  · intro r hr
    rcases List.mem_cons.1 hr with rfl | hr
    · intro s hs; rw [List.mem_singleton.1 hs]; exact hall
    · exact hq r hr

theorem headCmpds_leads {c : Comb} (hc : c ≠ .chain) (q : List Cmpd) : Leads (headCmpds c q) := by
  unfold headCmpds
  split
  · rintro s ss rest ⟨⟩; exact hc
  · rintro s ss rest ⟨⟩
  · rintro s ss rest ⟨⟩; exact hc

theorem headComb_in {c : Comb} (hc : c ≠ .chain) {p : Proc} (hp : PIn h T p) : PIn h T (headComb c p) := by
  unfold headComb
  split
  · rename_i hs
    exact ⟨hp.query, by rintro ⟨⟩⟩
  · exact ⟨headCmpds_in hp.query, fun _ => headCmpds_leads hc _⟩

theorem all_in : MIn h T allMatcher := .ofAll fun l c res _ hr => by cases hr; exact .refl

theorem star_in {c : Comb} (hc : c ≠ .chain) : PIn h T { query := [[(allMatcher, c)]] } :=
  ⟨fun r hr s hs => by rw [List.mem_singleton.1 hr] at hs; rw [List.mem_singleton.1 hs]; exact all_in,
    fun _ s ss rest he => by cases he; exact hc⟩

/-- A selector given or not given. -/
def OIn (h : Heap) (T : Nat → Prop) (o : Option (List Proc)) : Prop := ∀ ps, o = some ps → ∀ p ∈ ps, PIn h T p

section
variable (sd : Firm h T env)
include sd

theorem Firm.withComb {c : Comb} (hc : c ≠ .chain) {sel : Option (List Proc)} (hp : OIn h T sel) {l res : List Nat} (hl : ∀ x ∈ l, Among h T x)
    (hr : selectWithComb h l sel c = .ok res) : ∀ y ∈ res, El h T y := by
  unfold selectWithComb at hr
  split at hr
  · exact sd.findSelector (fun p hp => by rw [List.mem_singleton.1 hp]; exact star_in hc) hl hr
  · rename_i ps
    split at hr
    · cases hr; rintro y ⟨⟩
    · refine sd.findSelector (fun p hp' => ?_) hl hr
      obtain ⟨q, hq, rfl⟩ := List.mem_map.1 hp'
      exact headComb_in hc (hp ps rfl q hq)

theorem Firm.siblingsSel {sel : Option (List Proc)} (hp : OIn h T sel) {l res : List Nat} (hl : ∀ x ∈ l, Among h T x)
    (hr : siblingsSel h l sel = .ok res) : ∀ y ∈ res, El h T y := by
  unfold Visdom.siblingsSel at hr
  simp only at hr
  obtain ⟨k, hf, rfl⟩ := map_ok hr
  intro y hy
  have hy := (sortElems_perm h k).subset hy
  refine sd.flat hf (P := El h T) (fun e he z hz => ?_) y hy
  have hne : (if e.2 then Comb.children else .siblings) ≠ .chain := by split <;> simp
  refine sd.findSelector (fun p hp' => ?_) (fun x hx => by rw [List.mem_singleton.1 hx]; exact sd.pairs hl e he) hz
  split at hp'
  · rw [List.mem_singleton.1 hp']; exact star_in hne
  · rename_i ps
    obtain ⟨q, hq, rfl⟩ := List.mem_map.1 hp'
    exact headComb_in hne (hp ps rfl q hq)

theorem Firm.untilWalk {c : Comb} (hc : c ≠ .chain) {u : List Proc} {f : Option (List Proc)} {b : Bool} : ∀ {n x : Nat} {res : List Nat}, Among h T x →
    untilWalk h c u f b n x = .ok res → ∀ y ∈ res, El h T y
  | 0, _, _, _, hr => by cases hr
  | n + 1, x, res, hx, hr => by
    rw [Visdom.untilWalk] at hr
    split at hr
    · cases hr
    · rename_i l hl
      have h1 := (sd.selectByRule all_in (fun z hz => by rw [List.mem_singleton.1 hz]; exact hx) hl).2 hc
      split at hr
      · cases hr; rintro y ⟨⟩
      · rename_i y0 rest
        have h0 := h1 y0 List.mem_cons_self
        split at hr
        · cases hr
        · split at hr
          · cases ha : untilAdds h f (y0 :: rest) with
            | error e => rw [ha] at hr; cases hr
            | ok add =>
              rw [ha] at hr
              cases hr
              intro y hy
              cases add with
              | true => rw [List.mem_singleton.1 hy]; exact h0
              | false => cases hy
          · cases hr; rintro y ⟨⟩
        · split at hr
          · cases hr
          · rename_i add _
            cases hw : Visdom.untilWalk h c u f b n y0 with
            | error e => rw [hw] at hr; cases hr
            | ok k =>
              rw [hw] at hr
              cases hr
              have h2 := Firm.untilWalk hc h0.1 hw
              intro y hy
              cases add with
              | true =>
                rcases List.mem_cons.1 hy with rfl | hy
                · exact h0
                · exact h2 y hy
              | false => exact h2 y hy

theorem Firm.selectUntil {c : Comb} (hc : c ≠ .chain) {u : List Proc} {f : Option (List Proc)} {b : Bool} {l res : List Nat} (hl : ∀ x ∈ l, Among h T x)
    (hr : selectUntil h l c u f b = .ok res) : ∀ y ∈ res, El h T y :=
  sd.flat hr fun x hx _ hy => sd.untilWalk hc (hl x hx) hy

theorem Firm.closestWalk {ps : List Proc} : ∀ {n x y : Nat}, Among h T x → closestWalk h ps n x = .ok (some y) → y = x ∨ El h T y
  | 0, _, _, _, hr => by cases hr
  | n + 1, x, y, hx, hr => by
    rw [Visdom.closestWalk] at hr
    split at hr
    · cases hr
    · cases hr; exact .inl rfl
    · split at hr
      · cases hr
      · rename_i p hp
        split at hr
        · cases hr
        · rename_i hn
          have h1 := sd.parent hx hp (by simpa using hn)
          exact .inr ((Firm.closestWalk h1.1 hr).elim (fun h2 => h2 ▸ h1) id)

theorem usf_sub {l : List Nat} : ∀ x ∈ uniqueSiblingFirst h l, x ∈ l := by
  have key : ∀ (l : List Nat) (s : SibState), ∀ x ∈ (l.foldl (sibStep h) s).kept, x ∈ s.kept ∨ x ∈ l := by
    intro l
    induction l with
    | nil => intro s x hx; exact .inl hx
    | cons a l ih =>
      intro s x hx
      rcases ih (sibStep h s a) x hx with hx | hx
      · unfold sibStep at hx
        split at hx
        · split at hx
          · exact .inl hx
          · simp only at hx
            split at hx
            · exact .inl hx
            · rcases List.mem_append.1 hx with hx | hx
              · exact .inl hx
              · rw [List.mem_singleton.1 hx]; exact .inr List.mem_cons_self
        · split at hx
          · exact .inl hx
          · rcases List.mem_append.1 hx with hx | hx
            · exact .inl hx
            · rw [List.mem_singleton.1 hx]; exact .inr List.mem_cons_self
      · exact .inr (List.mem_cons_of_mem _ hx)
  intro x hx
  exact (key l {} x hx).elim (fun h1 => by cases h1) id

theorem Firm.closest {sel : Option (List Proc)} {l res : List Nat} (hl : ∀ x ∈ l, Among h T x) (hr : closest h l sel = .ok res) : From h T l res := by
  unfold Visdom.closest at hr
  split at hr
  · cases hr; exact .nil
  · rename_i ps
    split at hr
    · cases hr
    · rename_i selfs hs
      have h1 : selfs ⊆ l := (filterR_sub hs).subset
      simp only at hr
      split at hr
      · cases hr; exact .sub h1
      · cases hf : flatMapR (fun x => (Visdom.closestWalk h ps h.fuel x).map Option.toList) (uniqueSiblingFirst h (l.filter fun x => decide (x ∉ selfs))) with
        | error e => rw [hf] at hr; cases hr
        | ok found =>
          rw [hf] at hr
          cases hr
          intro y hy
          rcases List.mem_append.1 (sort_mem hy) with hy | hy
          · exact .inl (h1 hy)
          · refine sd.flat hf (P := fun y => y ∈ l ∨ El h T y) (fun x hx z hz e he => ?_) y hy
            have hxl := (List.mem_filter.1 (usf_sub sd x hx)).1
            cases hc : Visdom.closestWalk h ps h.fuel x with
            | error e => rw [hc] at hz; cases hz
            | ok o =>
              rw [hc] at hz
              cases hz
              cases o with
              | none => cases he
              | some w =>
                rw [List.mem_singleton.1 he]
                exact (sd.closestWalk (hl x hxl) hc).imp (fun h2 => by rw [h2]; exact hxl) id

end

end Visdom
