import Verif.Proofs.ElemsQuery
/-!
# Queries answer with elements: the rules and the texts
-/
namespace Visdom
open Spec

variable {h : Heap} {T : Nat → Prop} {env : Env}

section
variable (sd : Firm h T env)
include sd

theorem Firm.idMatcher (i : List Char) : MIn h T (idMatcher h env.byId i) := by
  have key : ∀ (l : List Nat) (c : Option Bool), (∀ x ∈ l, Among h T x) → ∀ res, (Visdom.idMatcher h env.byId i).apply l c = .ok res → ∀ y ∈ res, El h T y := by
    intro l c hl res hr y hy
    simp only [Matcher.apply, Visdom.idMatcher, Except.ok.injEq] at hr
    subst hr
    split at hy
    · cases hy
    · rename_i x l
      split at hy
      · cases hy
      · rename_i e he
        have hx := hl x List.mem_cons_self
        have hE : El h T e := by
          cases hq : (h.node x).root with
          | none => rw [hq] at he; cases he
          | some q =>
            rw [hq, Option.bind_some] at he
            exact ⟨sd.cp.found x q i e hx hq he, sd.ids x q i e hx hq he⟩
        split at hy
        · rw [List.mem_singleton.1 hy]; exact hE
        · split at hy
          · rw [List.mem_singleton.1 hy]; exact hE
          · cases hy
  refine ⟨?_, ?_, fun _ l res hl hr => key l _ hl res hr⟩
  · rintro F l c res ⟨⟩ hl hr
    exact .els (key l c hl res hr)
  · rintro s x l ⟨⟩

theorem Firm.rootMatcher : MIn h T (rootMatcher h env.isDoc) := by
  refine ⟨(by rintro F l c res ⟨⟩), ?_, (by rintro ⟨⟩)⟩
  rintro s x l ⟨⟩ hx hl e he
  simp only [Except.ok.injEq] at hl
  subst hl
  split at he
  · obtain ⟨c, hc, rfl⟩ := List.mem_map.1 he
    exact child_el hx (List.mem_filter.1 hc).1
  · cases he

theorem Firm.groupLoop {A : Nat → R (Option (List Nat))} : ∀ {l : List Nat} {i : Nat} {d : SibData} {ds : List SibData}, (∀ x ∈ l, Among h T x) →
    (∀ p, d.parent = some p → Among h T p) → groupLoop h A l i d = .ok ds → ∀ d ∈ ds, ∀ p, d.parent = some p → Among h T p
  | [], i, d, ds, _, hd, hr => by
    rw [Visdom.groupLoop] at hr
    cases hr
    split
    · intro d' hd'; rw [List.mem_singleton.1 hd']; exact hd
    · rintro d' ⟨⟩
  | x :: l, i, d, ds, hl, hd, hr => by
    have hl' := fun y hy => hl y (List.mem_cons_of_mem x hy)
    rw [Visdom.groupLoop] at hr
    split at hr
    · exact Firm.groupLoop hl' hd hr
    · rename_i p hp
      have hpa := (sd.cp.up (hl x List.mem_cons_self) hp).1
      split at hr
      · exact Firm.groupLoop (d := { d with stop := i + 1 }) hl' hd hr
      · split at hr
        · cases hr
        · split at hr
          · cases hr
          · rename_i ds' h1
            have h2 := Firm.groupLoop hl' (by rintro q ⟨⟩; exact hpa) h1
            cases hr
            split
            · intro d' hd'
              rcases List.mem_cons.1 hd' with rfl | hd'
              · exact hd
              · exact h2 d' hd'
            · exact h2

theorem Firm.groupDo {A : Nat → R (Option (List Nat))} {cb : SibData → R (List Nat)} {l res : List Nat} (hl : ∀ x ∈ l, Among h T x)
    (hcb : ∀ d y, (∀ p, d.parent = some p → Among h T p) → cb d = .ok y → From h T l y) (hr : groupDo h A cb l = .ok res) : From h T l res := by
  unfold Visdom.groupDo at hr
  split at hr
  · cases hr
  · rename_i ds hds
    have h1 := sd.groupLoop hl (by rintro p ⟨⟩) hds
    exact sd.flat hr fun d hd y hy => hcb d y (h1 d hd) hy

end

theorem slice_sub (l : List Nat) (d : SibData) : slice l d ⊆ l := fun _ hx => List.mem_of_mem_take (List.mem_of_mem_drop hx)

theorem ascLoop_sub : ∀ (l c : List Nat) (i : Nat) (a : List Nat), ascLoop l c i a ⊆ l
  | [], _, _, _ => by rintro x ⟨⟩
  | x :: l, c, i, a => by
    rw [ascLoop]
    split
    · exact fun y hy => List.mem_cons_of_mem _ (ascLoop_sub l _ _ _ hy)
    · simp only
      have : ∀ (b : Bool) (i : Nat) (c a : List Nat), (if b = true then [] else ascLoop l c i a) ⊆ l := by
        intro b i c a
        cases b with
        | true => rintro y ⟨⟩
        | false => exact ascLoop_sub l _ _ _
      split
      · intro y hy
        rcases List.mem_cons.1 hy with rfl | hy
        · exact List.mem_cons_self
        · exact List.mem_cons_of_mem _ (this _ _ _ _ hy)
      · exact fun y hy => List.mem_cons_of_mem _ (this _ _ _ _ hy)

theorem descLoop_sub (a : List Nat) : ∀ (c : List Nat) (i : Nat) (s : List Nat), descLoop a c i s ⊆ c
  | [], _, _ => by rintro x ⟨⟩
  | x :: c, i, s => by
    rw [descLoop]
    have hc := fun s => descLoop_sub a c (i + 1) s
    split
    · split
      · intro y hy
        rcases List.mem_cons.1 hy with rfl | hy
        · exact List.mem_cons_self
        · split at hy
          · cases hy
          · exact List.mem_cons_of_mem _ (hc _ hy)
      · split
        · rintro y ⟨⟩
        · exact fun y hy => List.mem_cons_of_mem _ (hc _ hy)
    · exact fun y hy => List.mem_cons_of_mem _ (hc _ hy)

theorem atAll_sub {c is res : List Nat} (hr : atAll c is = .ok res) : res ⊆ c := by
  intro e he
  obtain ⟨i, -, y, hy, hey⟩ := ((flatMapR_mem hr).2 e).1 he
  split at hy
  · rename_i x hx
    cases hy
    rw [List.mem_singleton.1 hey]
    exact List.mem_of_getElem? hx
  · cases hy

theorem nthChildHandle_sub {asc : Bool} {s a c res : List Nat} (hr : nthChildHandle asc s a c = .ok res) : ∀ y ∈ res, y ∈ s ∨ y ∈ c := by
  unfold nthChildHandle at hr
  split at hr
  · split at hr
    · exact fun y hy => .inr (atAll_sub hr hy)
    · cases hr; exact fun y hy => .inl (ascLoop_sub _ _ _ _ hy)
  · split at hr
    · intro e he
      obtain ⟨i, -, y, hy, hey⟩ := ((flatMapR_mem hr).2 e).1 he
      split at hy
      · cases hy
      · split at hy
        · rename_i x hx
          cases hy
          rw [List.mem_singleton.1 hey]
          exact .inr (List.mem_of_getElem? hx)
        · cases hy
    · cases hr
      exact fun y hy => .inr (List.mem_reverse.1 (descLoop_sub _ _ _ _ (List.mem_reverse.1 hy)))

theorem collectAvail_sub : ∀ (a s : List Nat), collectAvail h a s ⊆ s
  | [], _ => by rintro x ⟨⟩
  | a :: as, s => by
    rw [collectAvail]
    split
    · rintro x ⟨⟩
    · rename_i x t ht
      have h1 : x :: t ⊆ s := by rw [← ht]; exact (List.dropWhile_sublist _).subset
      split
      · intro y hy
        rcases List.mem_cons.1 hy with rfl | hy
        · exact h1 List.mem_cons_self
        · exact h1 (List.mem_cons_of_mem _ (collectAvail_sub as t hy))
      · exact fun y hy => h1 (collectAvail_sub as _ hy)

theorem handleNthChild_from {asc : Bool} {l : List Nat} {d : SibData} {res : List Nat} (hd : ∀ p, d.parent = some p → Among h T p)
    (hr : handleNthChild h asc l d = .ok res) : From h T l res := by
  unfold handleNthChild at hr
  split at hr
  · cases hr
  · cases hr; exact .nil
  · split at hr
    · cases hr
    · rename_i p hp
      exact fun y hy => (nthChildHandle_sub hr y hy).imp (fun h1 => slice_sub l d h1) fun h1 => child_el (hd p hp) h1

theorem handleNthOfType_from {asc : Bool} {l : List Nat} {d : SibData} {res : List Nat}
    (hr : handleNthOfType h asc l d = .ok res) : From h T l res := by
  unfold handleNthOfType at hr
  split at hr
  · cases hr
  · cases hr; exact .nil
  · split at hr
    · cases hr
    · simp only at hr
      split at hr
      · cases hr
      · cases hr; exact .sub fun y hy => slice_sub l d (collectAvail_sub _ _ hy)

theorem specPass_el {asc : Bool} {mark : List Nat → List Bool} {x : Nat} (hx : Among h T x) {res : List (Nat × Bool × Bool)} (hr : specPass h asc mark x = .ok res) :
    ∀ e ∈ res, El h T e.1 := by
  unfold specPass at hr
  have key : ∀ m : List Bool, ∀ e ∈ ((h.children x).zip m).map fun e => (e.1, e.2, true), El h T e.1 := by
    intro m e he
    obtain ⟨p, hp, rfl⟩ := List.mem_map.1 he
    exact child_el hx (List.of_mem_zip hp).1
  split at hr
  · cases hr; exact key _
  · split at hr
    · cases hr
    · cases hr; exact key _

theorem nthChildSpec_el {asc : Bool} {i : Int} {x : Nat} (hx : Among h T x) {res : List (Nat × Bool × Bool)} (hr : nthChildSpec h asc i x = .ok res) :
    ∀ e ∈ res, El h T e.1 := by
  unfold nthChildSpec at hr
  split at hr
  · exact specPass_el hx hr
  · cases hr; rintro e ⟨⟩

theorem nthOfTypeSpec_el {asc : Bool} {i : Int} {x : Nat} (hx : Among h T x) {res : List (Nat × Bool × Bool)} (hr : nthOfTypeSpec h asc i x = .ok res) :
    ∀ e ∈ res, El h T e.1 := by
  unfold nthOfTypeSpec at hr
  split at hr
  · simp only at hr
    split at hr
    · split at hr
      · cases hr
      · exact specPass_el hx hr
    · split at hr
      · cases hr
      · split at hr
        · cases hr
        · exact specPass_el hx hr
  · cases hr; rintro e ⟨⟩

theorem onlyChildLoop_sub : ∀ (l : List Nat) (o : Option Nat), onlyChildLoop h l o ⊆ l
  | [], _ => by rintro x ⟨⟩
  | x :: l, o => by
    rw [onlyChildLoop]
    have hc := fun o => onlyChildLoop_sub l o
    split
    · exact fun y hy => List.mem_cons_of_mem _ (hc _ hy)
    · split
      · exact fun y hy => List.mem_cons_of_mem _ (hc _ hy)
      · split
        · intro y hy
          rcases List.mem_cons.1 hy with rfl | hy
          · exact List.mem_cons_self
          · exact List.mem_cons_of_mem _ (hc _ hy)
        · exact fun y hy => List.mem_cons_of_mem _ (hc _ hy)

theorem firstNamed_sub : ∀ (es : Names) (s : List Nat), firstNamed h es s ⊆ s
  | [], _ => by rintro x ⟨⟩
  | e :: es, s => by
    rw [firstNamed]
    split
    · exact firstNamed_sub es s
    · rename_i x t ht
      have h1 : x :: t ⊆ s := by rw [← ht]; exact (List.dropWhile_sublist _).subset
      intro y hy
      rcases List.mem_cons.1 hy with rfl | hy
      · exact h1 List.mem_cons_self
      · exact h1 (List.mem_cons_of_mem _ (firstNamed_sub es t hy))

theorem onlyOfTypeCb_from {l : List Nat} {d : SibData} {res : List Nat} (hr : onlyOfTypeCb h l d = .ok res) : From h T l res := by
  unfold onlyOfTypeCb at hr
  split at hr
  · cases hr
  · simp only at hr
    split at hr
    · exact .sub fun y hy => slice_sub l d (atAll_sub hr hy)
    · cases hr; exact .sub fun y hy => slice_sub l d (firstNamed_sub _ _ hy)

section
variable (sd : Firm h T env)
include sd

theorem Firm.nthChildMatcher (asc : Bool) (n i : Option Int) : MIn h T (nthChildMatcher h asc n i) := by
  refine ⟨?_, ?_, (by rintro ⟨⟩)⟩
  · rintro F l c res ⟨⟩ hl hr
    simp only at hr
    split at hr
    · exact sd.groupDo hl (fun d y hd hy => handleNthChild_from hd hy) hr
    · split at hr
      · cases hr
      · exact .sub fun y hy => (nthChildHandle_sub hr y hy).elim id id
  · intro s x l hs hx hl
    unfold Visdom.nthChildMatcher at hs
    cases n with
    | none => cases hs; exact nthChildSpec_el hx hl
    | some _ => cases hs

theorem Firm.edgeChildMatcher (asc : Bool) : MIn h T (edgeChildMatcher h asc) := by
  refine ⟨?_, ?_, (by rintro ⟨⟩)⟩
  · rintro F l c res ⟨⟩ hl hr
    exact sd.groupDo hl (fun d y hd hy => handleNthChild_from hd hy) hr
  · rintro s x l ⟨⟩ hx hl
    exact nthChildSpec_el hx hl

theorem Firm.nthOfTypeMatcher (asc : Bool) (n i : Option Int) : MIn h T (nthOfTypeMatcher h asc n i) := by
  refine ⟨?_, ?_, (by rintro ⟨⟩)⟩
  · rintro F l c res ⟨⟩ hl hr
    simp only at hr
    split at hr
    · exact sd.groupDo hl (fun d y hd hy => handleNthOfType_from hy) hr
    · split at hr
      · cases hr
      · exact handleNthOfType_from hr
  · intro s x l hs hx hl
    unfold Visdom.nthOfTypeMatcher at hs
    cases n with
    | none => cases hs; exact nthOfTypeSpec_el hx hl
    | some _ => cases hs

theorem Firm.edgeOfTypeMatcher (asc : Bool) : MIn h T (edgeOfTypeMatcher h asc) := by
  refine ⟨?_, ?_, (by rintro ⟨⟩)⟩
  · rintro F l c res ⟨⟩ hl hr
    exact sd.groupDo hl (fun d y hd hy => handleNthOfType_from hy) hr
  · rintro s x l ⟨⟩ hx hl
    exact nthOfTypeSpec_el hx hl

theorem Firm.textNthMatcher (last ofType : Bool) (n i : Option (List Char)) : MIn h T (textNthMatcher h last ofType n i) := by
  unfold Visdom.textNthMatcher
  simp only
  split
  · refine .ofAll fun l c res hl hr => ?_
    split at hr
    · refine sd.groupDo hl (fun d y hd hy => ?_) hr
      split at hy
      · exact handleNthOfType_from hy
      · exact handleNthChild_from hd hy
    · cases hr
  · split
    · exact sd.nthOfTypeMatcher _ _ _
    · exact sd.nthChildMatcher _ _ _

theorem Firm.partMatcher {rd : List Char → R (Except ParseErr (List Proc))} (hrd : ∀ t sel, rd t = .ok (.ok sel) → ∀ p ∈ sel, PIn h T p) (p : Part) :
    MIn h T (partMatcher h env rd p) := by
  have hap : ∀ (f : List Nat → List Proc → R (List Nat)) (t : List Char), (∀ l sel res, (∀ x ∈ l, Among h T x) → (∀ p ∈ sel, PIn h T p) → f l sel = .ok res → From h T l res) →
      MIn h T (textApply rd f t) := by
    intro f t hf
    refine .ofAll fun l c res hl hr => ?_
    split at hr
    · cases hr; exact .nil
    · split at hr
      · cases hr
      · cases hr; exact .nil
      · rename_i sel hs
        exact hf l sel res hl (hrd t sel hs) hr
  cases p with
  | all => exact all_in
  | name n => exact .ofOne
  | cls c => exact .ofOne
  | id i => exact sd.idMatcher i
  | attr k m v => exact .ofOne
  | nth last ofType n i => exact sd.textNthMatcher last ofType n i
  | edge last ofType =>
    rw [Visdom.partMatcher]
    split
    · exact sd.edgeOfTypeMatcher _
    · exact sd.edgeChildMatcher _
  | only ofType =>
    rw [Visdom.partMatcher]
    split
    · exact .ofAll fun l c res hl hr => sd.groupDo hl (fun d y hd hy => onlyOfTypeCb_from hy) hr
    · exact .ofAll fun l c res hl hr => by cases hr; exact .sub (onlyChildLoop_sub _ _)
  | root => exact sd.rootMatcher
  | empty => exact .ofOne
  | contains c => exact .ofOne
  | checked => exact .ofOne
  | not t => exact hap _ _ fun l sel res _ _ hr => .sub (notSel_sub hr).subset
  | has t => exact hap _ _ fun l sel res _ _ hr => .sub (hasSel_sub hr).subset
  | header => exact hap _ _ fun l sel res hl hp hr => sd.filterSel hp hl hr
  | input => exact hap _ _ fun l sel res hl hp hr => sd.filterSel hp hl hr
  | submit => exact hap _ _ fun l sel res hl hp hr => sd.filterSel hp hl hr

end

/-! ### Optimization and texts -/

theorem optimizeCmpd_in {r : Cmpd} (hr : CmpdIn h T r) : CmpdIn h T (optimizeCmpd r) := by
  unfold optimizeCmpd
  split
  · exact hr
  · exact hr
  · rename_i s t ss
    have hp : (sortPriority (s :: t :: ss)).Perm (s :: t :: ss) := List.perm_insertionSort _ _
    split
    · rintro s ⟨⟩
    · rename_i a as ha
      rw [ha] at hp
      split
      · intro x hx
        rcases List.mem_cons.1 hx with rfl | hx
        · exact hr a (hp.subset List.mem_cons_self)
        · obtain ⟨n, hn, rfl⟩ := List.mem_map.1 hx
          exact hr n (hp.subset (List.mem_cons_of_mem _ hn))
      · exact fun x hx => hr x (hp.subset hx)

theorem optimizeCmpd_leads {r : Cmpd} (hr : ∀ s ss, r = s :: ss → s.2 ≠ .chain) : ∀ s ss, optimizeCmpd r = s :: ss → s.2 ≠ .chain := by
  intro s' ss' he
  unfold optimizeCmpd at he
  split at he
  · cases he
  · cases he; exact hr _ _ rfl
  · rename_i s t ss
    have h1 := hr s _ rfl
    split at he
    · cases he
    · rename_i a as _
      split at he
      · cases he; exact h1
      · rename_i h2
        cases he
        rw [not_not.1 h2]; exact h1

theorem optimizeGroup_in {b : Bool} {g : List Cmpd} (hg : ∀ r ∈ g, CmpdIn h T r) (hl : Leads g) : PIn h T (optimizeGroup b g) := by
  have hq : ∀ r ∈ g.map optimizeCmpd, CmpdIn h T r := by
    intro r hr
    obtain ⟨q, hq, rfl⟩ := List.mem_map.1 hr
    exact optimizeCmpd_in (hg q hq)
  have key : ∀ (cond : Bool) (mi : Nat), PIn h T (if cond = true then { shouldIn := some ((g.map optimizeCmpd).take mi), query := (g.map optimizeCmpd).drop mi }
      else { query := g.map optimizeCmpd }) := by
    intro cond mi
    cases cond with
    | true => exact ⟨fun r hr => hq r (List.mem_of_mem_drop hr), by rintro ⟨⟩⟩
    | false =>
      refine ⟨hq, fun _ s ss rest he => ?_⟩
      cases g with
      | nil => cases he
      | cons r g =>
        simp only [Bool.false_eq_true, if_false, List.map_cons] at he
        exact optimizeCmpd_leads (fun s' ss' h1 => hl s' ss' g (by rw [h1])) s ss (List.cons.inj he).1
  exact key _ _

theorem lead_ne {c : Comb} {a : List Char} (hl : Lead c a) : c ≠ .chain := by
  rcases hl with ⟨rfl, -⟩ | hl
  · simp
  · cases hl with
    | desc => simp
    | sign hc => rintro rfl; cases hc

theorem cmpdOf_head {c : Comb} {l : List (Part × Comb)} {t : List Char} (hl : CmpdOf c l t) : ∃ p rest, l = (p, c) :: rest := by
  induction hl with
  | one => exact ⟨_, _, rfl⟩
  | more _ _ ih => obtain ⟨p, rest, rfl⟩ := ih; exact ⟨p, _, rfl⟩

theorem cplxOf_head {c : Comb} {g : List (List (Part × Comb))} {t : List Char} (hg : CplxOf c g t) : ∃ p rest more, g = ((p, c) :: rest) :: more := by
  induction hg with
  | one h1 => obtain ⟨p, rest, rfl⟩ := cmpdOf_head h1; exact ⟨p, rest, _, rfl⟩
  | more _ _ _ ih => obtain ⟨p, rest, more, rfl⟩ := ih; exact ⟨p, rest, _, rfl⟩

theorem listOf_heads {c : Comb} (hc : c ≠ .chain) {gs : PGroups} {t : List Char} (hg : ListOf c gs t) :
    ∀ g ∈ gs, ∃ p c' rest more, g = ((p, c') :: rest) :: more ∧ c' ≠ .chain := by
  induction hg with
  | one h1 =>
    intro g hg
    obtain ⟨p, rest, more, rfl⟩ := cplxOf_head h1
    rw [List.mem_singleton.1 hg]; exact ⟨p, c, rest, more, rfl, hc⟩
  | more _ _ h1 ih =>
    intro g hg
    rcases List.mem_append.1 hg with hg | hg
    · exact ih g hg
    · obtain ⟨p, rest, more, rfl⟩ := cplxOf_head h1
      rw [List.mem_singleton.1 hg]; exact ⟨p, _, rest, more, rfl, by simp⟩

theorem Firm.fromStr (sd : Firm h T env) : ∀ (d : Nat) {b : Bool} {text : List Char} {sel : List Proc}, fromStr h env d b text = .ok (.ok sel) → ∀ p ∈ sel, PIn h T p
  | 0, _, _, _, hr => by cases hr
  | d + 1, b, text, sel, hr => by
    rw [Visdom.fromStr] at hr
    split at hr
    · cases hr
    · cases hr
    · rename_i gs hgs
      cases hr
      intro p hp
      obtain ⟨g, hg, rfl⟩ := List.mem_map.1 hp
      refine optimizeGroup_in (fun r hr => ?_) ?_
      · unfold groupCmpds at hr
        obtain ⟨c, hc, rfl⟩ := List.mem_map.1 hr
        intro s hs
        obtain ⟨q, hq, rfl⟩ := List.mem_map.1 hs
        exact sd.partMatcher (fun t sel hts => Firm.fromStr sd d hts) q.1
      · rcases parseGroups_says hgs with ⟨-, rfl⟩ | ⟨c, a, t, w, hlead, hlist, -, -⟩
        · cases hg
        · obtain ⟨p, c', rest, more, rfl, hne⟩ := listOf_heads (lead_ne hlead) hlist g hg
          rintro s ss r he
          unfold groupCmpds at he
          simp only [List.map_cons, List.cons.injEq] at he
          rw [← he.1.1]; exact hne

section
variable (sd : Firm h T env)
include sd

theorem Firm.parseSel {b : Bool} {text : List Char} {sel : List Proc} (hs : parseSel h env b text = .ok (.ok sel)) : ∀ p ∈ sel, PIn h T p := sd.fromStr _ hs

theorem throwErr_nil {own : Nat → Bool} {X Y : List Nat} {k : Nat} (hr : throwErr own X [] = .ok (Y, k)) : Y = [] := by
  unfold throwErr at hr
  split at hr
  · cases hr
  · cases hr; rfl

theorem Firm.trigger {own : Nat → Bool} {X Y : List Nat} {t : List Char} {k : Nat} {F : List Proc → R (List Nat)} {P : List Nat → Prop} (h0 : P [])
    (hF : ∀ sel res, (∀ p ∈ sel, PIn h T p) → F sel = .ok res → P res) (hr : triggerMethod h env own X t [] F = .ok (Y, k)) : P Y := by
  unfold triggerMethod at hr
  split at hr
  · cases hr; exact h0
  · split at hr
    · cases hr
    · rw [throwErr_nil sd hr]; exact h0
    · rename_i sel hs
      obtain ⟨y, hy, he⟩ := map_ok hr
      obtain ⟨rfl, -⟩ := Prod.mk.inj he
      exact hF sel y (sd.parseSel hs) hy

theorem Firm.nav {own : Nat → Bool} {U Y : List Nat} {t : List Char} {k : Nat} {F : Option (List Proc) → R (List Nat)} {P : List Nat → Prop} (h0 : P [])
    (hF : ∀ sel res, OIn h T sel → F sel = .ok res → P res) (hr : navText h env own U t F = .ok (Y, k)) : P Y := by
  unfold navText at hr
  split at hr
  · obtain ⟨y, hy, he⟩ := map_ok hr
    obtain ⟨rfl, -⟩ := Prod.mk.inj he
    exact hF none y (by rintro ps ⟨⟩) hy
  · exact sd.trigger h0 (fun sel res hp hr => hF (some sel) res (by rintro ps ⟨⟩; exact hp) hr) hr

theorem Firm.till {own : Nat → Bool} {U Y : List Nat} {t u : List Char} {k : Nat} {F : List Proc → Option (List Proc) → R (List Nat)} {P : List Nat → Prop} (h0 : P [])
    (hF : ∀ sel flt res, F sel flt = .ok res → P res) (hr : untilText h env own U t u F = .ok (Y, k)) : P Y := by
  unfold untilText at hr
  split at hr
  · cases hr
  · rw [throwErr_nil sd hr]; exact h0
  · split at hr
    · obtain ⟨y, hy, he⟩ := map_ok hr
      obtain ⟨rfl, -⟩ := Prod.mk.inj he
      exact hF _ none y hy
    · split at hr
      · cases hr
      · rw [throwErr_nil sd hr]; exact h0
      · obtain ⟨y, hy, he⟩ := map_ok hr
        obtain ⟨rfl, -⟩ := Prod.mk.inj he
        exact hF _ _ y hy

end

end Visdom
