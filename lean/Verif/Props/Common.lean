import Verif.Spec.Common
import Verif.Props.Find
import Verif.Props.Filter
import Verif.Props.After
import Verif.Props.Pseudo
/-!
# C17–C20, C22–C24, C51, C54 for common selectors

The theorems about `find` and `filter` once more, with conditions that can be read off the selector: positions, ids, `:not`, `:has`
and the aliases are included.
-/
namespace Visdom
open Spec Classical
variable {h : Heap} {r : Nat} {env : Env} {tot rt : Bool}

/-- Exactly these `an+b` are right for every number of children. -/
theorem safeNth_iff {a b : Int} : SafeNth a b ↔ ∀ total : Nat, 0 < total → ¬ BadNth a b total := by
  unfold SafeNth BadNth
  constructor
  · intro hs total ht; omega
  · intro hb
    by_contra hc
    simp only [not_or] at hc
    obtain ⟨h1, h2, h3, h4, h5, h6⟩ := hc
    rcases Int.lt_trichotomy a 0 with ha | ha | ha
    · have := hb (b - 1).toNat (by omega); omega
    · omega
    · by_cases hb0 : b < 0
      · have := hb 1 (by omega); omega
      · have := hb (b - 1).toNat (by omega); omega

/-- What the tree must provide for ids and nested compounds. -/
def Grounded (h : Heap) (r : Nat) (env : Env) (rt : Bool) : Prop := rt = true → Roots h r ∧ ∀ i, IdOk h r env i

theorem safe_nthOk (sm : Small h r) {last ofType d : Bool} {a b : Int} (hs : (Sim.nth last ofType a b).common rt d = true) :
    NthOk h r ofType a b := by
  rw [Sim.common, Bool.or_eq_true, Bool.and_eq_true, decide_eq_true_eq, decide_eq_true_eq] at hs
  rcases hs with hs | ⟨ho, hb1, hb2⟩
  swap
  · exact Or.inl ⟨ho, hb1, hb2, fun p hp _ => sm p hp⟩
  right
  intro p hp hne
  exact ⟨safeNth_iff.1 hs _ (List.length_pos_iff.2 hne), sm p hp⟩

/-- What matches a selector has the type its last compound asks for. -/
theorem lastType_named {A : Nat → Prop} {cx : Complex} {n : List Char} (hn : lastType cx = some n) {x : Nat}
    (hs : Sel h r A (steps h r env cx) x) : Named h n x := by
  obtain ⟨s, hl, hf⟩ := Option.bind_eq_some_iff.1 hn
  obtain ⟨init, rfl⟩ := List.getLast?_eq_some_iff.1 hl
  obtain ⟨c, ss⟩ := s
  have he : steps h r env (init ++ [(c, ss)]) = steps h r env init ++ [(c, fun x => decide (cmpdSat h r env ss x))] := by
    simp [steps_eq]
  rw [he, sel_snoc] at hs
  have hsat := cmpdSat_iff.1 (of_decide_eq_true hs.2.1)
  obtain ⟨t, ht, htn⟩ := List.exists_of_findSome?_eq_some hf
  have := hsat t ht
  cases t <;> simp only [Sim.typeName, Option.some.injEq, reduceCtorEq] at htn
  subst htn
  rwa [Sim.Sat] at this

theorem anySat_iff {sel : List Complex} {x : Nat} : anySat h r env sel x ↔ ∃ cx ∈ sel, Sel h r (· = r) (steps h r env cx) x := by
  induction sel with
  | nil => rw [anySat]; simp
  | cons c cs ih => rw [anySat, ih]; simp

/-- Alternatives that ask for different types exclude each other. -/
theorem typesApart_apart : ∀ {sel : List Complex}, typesApart sel = true → Apart h r env sel := by
  intro sel
  induction sel with
  | nil => intro _; exact trivial
  | cons c cs ih =>
    intro ha
    unfold typesApart at ha
    simp only [List.all_cons, Bool.and_eq_true, decide_eq_true_eq] at ha
    obtain ⟨⟨h1, h2⟩, h3⟩ := ha
    obtain ⟨n, hn⟩ := Option.isSome_iff_exists.1 h1
    rw [List.filterMap_cons, hn] at h3
    simp only [List.pairwise_cons] at h3
    refine ⟨fun x _ _ hs hany => ?_, ih ?_⟩
    · obtain ⟨d, hd, hds⟩ := anySat_iff.1 hany
      obtain ⟨m, hm⟩ := Option.isSome_iff_exists.1 (List.all_eq_true.1 h2 d hd)
      exact h3.1 m (List.mem_filterMap.2 ⟨d, hd, hm⟩) ((lastType_named hn hs).2.symm.trans (lastType_named hm hds).2)
    · unfold typesApart
      rw [Bool.and_eq_true, decide_eq_true_eq]
      exact ⟨h2, h3.2⟩

theorem union_common {d : Bool} {sel : List Complex} (hc : (decide (sel.length ≤ 1) || (d && typesApart sel)) = true) {q : ListQ}
    (hd : d = true → q = .doc) : UnionOk h r env q sel := by
  rw [Bool.or_eq_true, decide_eq_true_eq, Bool.and_eq_true] at hc
  rcases hc with hc | ⟨h1, h2⟩
  · exact fun _ _ => Or.inl hc
  · rw [hd h1]; exact apart_unionOk (typesApart_apart h2)

mutual
theorem common_list (sm : Small h r) (gr : Grounded h r env rt) : ∀ (s : Sim) {d : Bool}, s.common rt d = true → ∀ q : ListQ, q ≠ .any →
    (d = true → q = .doc) → s.Ok h r env tot q .list
  | .all, _, _, q, hq, _ | .name _, _, _, q, hq, _ | .cls _, _, _, q, hq, _ | .attr _, _, _, q, hq, _ | .root, _, _, q, hq, _
  | .empty, _, _, q, hq, _ | .contains _, _, _, q, hq, _ | .checked, _, _, q, hq, _ => by unfold Sim.Ok; trivial
  | .id i, _, hc, q, hq, _ => by
    rw [Sim.common] at hc
    rw [Sim.Ok]
    exact ⟨(gr hc).1, (gr hc).2 i, Or.inr ⟨rfl, hq⟩⟩
  | .attrTest k t v, _, hc, q, hq, _ => by
    rw [Sim.common] at hc
    rw [Sim.Ok]
    rintro rfl; cases hc
  | .nth last ofType a b, _, hc, q, hq, _ => by
    rw [Sim.Ok]
    exact ⟨Or.inl (safe_nthOk sm hc), Or.inr hq, fun _ hv => by cases hv⟩
  | .nthIdx _ _ _, _, _, q, hq, _ => by rw [Sim.Ok]; exact ⟨Or.inr hq, fun _ _ => rfl⟩
  | .edge _ _, _, _, q, hq, _ => by rw [Sim.Ok]; exact ⟨Or.inr hq, fun _ _ => rfl⟩
  | .only _, _, _, q, hq, _ => by rw [Sim.Ok]; exact Or.inr hq
  | .not sel, d, hc, q, hq, hd => by
    rw [Sim.common, Bool.and_eq_true] at hc
    rw [Sim.Ok]
    exact ⟨by simpa using union_common hc.1 hd, by simpa using common_alts sm gr sel hc.2 q hq hd⟩
  | .has sel, _, hc, q, hq, _ => by
    rw [Sim.common] at hc
    rw [Sim.Ok]
    exact common_alts sm gr sel hc .doc (by simp) fun _ => rfl
  | .alias sel, d, hc, q, hq, hd => by
    rw [Sim.common, Bool.and_eq_true] at hc
    rw [Sim.Ok]
    exact ⟨by simpa using union_common hc.1 hd, by simpa using common_alts sm gr sel hc.2 q hq hd⟩
theorem common_alts (sm : Small h r) (gr : Grounded h r env rt) : ∀ (sel : List (List (Comb × List Sim))) {d : Bool},
    altsCommon rt d sel = true → ∀ q : ListQ, q ≠ .any → (d = true → q = .doc) → innersOk h r env tot q sel
  | [], _, _, _, _, _ => by rw [innersOk]; trivial
  | c :: cs, d, hc, q, hq, hd => by
    rw [altsCommon] at hc
    simp only [Bool.and_eq_true, Bool.or_eq_true, Bool.not_eq_true', List.isEmpty_eq_false_iff, bne_iff_ne, List.all_eq_true, beq_iff_eq,
      decide_eq_true_eq] at hc
    obtain ⟨⟨⟨⟨h1, h2⟩, h3⟩, h4⟩, h5⟩ := hc
    obtain ⟨h6, h7⟩ := common_steps sm gr c h4 q hq hd
    rw [innersOk]
    refine ⟨⟨h1, h6, ?_, ?_⟩, h7, common_alts sm gr cs h5 q hq hd⟩
    · rintro s rfl
      rcases h2 with h2 | h2
      · exact absurd rfl h2
      · exact h2 s (by simp)
    · intro hl
      rcases h3 with h3 | h3
      · exact (gr h3).1
      · omega
theorem common_steps (sm : Small h r) (gr : Grounded h r env rt) : ∀ (l : List (Comb × List Sim)) {d : Bool}, stepsCommon rt d l = true →
    ∀ q : ListQ, q ≠ .any → (d = true → q = .doc) → (∀ s ∈ l, Comb.down s.1 = true ∧ s.2 ≠ []) ∧ innerOk h r env tot q l
  | [], _, _, _, _, _ => by rw [innerOk]; exact ⟨fun s hs => absurd hs List.not_mem_nil, trivial⟩
  | s :: l, d, hc, q, hq, hd => by
    rw [stepsCommon, Bool.and_eq_true] at hc
    obtain ⟨h1, h2⟩ := common_steps sm gr l hc.2 q hq hd
    rw [innerOk]
    have hq' : (if l.isEmpty = true then q else .doc) ≠ ListQ.any := by split <;> simp [hq]
    have hd' : (d || !l.isEmpty) = true → (if l.isEmpty = true then q else .doc) = ListQ.doc := by
      intro hor
      split
      · next he => rw [he] at hor; simp at hor; exact hd hor
      · rfl
    obtain ⟨h3, h4, h5⟩ := common_step sm gr s hc.1 _ hq' hd'
    refine ⟨fun t ht => ?_, h5, h2⟩
    rcases List.mem_cons.1 ht with rfl | ht
    · exact ⟨h3, h4⟩
    · exact h1 t ht
theorem common_step (sm : Small h r) (gr : Grounded h r env rt) : ∀ (s : Comb × List Sim) {d : Bool}, stepCommon rt d s = true →
    ∀ q : ListQ, q ≠ .any → (d = true → q = .doc) → Comb.down s.1 = true ∧ s.2 ≠ [] ∧ stepOk h r env tot q s
  | (c, ss), d, hc, q, hq, hd => by
    rw [stepCommon] at hc
    simp only [Bool.and_eq_true, Bool.not_eq_true', List.isEmpty_eq_false_iff] at hc
    rw [stepOk]
    exact ⟨hc.1.1, hc.1.2, common_sims sm gr ss hc.2 q hq hd⟩
theorem common_sims (sm : Small h r) (gr : Grounded h r env rt) : ∀ (ss : List Sim) {d : Bool}, simsCommon rt d ss = true →
    ∀ q : ListQ, q ≠ .any → (d = true → q = .doc) → simsOk h r env tot q ss
  | [], _, _, _, _, _ => by rw [simsOk]; trivial
  | s :: ss, d, hc, q, hq, hd => by
    rw [simsCommon, Bool.and_eq_true] at hc
    rw [simsOk]
    exact ⟨common_list sm gr s hc.1 q hq hd, common_sims sm gr ss hc.2 q hq hd⟩
end

/-- A common rule that is evaluated first, among children or descendants. -/
theorem common_first (sm : Small h r) (gr : Grounded h r env rt) {s : Sim} {d : Bool} (hc : s.common rt d = true) {q : ListQ} (v : Via)
    (hq : v = .list → q ≠ .any) (hd : v = .list → d = true → q = .doc)
    (hid : v = .child → s.isId = false) (hsh : tot = true → v ≠ .list → s.shaky = false) : s.Ok h r env tot q v := by
  by_cases hv : v = .list
  · subst hv; exact common_list sm gr s hc q (hq rfl) (hd rfl)
  · cases s <;> first
      | (unfold Sim.Ok; exact True.intro)
      | skip
    case id i =>
      rw [Sim.common] at hc
      rw [Sim.Ok]
      cases v
      · cases hid rfl
      · exact ⟨(gr hc).1, (gr hc).2 i, Or.inl rfl⟩
      · exact absurd rfl hv
    case attrTest k t w => rw [Sim.Ok]; rintro rfl; cases hc
    case nth last ofType a b =>
      rw [Sim.Ok]
      exact ⟨Or.inl (safe_nthOk sm hc), Or.inl hv, fun ht _ => by cases hsh ht hv⟩
    case nthIdx last ofType b =>
      rw [Sim.Ok]
      refine ⟨Or.inl hv, fun ht hl => ?_⟩
      subst hl; cases hsh ht hv
    case edge last ofType =>
      rw [Sim.Ok]
      refine ⟨Or.inl hv, fun ht hl => ?_⟩
      subst hl; cases hsh ht hv
    case only => rw [Sim.Ok]; exact Or.inl hv
    case not sel =>
      rw [Sim.common, Bool.and_eq_true] at hc
      rw [Sim.Ok, if_neg hv]
      exact ⟨union_common hc.1 fun _ => rfl, common_alts sm gr sel hc.2 _ (by simp) fun _ => rfl⟩
    case has sel =>
      rw [Sim.common] at hc
      rw [Sim.Ok]
      exact common_alts sm gr sel hc .doc (by simp) fun _ => rfl
    · rw [Sim.common, Bool.and_eq_true] at hc
      rw [Sim.Ok, if_neg hv]
      exact ⟨union_common hc.1 fun _ => rfl, common_alts sm gr _ hc.2 _ (by simp) fun _ => rfl⟩

theorem common_cmpdOk (sm : Small h r) (gr : Grounded h r env rt) {ss : List Sim} (hne : ss ≠ []) {d : Bool}
    (hc : ∀ t ∈ ss, t.common rt d = true) {q : ListQ} (v : Via) (hq : q ≠ .any ∨ (ss.length = 1 ∧ v ≠ .list)) (hd : d = true → q = .doc ∨ (ss.length = 1 ∧ v ≠ .list))
    (hid : v = .child → ∀ t ∈ ss, t.isId = false)
    (hst : tot = true → (∃ t ∈ ss, 100 ≤ t.prio) ∨ ∀ t ∈ ss, t.shaky = false) : CmpdOk h r env tot q v ss := by
  refine ⟨hne, fun s hs => ⟨fun hmax => ?_, ?_⟩⟩
  · refine common_first sm gr (hc s hs) v (fun hv => hq.resolve_right fun h1 => h1.2 hv) (fun hv hd' => ?_) (fun hv => hid hv s hs) fun ht _ => ?_
    · rcases hd hd' with h1 | h1
      · exact h1
      · exact absurd hv h1.2
    rcases hst ht with ⟨t, ht, hp⟩ | hst
    · have := hmax t ht
      cases s <;> first
        | rfl
        | (exact absurd (Nat.le_trans hp this) (by show ¬ 100 ≤ 10; decide))
    · exact hst s hs
  · by_cases hdd : d = true → q = .doc
    · rcases hq with hq | hq
      · exact Or.inr (common_list sm gr s (hc s hs) q hq hdd)
      · exact Or.inl hq.1
    · simp only [Classical.not_imp] at hdd
      rcases hd hdd.1 with h1 | h1
      · exact absurd h1 hdd.2
      · exact Or.inl h1.1

theorem listQ_any {ph : Phase} : Phase.listQ ph = .any ↔ ph = .first := by cases ph <;> simp [Phase.listQ]

theorem calm_cons {ph : Phase} {c : Comb} {ss : List Sim} {l : Complex} (hc : calmSteps ph ((c, ss) :: l) = true) :
    (c = .childrenAll → ph.tidy = true) ∧ (ph.next c ≠ .first ∨ (∀ s ∈ ss, s.basic = true) ∨ lonely (c, ss) = true) ∧
      calmSteps (ph.next c) l = true := by
  simp only [calmSteps, Bool.and_eq_true, Bool.or_eq_true, beq_iff_eq, bne_iff_ne, ne_eq, List.all_eq_true] at hc
  obtain ⟨⟨h1, h2⟩, h3⟩ := hc
  exact ⟨fun h => h1.resolve_left fun h' => h' h, by tauto, h3⟩

theorem lonely_spec {s : Comb × List Sim} (hl : lonely s = true) : s.2.length = 1 ∧ (s.1 = .children ∨ s.1 = .childrenAll) := by
  unfold lonely at hl
  simpa only [Bool.and_eq_true, decide_eq_true_eq, Bool.or_eq_true, beq_iff_eq] using hl

theorem common_stepsOk (sm : Small h r) (gr : Grounded h r env rt) {D : Bool} : ∀ {cx : Complex} {ph : Phase},
    (D = true → (ph = .anti ∨ ph = .sorted) ∧ ∀ s ∈ cx, s.1 = Comb.childrenAll) →
    (∀ s ∈ cx, Comb.down s.1 = true ∧ s.2 ≠ [] ∧ (∀ t ∈ s.2, t.common rt (D || lonely s) = true) ∧
      (s.1 = .children → ∀ t ∈ s.2, t.isId = false)) →
    (tot = true → Steady cx) → calmSteps ph cx = true → StepsOk tot (CmpdOk h r env tot) ph cx := by
  intro cx
  induction cx with
  | nil => intros; trivial
  | cons s l ih =>
    intro ph hD hb hst hcalm
    obtain ⟨c, ss⟩ := s
    obtain ⟨h1, h2, h3, h4⟩ := hb (c, ss) List.mem_cons_self
    obtain ⟨hc1, hq, hc2⟩ := calm_cons hcalm
    have hD' : D = true → ph.next c = .sorted := by
      intro ht
      obtain ⟨k1, k2⟩ := hD ht
      have hc : c = .childrenAll := k2 (c, ss) List.mem_cons_self
      subst hc
      rcases k1 with rfl | rfl <;> rfl
    have hlone : lonely (c, ss) = true → ss.length = 1 ∧ Comb.via c ≠ .list := by
      intro ht
      obtain ⟨k1, k2⟩ := lonely_spec ht
      refine ⟨k1, ?_⟩
      rcases k2 with k2 | k2 <;> (dsimp only at k2; subst k2; decide)
    refine ⟨h1, ?_, fun _ => hc1,
      ih (fun ht => ⟨Or.inr (hD' ht), fun s hs => (hD ht).2 s (List.mem_cons_of_mem _ hs)⟩)
        (fun s hs => hb s (List.mem_cons_of_mem _ hs)) (fun ht s hs => hst ht s (List.mem_cons_of_mem _ hs)) hc2⟩
    by_cases hbas : ∀ s ∈ ss, s.basic = true
    · exact basic_cmpdOk h2 hbas _ _
    refine common_cmpdOk sm gr h2 h3 _ ?_ (fun ht => ?_) (fun hv => h4 ?_) (fun ht => hst ht (c, ss) List.mem_cons_self)
    · rcases hq with hq | hq | hq
      · exact Or.inl fun e => hq (listQ_any.1 e)
      · exact absurd hq hbas
      · exact Or.inr (hlone hq)
    · rcases Bool.or_eq_true _ _ ▸ ht with ht | ht
      · left
        show Phase.listQ (ph.next c) = .doc
        rw [hD' ht]; rfl
      · exact Or.inr (hlone ht)
    · cases c <;> first
        | rfl
        | cases hv

/-- Common selectors are among those for which `find` is right. -/
theorem common_findOk (sm : Small h r) (gr : Grounded h r env rt) {cx : Complex} (hc : Common rt cx) (hst : tot = true → Steady cx)
    {ph : Phase} (hp : ph = .anti ∨ ph = .sorted) (hcalm : calm ph cx = true) : FindOk h r env tot ph cx := by
  obtain ⟨hne, hb⟩ := hc
  refine ⟨hne, ?_⟩
  have hdesc : descOnly cx = true → ∀ s ∈ cx, s.1 = Comb.childrenAll := by
    intro hd s hs
    unfold descOnly at hd
    simpa using List.all_eq_true.1 hd s hs
  have hnext : ph.next .childrenAll = .sorted := by rcases hp with rfl | rfl <;> rfl
  unfold calm at hcalm
  split
  · next hl =>
    rw [if_pos hl, Bool.and_eq_true, Bool.or_eq_true, beq_iff_eq, beq_iff_eq] at hcalm
    have hlt := heaviest_lt hne
    refine ⟨?_, fun _ => hcalm.1, ?_⟩
    · intro s hs
      obtain ⟨h1, h2, h3, _⟩ := hb s (List.mem_of_mem_take hs)
      exact ⟨h1, h2, fun t ht => common_list sm gr t (h3 t ht) _ (by simp) fun _ => rfl⟩
    · have hd := List.drop_eq_getElem_cons hlt
      obtain ⟨h1, h2, h3, _⟩ := hb _ (List.getElem_mem hlt)
      refine ⟨cx[heaviest cx].1, cx[heaviest cx].2, _, hd, h1,
        common_cmpdOk sm gr h2 h3 _ (Or.inl (by rw [hnext]; decide)) (fun _ => Or.inl (by rw [hnext]; rfl)) (by simp) (fun ht => hst ht _ (List.getElem_mem hlt)), ?_⟩
      exact common_stepsOk sm gr (fun ht => ⟨Or.inr hnext, fun s hs => hdesc ht s (List.mem_of_mem_drop hs)⟩)
        (fun s hs => hb s (List.mem_of_mem_drop hs)) (fun ht s hs => hst ht s (List.mem_of_mem_drop hs)) hcalm.2
  · next hl =>
    rw [if_neg hl] at hcalm
    exact common_stepsOk sm gr (fun ht => ⟨hp, hdesc ht⟩) hb hst hcalm

/-- C17 for common selectors: positions, ids (not right after `>`), `:not` and `:has` included. Whenever `find` answers, it returns exactly
the elements selected. `calm` excludes that descendants are looked for a second time after `~`, `+` or `>` from nested elements. -/
theorem C17_find_common (wf : TreeWF h r) (ev : Metas h r) (sm : Small h r) (gr : Grounded h r env rt) {cx : Complex} (hc : Common rt cx)
    (hcalm : calm .sorted cx = true) {S res : List Nat} (hS : Nodes h r S) (hs : DocSorted h r S) (hr : find h env S [cx] = .ok res) :
    ∀ e, e ∈ res ↔ Sel h r (· ∈ S) (steps h r env cx) e :=
  C17_find_exact_partial (ph := .sorted) wf ev (common_findOk sm gr hc (by simp) (Or.inr rfl) hcalm) hS hs hr

/-- C19 for common selectors whose positions stand beside a type, a class or an id: `find` answers. -/
theorem C19_find_common (wf : TreeWF h r) (ev : Metas h r) (sm : Small h r) (gr : Grounded h r env rt) {cx : Complex} (hc : Common rt cx)
    (hst : Steady cx) (hcalm : calm .sorted cx = true) {S : List Nat} (hS : Nodes h r S) (hs : DocSorted h r S) :
    ∃ res, find h env S [cx] = .ok res :=
  C19_find_answers_partial (ph := .sorted) wf ev (common_findOk sm gr hc (fun _ => hst) (Or.inr rfl) hcalm) hS hs

/-- C19 for common selectors on the whole document. -/
theorem C19_find_common_root (wf : TreeWF h r) (ev : Metas h r) (sm : Small h r) (gr : Grounded h r env rt) {cx : Complex}
    (hc : Common rt cx) (hst : Steady cx) (hcalm : calm .anti cx = true) :
    ∃ res, find h env [r] [cx] = .ok res ∧ (∀ e, e ∈ res ↔ Sel h r (· = r) (steps h r env cx) e) := by
  have hok := common_findOk (tot := true) sm gr hc (fun _ => hst) (ph := .anti) (Or.inl rfl) hcalm
  obtain ⟨h1, h2⟩ := find_all wf ev hok (nodes_root wf) (anti_single r)
  obtain ⟨res, hr⟩ := h2 rfl
  refine ⟨res, hr, fun e => ?_⟩
  rw [(h1 res hr).2.2 e]
  simp only [List.mem_singleton]

/-- C18 for common selectors with descendant combinators only: `find` answers with exactly the elements selected, in document order, each
once. -/
theorem C18_find_common (wf : TreeWF h r) (ev : Metas h r) (sm : Small h r) (gr : Grounded h r env rt) {cx : Complex} (hc : Common rt cx)
    (hst : Steady cx) (hd : ∀ s ∈ cx, s.1 = Comb.childrenAll) {S : List Nat} (hS : Nodes h r S) (hs : DocSorted h r S) :
    ∃ res, find h env S [cx] = .ok res ∧ DocSorted h r res ∧ res.Nodup ∧ ∀ e, e ∈ res ↔ Sel h r (· ∈ S) (steps h r env cx) e := by
  have hcalm := desc_calm_cx hd
  obtain ⟨res, hr⟩ := C19_find_common wf ev sm gr hc hst hcalm hS hs
  obtain ⟨h1, h2⟩ := C18_find_descendants wf ev (common_findOk sm gr hc (by simp) (Or.inr rfl) hcalm) hd hS hs hr
  exact ⟨res, hr, h1, h2, C17_find_common wf ev sm gr hc hcalm hS hs hr⟩

/-- C22 for common selectors: on every set in which siblings come in order, each once. -/
theorem C22_filter_common (wf : TreeWF h r) (ev : Metas h r) (sm : Small h r) (gr : Grounded h r env rt) {cx : Complex}
    (hc : CommonTest rt false cx) {X : List Nat} (hX : Elems h r X) (hq : SibAsc h X) :
    ∃ F, filterQ h env X [cx] = .ok F ∧ F.Sublist X ∧ ∀ x, x ∈ F ↔ x ∈ X ∧ Sel h r (· = r) (steps h r env cx) x := by
  refine ⟨_, C22_filter_exact_partial (q := .sib) wf ev (common_alts sm gr [cx] hc .sib (by simp) (by simp)) (Or.inl (by simp)) hX hq,
    List.filter_sublist, fun x => ?_⟩
  rw [List.mem_filter, decide_eq_true_eq, anySat, anySat, or_false]

/-- C23 for common selectors. -/
theorem C23_not_common (wf : TreeWF h r) (ev : Metas h r) (sm : Small h r) (gr : Grounded h r env rt) {cx : Complex}
    (hc : CommonTest rt false cx) {X : List Nat} (hX : Elems h r X) (hq : SibAsc h X) :
    ∃ F N, filterQ h env X [cx] = .ok F ∧ notQ h env X [cx] = .ok N ∧ F.Sublist X ∧ N.Sublist X ∧ ∀ x ∈ X, x ∈ N ↔ x ∉ F := by
  have hok : innersOk h r env true .sib [cx] := common_alts sm gr [cx] hc .sib (by simp) (by simp)
  have hu : UnionOn h r env .sib X [cx] := Or.inl (by simp)
  refine ⟨_, _, C22_filter_exact_partial wf ev hok hu hX hq, C23_not_exact_partial wf ev hok hu hX hq, List.filter_sublist,
    List.filter_sublist, fun x hx => ?_⟩
  simp [List.mem_filter, hx]

/-- C24 for lists of common selectors, on every set. -/
theorem C24_has_common (wf : TreeWF h r) (ev : Metas h r) (sm : Small h r) (gr : Grounded h r env rt) {sel : List Complex}
    (hc : altsCommon rt true sel = true) {X : List Nat} (hX : ∀ x ∈ X, Within h r x) :
    ∃ F, hasQ h env X sel = .ok F ∧ F.Sublist X ∧
      ∀ x, x ∈ F ↔ x ∈ X ∧ ∃ e, Below h x e ∧ h.isElem e = true ∧ anySat h r env sel e := by
  refine ⟨_, C24_has_exact_partial wf ev (common_alts sm gr sel hc .doc (by simp) fun _ => rfl) hX, List.filter_sublist, fun x => ?_⟩
  rw [List.mem_filter, decide_eq_true_eq]

/-- C22 for lists of common selectors that ask for different types: on every set in document order. -/
theorem C22_filter_list_common (wf : TreeWF h r) (ev : Metas h r) (sm : Small h r) (gr : Grounded h r env rt) {sel : List Complex}
    (hc : CommonList rt sel) {X : List Nat} (hX : Elems h r X) (hs : DocSorted h r X) :
    ∃ F, filterQ h env X sel = .ok F ∧ F.Sublist X ∧ ∀ x, x ∈ F ↔ x ∈ X ∧ ∃ cx ∈ sel, Sel h r (· = r) (steps h r env cx) x := by
  have hq : ListQ.lists h r .doc X := ⟨hs, docSorted_sibAsc wf (fun x hx => (hX x hx).1) hs⟩
  have hu : UnionOn h r env .doc X sel := by
    rcases hc.1 with h1 | h1
    · exact Or.inl h1
    · exact apart_unionOk (typesApart_apart h1) X hX
  refine ⟨_, C22_filter_exact_partial wf ev (common_alts sm gr sel hc.2 .doc (by simp) fun _ => rfl) hu hX hq, List.filter_sublist,
    fun x => ?_⟩
  rw [List.mem_filter, decide_eq_true_eq, anySat_iff]

/-- C23 for lists of common selectors that ask for different types: on every set in document order. -/
theorem C23_not_list_common (wf : TreeWF h r) (ev : Metas h r) (sm : Small h r) (gr : Grounded h r env rt) {sel : List Complex}
    (hc : CommonList rt sel) {X : List Nat} (hX : Elems h r X) (hs : DocSorted h r X) :
    ∃ N, notQ h env X sel = .ok N ∧ N.Sublist X ∧ ∀ x, x ∈ N ↔ x ∈ X ∧ ∀ cx ∈ sel, ¬ Sel h r (· = r) (steps h r env cx) x := by
  have hq : ListQ.lists h r .doc X := ⟨hs, docSorted_sibAsc wf (fun x hx => (hX x hx).1) hs⟩
  have hu : UnionOn h r env .doc X sel := by
    rcases hc.1 with h1 | h1
    · exact Or.inl h1
    · exact apart_unionOk (typesApart_apart h1) X hX
  refine ⟨_, C23_not_exact_partial wf ev (common_alts sm gr sel hc.2 .doc (by simp) fun _ => rfl) hu hX hq, List.filter_sublist,
    fun x => ?_⟩
  rw [List.mem_filter, decide_eq_true_eq, anySat_iff]
  simp

/-- C20 for lists of common selectors with descendant combinators only, none of which spills over the union of those before it: `find("a, b, …")`
answers with exactly the elements selected by one of them, in document order, each once. -/
theorem C20_find_spill_common (wf : TreeWF h r) (ev : Metas h r) (sm : Small h r) (gr : Grounded h r env rt) {sel : List Complex}
    (hc : ∀ cx ∈ sel, Common rt cx ∧ Steady cx ∧ ∀ s ∈ cx, s.1 = Comb.childrenAll) {S : List Nat}
    (hS : Nodes h r S) (hs : DocSorted h r S)
    (ha : NoSpill h r (fun _ => True) (fun _ => False) (sel.map fun c x => Sel h r (· ∈ S) (steps h r env c) x)) :
    ∃ res, find h env S sel = .ok res ∧ DocSorted h r res ∧ res.Nodup ∧
      ∀ e, e ∈ res ↔ ∃ cx ∈ sel, Sel h r (· ∈ S) (steps h r env cx) e := by
  have hok : ∀ (tot : Bool), ∀ cx ∈ sel, FindOk h r env tot .sorted cx ∧
      (resultPhase .sorted cx = .anti ∨ resultPhase .sorted cx = .sorted) := fun tot cx hcx =>
    ⟨common_findOk sm gr (hc cx hcx).1 (fun _ => (hc cx hcx).2.1) (Or.inr rfl) (desc_calm_cx (hc cx hcx).2.2),
      Or.inr (desc_resultPhase (hc cx hcx).2.2)⟩
  have hres : ∃ res, find h env S sel = .ok res := by
    by_cases hne : S = []
    · subst hne; exact ⟨_, find_nil sel⟩
    · obtain ⟨res, hr⟩ := (findProcs_union wf ev hne (hok true) hS hs (F := []) (by simp) .nil (by simpa using ha)).2 rfl
      refine ⟨res, ?_⟩
      unfold find findSelector
      rw [if_neg (by simpa using hne)]
      exact hr
  obtain ⟨res, hr⟩ := hres
  exact ⟨res, hr, C20_find_list_partial (ph := .sorted) wf ev (hok false) hS hs ha hr⟩

/-- C20 for lists of common selectors with descendant combinators only that ask for different types: `find("a, b, …")` answers with
exactly the elements selected by one of them, in document order, each once. -/
theorem C20_find_list_common (wf : TreeWF h r) (ev : Metas h r) (sm : Small h r) (gr : Grounded h r env rt) {sel : List Complex}
    (hc : ∀ cx ∈ sel, Common rt cx ∧ Steady cx ∧ ∀ s ∈ cx, s.1 = Comb.childrenAll) (ht : typesApart sel = true) {S : List Nat}
    (hS : Nodes h r S) (hs : DocSorted h r S) :
    ∃ res, find h env S sel = .ok res ∧ DocSorted h r res ∧ res.Nodup ∧
      ∀ e, e ∈ res ↔ ∃ cx ∈ sel, Sel h r (· ∈ S) (steps h r env cx) e := by
  have ha : NoSpill h r (fun _ => True) (fun _ => False) (sel.map fun c x => Sel h r (· ∈ S) (steps h r env c) x) := by
    refine apart_noSpill (fun _ _ h => h.elim) ?_
    unfold typesApart at ht
    rw [Bool.and_eq_true, decide_eq_true_eq] at ht
    obtain ⟨h1, h2⟩ := ht
    clear hc
    induction sel with
    | nil => exact .nil
    | cons c cs ih =>
      simp only [List.all_cons, Bool.and_eq_true] at h1
      obtain ⟨n, hn⟩ := Option.isSome_iff_exists.1 h1.1
      rw [List.filterMap_cons, hn] at h2
      simp only [List.pairwise_cons] at h2
      rw [List.map_cons, List.pairwise_cons]
      refine ⟨fun _ hd x _ hx hds => ?_, ih h1.2 h2.2⟩
      obtain ⟨d, hd', rfl⟩ := List.mem_map.1 hd
      obtain ⟨m, hm⟩ := Option.isSome_iff_exists.1 (List.all_eq_true.1 h1.2 d hd')
      exact h2.1 m (List.mem_filterMap.2 ⟨d, hd', hm⟩) ((lastType_named hn hx).2.symm.trans (lastType_named hm hds).2)
  exact C20_find_spill_common wf ev sm gr hc hS hs ha

/-- What is covered by the alternatives before it does not spill over: `find("*, p")` is `find("*")`, though they share elements. -/
theorem covered_noSpill {M U c : Nat → Prop} (hc : ∀ x, M x → c x → U x) : ¬ Spills h r M U c :=
  fun ⟨_, s, _, _, h3, _, h5, h6, h7⟩ => h3 s h5 (hc s h5 h6) h7

example : NoSpill demo 0 (fun _ => True) (fun _ => False) ([[(Comb.childrenAll, [Sim.all])], [(.childrenAll, [ty "p"])]].map
      fun c x => Sel demo 0 (· ∈ [0]) (steps demo 0 env0 c) x) ∧
    find demo env0 [0] [[(.childrenAll, [.all])], [(.childrenAll, [ty "p"])]] = .ok [1, 2, 5, 6, 7, 8, 9] := by
  refine ⟨⟨fun ⟨_, _, _, h2, _⟩ => h2, covered_noSpill fun x _ hx => Or.inr ?_, trivial⟩, by decide⟩
  dsimp only at hx ⊢
  rw [steps_eq] at hx ⊢
  simp only [Sel, List.map_cons, List.map_nil, List.foldl_cons, List.foldl_nil, Img, decide_eq_true_eq] at hx ⊢
  exact ⟨hx.1, by rw [cmpdSat, cmpdSat, Sim.Sat]; exact ⟨trivial, trivial⟩, hx.2.2⟩

/-- The aliases of the library are common. -/
theorem alias_common (rt : Bool) : Sim.common rt true (.alias headerSel) = true ∧ Sim.common rt true (.alias inputSel) = true ∧
    Sim.common rt true (.alias submitSel) = true := by cases rt <;> decide

/-- C51 for `find`: `find(":header")` from any set in document order answers with exactly the `h1` to `h6` below a member, in document
order, each once. -/
theorem C51_find_header (wf : TreeWF h r) (ev : Metas h r) (sm : Small h r) {S : List Nat} (hS : Nodes h r S) (hs : DocSorted h r S) :
    ∃ res, find h env S [[(.childrenAll, [.alias headerSel])]] = .ok res ∧ DocSorted h r res ∧ res.Nodup ∧
      ∀ e, e ∈ res ↔ (∃ n ∈ ["h1", "h2", "h3", "h4", "h5", "h6"], Named h n.toList e) ∧ ∃ y ∈ S, Below h y e := by
  have hc : Common false [(.childrenAll, [.alias headerSel])] := by
    refine ⟨by simp, ?_⟩
    simp only [List.mem_singleton, forall_eq, reduceCtorEq, false_imp_iff, and_true]
    exact ⟨rfl, by simp, (alias_common false).1⟩
  have hst : Steady [(.childrenAll, [.alias headerSel])] := by
    intro s hs'
    rw [List.mem_singleton] at hs'
    subst hs'
    right
    simp [Sim.shaky]
  obtain ⟨res, h1, h2, h3, h4⟩ := C18_find_common (rt := false) wf ev sm (by simp [Grounded]) hc hst (by simp) hS hs
  refine ⟨res, h1, h2, h3, fun e => ?_⟩
  rw [h4, steps, steps, step]
  unfold Sel
  simp only [List.foldl_cons, List.foldl_nil, Img, Rel, decide_eq_true_eq, cmpdSat, Sim.Sat, and_true]
  constructor
  · rintro ⟨he, hany, y, hy, hb⟩
    exact ⟨(tyAlt_sat wf ((hS y hy).1.trans (Below.within hb)) he).1 hany, y, hy, hb⟩
  · rintro ⟨⟨n, hn, hne⟩, y, hy, hb⟩
    exact ⟨hne.1, (tyAlt_sat wf ((hS y hy).1.trans (Below.within hb)) hne.1).2 ⟨n, hn, hne⟩, y, hy, hb⟩

/-- A page with headings of several levels; `:header` is found and filtered, alone and beside other rules. -/
def heads : Heap := heapOf [rootN [1], el "div" 0 0 [2, 3, 4], el "h2" 1 0, el "p" 1 1, el "H1" 1 2]

example : TreeWF heads 0 ∧ find heads env0 [0] [[(.childrenAll, [.alias headerSel])]] = .ok [2, 4] ∧
    find heads env0 [0] [[(.childrenAll, [ty "div"]), (.childrenAll, [.alias headerSel, .edge true false])]] = .ok [4] ∧
    find heads env0 [0] [[(.childrenAll, [ty "p"])], [(.childrenAll, [.alias headerSel, ty "h2"])]] = .ok [2, 3] ∧
    notQ heads env0 [1, 2, 3, 4] [[(.childrenAll, [ty "h1"])], [(.childrenAll, [ty "p"])]] = .ok [1, 2] :=
  ⟨wfCheck_sound (by decide), by decide, by decide, by decide, by decide⟩

/-- `div :header:last-child`, `div > :header` and `p:not(.x, b)` can be read off to be common; `div > p:header` is not. -/
example : Common false [(.childrenAll, [ty "div"]), (.childrenAll, [.alias headerSel, .edge true false])] ∧
    Common false [(.childrenAll, [ty "div"]), (.children, [.alias headerSel])] ∧
    CommonList false [[(.childrenAll, [ty "h1"])], [(.childrenAll, [ty "p", .not [[(.childrenAll, [ty "a"])], [(.childrenAll, [ty "b"])]]])]] ∧
    ¬ Common true [(.childrenAll, [ty "div"]), (.children, [ty "p", .alias headerSel])] := by
  refine ⟨⟨by simp, ?_⟩, ⟨by simp, ?_⟩, ⟨Or.inr (by decide), by decide⟩, fun hc => ?_⟩
  · intro s hs
    simp only [List.mem_cons, List.not_mem_nil, or_false] at hs
    rcases hs with rfl | rfl <;> exact ⟨rfl, by simp, by decide, by decide⟩
  · intro s hs
    simp only [List.mem_cons, List.not_mem_nil, or_false] at hs
    rcases hs with rfl | rfl <;> exact ⟨rfl, by simp, by decide, by decide⟩
  · have := (hc.2 (.children, [ty "p", .alias headerSel]) (by simp)).2.2.1 (.alias headerSel) (by simp)
    revert this
    decide

/-- `div p:nth-child(odd):not(.x)` and `#x ~ :has(b)` can be read off to be common; `2n+3` and `:header` are not. -/
example : Common false [(.childrenAll, [ty "div"]), (.childrenAll, [ty "p", .nth false false 2 1, .not [[(.childrenAll, [.cls "x".toList])]]])] ∧
    Steady [(.childrenAll, [ty "div"]), (.childrenAll, [ty "p", .nth false false 2 1, .not [[(.childrenAll, [.cls "x".toList])]]])] ∧
    Common true [(.childrenAll, [.id "x".toList]), (.nextAll, [.has [[(.childrenAll, [ty "b"])]]])] ∧
    calm .sorted [(.childrenAll, [.id "x".toList]), (.nextAll, [.has [[(.childrenAll, [ty "b"])]]])] = true ∧
    (Sim.nth false false 2 3).common true true = false := by
  refine ⟨⟨by decide, by decide⟩, ?_, ⟨by decide, by decide⟩, by decide, by decide⟩
  intro s hs
  simp only [List.mem_cons, List.not_mem_nil, or_false] at hs
  rcases hs with rfl | rfl
  · exact Or.inl ⟨ty "div", by simp, by decide⟩
  · exact Or.inl ⟨ty "p", by simp, by decide⟩

/-- The number of nodes bounds the numbers of children. -/
theorem small_of_size (wf : TreeWF h r) (hs : (h.size : Int) < 9223372036854775808) : Small h r := by
  intro p hp
  have hn : (h.children p).Nodup := (kids_nodup wf hp).sublist List.filter_sublist
  have hsub : h.children p ⊆ List.range h.size := fun x hx =>
    List.mem_range.2 (wf.bound x (hp.trans (.step .self (List.mem_filter.1 hx).1)))
  have := (hn.subperm hsub).length_le
  rw [List.length_range] at this
  omega

theorem demo_small : Small demo 0 := small_of_size demo_wf (by decide)

/-- `div p:nth-child(odd)` on the sample document: the hypotheses of C18 hold. -/
example : Small demo 0 ∧ Grounded demo 0 env0 false ∧
    find demo env0 [0] [[(.childrenAll, [ty "div"]), (.childrenAll, [ty "p", .nth false false 2 1])]] = .ok [2, 6] ∧
    filterQ demo env0 [2, 6, 7] [[(.childrenAll, [.nth false false 2 1, .not [[(.childrenAll, [.cls "x".toList])]]])]] = .ok [2, 6] ∧
    CommonTest false false [(.childrenAll, [.nth false false 2 1, .not [[(.childrenAll, [.cls "x".toList])]]])] :=
  ⟨demo_small, by simp [Grounded], by decide, by decide, by unfold CommonTest; decide⟩

/-- C54 for common selectors: after any history of usable calls, `find` with positions, `:not` and `:has` of single compounds answers with
exactly the elements that match now, in document order. The root links do not matter. -/
theorem C54_find_common_after {e : Ext} (P : ParseOk e) (T : ParseTables e) {h : Heap} {D : Nat → Prop} (ok : HeapOk h D) (t : Tables h)
    {ops : List Op} (hh : History e h D ops) {r : Nat} (hk : (h.node r).kind = .root) (hb : r < h.size)
    (hu : ¬ UsedAll e h D ops r) {cx : Complex} (hc : Common false cx) (hst : Steady cx) (hd : ∀ s ∈ cx, s.1 = Comb.childrenAll) :
    ∃ h', runAll e h ops = .ok h' ∧ ((h'.size : Int) < 9223372036854775808 → ∀ (env : Env) (S : List Nat), Nodes h' r S →
      DocSorted h' r S → ∃ res, find h' env S [cx] = .ok res ∧ DocSorted h' r res ∧ res.Nodup ∧
        ∀ x, x ∈ res ↔ Sel h' r (· ∈ S) (steps h' r env cx) x) := by
  obtain ⟨h', hr, wf, ev⟩ := history_ready P T ok t hh hk hb hu
  exact ⟨h', hr, fun hs env S hS hso => C18_find_common wf ev (small_of_size wf hs) (by simp [Grounded]) hc hst hd hS hso⟩

/-- `b:last-child` after the fragment has been appended. -/
example : find twoAfter env0 [0] [[(.childrenAll, [ty "b", .edge true false])]] = .ok [4] ∧
    (twoAfter.size : Int) < 9223372036854775808 := ⟨by decide, by decide⟩

end Visdom
