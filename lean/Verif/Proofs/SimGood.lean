import Verif.Proofs.Sims
/-!
# Every rule decides its meaning: all rules
-/
namespace Visdom
open Spec Classical
variable {h : Heap} {r : Nat} {env : Env} {tot : Bool} {q : ListQ} {v : Via}

theorem listsOk_of {c : Comb} (hq : Comb.via c ≠ .list ∨ q ≠ .any) : ListsOk h (q.lists h r) c := by
  unfold ListsOk
  by_cases h1 : c = .children
  · exact Or.inl h1
  by_cases h2 : c = .childrenAll
  · exact Or.inr (Or.inl h2)
  · right; right
    have hv : Comb.via c = .list := by cases c <;> first | rfl | simp at h1 h2
    intro l hl
    cases q with
    | any => rcases hq with hq | hq <;> simp_all
    | sib => exact Spec.SibAsc.runAsc hl
    | doc => exact Spec.SibAsc.runAsc hl.2

theorem via_list {c : Comb} (h1 : c ≠ .childrenAll) (h2 : c ≠ .children) : Comb.via c = .list := by
  cases c <;> first | rfl | simp at h1 h2

theorem via_child {c : Comb} {b : Bool} (hc : (c = .childrenAll ∧ b = false) ∨ c = .children) : Comb.via c ≠ .list := by
  rcases hc with ⟨rfl, _⟩ | rfl <;> simp [Comb.via]

theorem OneOk.simGood {s : Sim} (ho : OneOk h r (simMatcher h env s) (s.Sat h r env)) : SimGood h r env tot q v s :=
  fun _ _ => ⟨ho.decides, fun _ => ho.answers⟩

/-- A rule that filters lists. -/
theorem list_good {m : Matcher} {f : List Nat → Option Bool → R (List Nat)} {P : Nat → Bool} {c : Comb}
    (hone : m.one = none) (hall : m.all = some f) (hspec : m.spec = none) (hcache : m.inCache = false)
    (hf : ∀ l b, Elems h r l → (if Comb.via c = .list then q else .doc).lists h r l →
      (∀ res, f l b = .ok res → res = l.filter P) ∧ (tot = true → ∃ res, f l b = .ok res)) (wf : TreeWF h r) :
    Decides h r (q.lists h r) m c P ∧ (tot = true → Answers h r (q.lists h r) m c) := by
  constructor
  · refine ⟨?_, ?_, ?_, ?_, ?_⟩
    · intro g hg; rw [hone] at hg; cases hg
    · intro h1 h2 f' hf' l res hl hq hr
      rw [hall] at hf'; obtain rfl := Option.some.inj hf'
      exact (hf l none hl (by rw [if_pos (via_list h1 h2)]; exact hq)).1 res hr
    · intro hc _ _ f' hf' x res hx hr
      rw [hall] at hf'; obtain rfl := Option.some.inj hf'
      exact (hf _ _ (children_elems hx) (by rw [if_neg (via_child hc)]; exact children_doc wf hx)).1 res hr
    · intro _ s hs; rw [hspec] at hs; cases hs
    · intro _ hc; rw [hcache] at hc; cases hc
  · intro ht
    refine ⟨?_, ?_, ?_, ?_, ?_, ?_⟩
    · right; rw [hall]; rfl
    · intro g hg; rw [hone] at hg; cases hg
    · intro h1 h2 f' hf' l hl hq
      rw [hall] at hf'; obtain rfl := Option.some.inj hf'
      exact (hf l none hl (by rw [if_pos (via_list h1 h2)]; exact hq)).2 ht
    · intro hc _ _ f' hf' x hx _
      rw [hall] at hf'; obtain rfl := Option.some.inj hf'
      exact (hf _ _ (children_elems hx) (by rw [if_neg (via_child hc)]; exact children_doc wf hx)).2 ht
    · intro _ _ s hs; rw [hspec] at hs; cases hs
    · intro _ hc; rw [hcache] at hc; cases hc

variable (wf : TreeWF h r) (ev : Metas h r)
include wf

theorem all_good : SimGood h r env tot q v .all := by
  intro c _
  rw [simMatcher]
  refine list_good (f := fun l _ => .ok l) rfl rfl rfl rfl ?_ wf
  intro l b _ _
  refine ⟨fun res hr => ?_, fun _ => ⟨_, rfl⟩⟩
  rw [← Except.ok.inj hr]
  symm
  rw [List.filter_eq_self]
  intro x _
  rw [decide_eq_true_eq, Sim.Sat]
  trivial

omit wf in
theorem id_good {i : List Char} (roots : Roots h r) (ids : IdOk h r env i) (hok : v = .desc ∨ (v = .list ∧ q ≠ .any)) : SimGood h r env tot q v (.id i) := by
  intro c hc
  rw [simMatcher]
  have hroot : ∀ x, Within h r x → ((h.node x).root.bind fun r => env.byId r i) = env.byId r i := by
    intro x hx; rw [roots x hx]; rfl
  constructor
  · refine ⟨?_, ?_, ?_, ?_, ?_⟩
    · intro g hg; cases hg
    · intro h1 h2 f hf l res hl hq hr
      obtain rfl := Option.some.inj hf
      have hnd : l.Nodup := by
        rw [via_list h1 h2] at hc
        subst hc
        have hne : q ≠ .any := by rcases hok with h' | h'; cases h'; exact h'.2
        cases q with
        | any => exact absurd rfl hne
        | sib => exact Spec.SibAsc.nodup hq
        | doc => exact Spec.SibAsc.nodup hq.2
      have hr := (Except.ok.inj hr).symm
      cases l with
      | nil => rw [hr]; rfl
      | cons x l =>
        simp only [hroot x (hl x List.mem_cons_self).1] at hr
        rw [hr]
        cases hb : env.byId r i with
        | none =>
          symm
          rw [List.filter_eq_nil_iff]
          intro y _ hy
          rw [decide_eq_true_eq, Sim.Sat, hb] at hy
          cases hy
        | some e =>
          have hsat : ∀ y, decide ((Sim.id i).Sat h r env y) = decide (y = e) := by
            intro y
            rw [Bool.eq_iff_iff, decide_eq_true_eq, decide_eq_true_eq, Sim.Sat, hb]
            exact ⟨fun h' => (Option.some.inj h').symm, fun h' => by rw [h']⟩
          simp only [hsat, Option.isSome_none, Bool.false_eq_true, if_false]
          split
          · next hm =>
            have h1 : ∀ (l : List Nat), l.Nodup → e ∈ l → (l.filter fun y => decide (y = e)) = [e] := by
              intro l hn he
              induction l with
              | nil => cases he
              | cons a l ih =>
                rw [List.nodup_cons] at hn
                rcases List.mem_cons.1 he with rfl | he
                · rw [List.filter_cons_of_pos (by simp)]
                  congr 1
                  rw [List.filter_eq_nil_iff]
                  intro y hy hye
                  rw [decide_eq_true_eq] at hye
                  subst hye
                  exact hn.1 hy
                · rw [List.filter_cons_of_neg]
                  · exact ih hn.2 he
                  · intro hae
                    rw [decide_eq_true_eq] at hae
                    subst hae
                    exact hn.1 he
            have := h1 _ hnd hm
            rw [← this]
          · next hm =>
            symm
            rw [List.filter_eq_nil_iff]
            intro y hy hye
            rw [decide_eq_true_eq] at hye
            subst hye
            exact hm hy
    · rintro (⟨rfl, h2⟩ | rfl)
      · cases h2
      · rcases hok with h' | h' <;> simp [Comb.via] at hc <;> simp_all
    · intro _ s hs; cases hs
    · intro _ _ l res hne hl hr e
      cases l with
      | nil => exact absurd rfl hne
      | cons x l =>
        have hr : (match (h.node x).root.bind fun r => env.byId r i with
          | none => []
          | some e => if (some true).isSome then [e] else if e ∈ (x :: l) then [e] else []) = res := Except.ok.inj hr
        rw [hroot x (hl x List.mem_cons_self)] at hr
        rw [← hr, decide_eq_true_eq, Sim.Sat]
        cases hb : env.byId r i with
        | none => simp
        | some e' =>
          simp only [Option.isSome_some, if_true, List.mem_singleton, Option.some.injEq]
          constructor
          · rintro rfl; exact ⟨(ids e hb).1, (ids e hb).2, rfl⟩
          · exact fun h' => h'.2.2.symm
  · intro _
    refine ⟨Or.inr rfl, ?_, ?_, ?_, ?_, ?_⟩
    · intro g hg; cases hg
    · intro _ _ f hf l _ _; obtain rfl := Option.some.inj hf; exact ⟨_, rfl⟩
    · intro _ _ _ f hf x _ _; obtain rfl := Option.some.inj hf; exact ⟨_, rfl⟩
    · intro _ _ s hs; cases hs
    · intro _ _ l _ _; exact ⟨_, rfl⟩

theorem not_good {sel : List Complex} (hu : UnionOk h r env (if v = .list then q else .doc) sel)
    (hg : SelGood h r env tot (if v = .list then q else .doc) sel) : SimGood h r env tot q v (.not sel) := by
  intro c hc
  rw [simMatcher]
  refine list_good (f := fun l _ => notSel h l (innerSel h env sel)) rfl rfl rfl rfl ?_ wf
  intro l b hl hql
  rw [hc] at hql
  have := notSel_good wf hg (hu l hl) hl hql
  have hsat : (fun x => decide ((Sim.not sel).Sat h r env x)) = fun x => decide (¬ anySat h r env sel x) := by
    funext x; rw [Bool.eq_iff_iff, decide_eq_true_eq, decide_eq_true_eq, Sim.Sat]
  rw [hsat]
  exact this

theorem alias_good {sel : List Complex} (hu : UnionOk h r env (if v = .list then q else .doc) sel)
    (hg : SelGood h r env tot (if v = .list then q else .doc) sel) : SimGood h r env tot q v (.alias sel) := by
  intro c hc
  rw [simMatcher]
  refine list_good (f := fun l _ => filterSel h l (innerSel h env sel)) rfl rfl rfl rfl ?_ wf
  intro l b hl hql
  rw [hc] at hql
  have := filterSel_good wf hg (hu l hl) hl hql
  have hsat : (fun x => decide ((Sim.alias sel).Sat h r env x)) = fun x => decide (anySat h r env sel x) := by
    funext x; rw [Bool.eq_iff_iff, decide_eq_true_eq, decide_eq_true_eq, Sim.Sat]
  rw [hsat]
  exact this

theorem has_good {sel : List Complex} (hg : SelGood h r env tot .doc sel) : SimGood h r env tot q v (.has sel) := by
  intro c hc
  rw [simMatcher]
  refine list_good (f := fun l _ => hasSel h l (innerSel h env sel)) rfl rfl rfl rfl ?_ wf
  intro l b hl hql
  have := hasSel_good wf hg (fun x hx => (hl x hx).1)
  have hsat : (fun x => decide ((Sim.has sel).Sat h r env x)) =
      fun x => decide (∃ e, Below h x e ∧ h.isElem e = true ∧ anySat h r env sel e) := by
    funext x; rw [Bool.eq_iff_iff, decide_eq_true_eq, decide_eq_true_eq, Sim.Sat]
  rw [hsat]
  exact this

omit wf in
theorem via_ne {c : Comb} (hv : Comb.via c = .list) : c ≠ .childrenAll ∧ c ≠ .children := by
  constructor <;> rintro rfl <;> cases hv

theorem nth_good' {last ofType : Bool} {a b : Int} (hn : NthOk h r ofType a b) (hq : v ≠ .list ∨ q ≠ .any)
    (hz : tot = true → v = .child → ¬ BadNth a b 0) : SimGood h r env tot q v (.nth last ofType a b) := by
  rintro c rfl
  have hm : simMatcher h env (.nth last ofType a b) = nthMatcher h ofType (!last) (some a) (some b) := by
    cases ofType <;> (rw [simMatcher]; rfl)
  rw [hm]
  refine ⟨nth_decides wf hn (listsOk_of hq) ?_, fun ht => nth_answers wf hn (listsOk_of hq) ?_⟩
  · intro x _ _
    rw [decide_eq_true_eq, Sim.Sat]
  · rintro rfl; exact hz ht rfl

theorem nth_good_step {last ofType : Bool} {a b : Int} (hn : NthWords h r b) (hv : v ≠ .list) (ht : tot = false) :
    SimGood h r env tot q v (.nth last ofType a b) := by
  rintro c rfl
  have hm : simMatcher h env (.nth last ofType a b) = nthMatcher h ofType (!last) (some a) (some b) := by
    cases ofType <;> (rw [simMatcher]; rfl)
  rw [hm]
  refine ⟨nth_decides_step wf hn ?_ ?_, fun h1 => by rw [ht] at h1; cases h1⟩
  · cases c <;> first | exact Or.inl rfl | exact Or.inr rfl | exact absurd rfl hv
  · intro x _ _
    rw [decide_eq_true_eq, Sim.Sat]

theorem nthIdx_good {last ofType : Bool} {b : Int} (hq : v ≠ .list ∨ q ≠ .any)
    (hz : tot = true → last = true → v = .list) : SimGood h r env tot q v (.nthIdx last ofType b) := by
  rintro c rfl
  have hm : simMatcher h env (.nthIdx last ofType b) = nthMatcher h ofType (!last) none (some b) := by
    cases ofType <;> (rw [simMatcher]; rfl)
  rw [hm]
  refine ⟨nthIdx_decides wf (listsOk_of hq) ?_, fun ht => nthIdx_answers wf (listsOk_of hq) ?_⟩
  · intro x _ _
    rw [decide_eq_true_eq, Sim.Sat]
  · cases last with
    | false => exact Or.inl rfl
    | true => exact Or.inr (via_ne (hz ht rfl))

theorem edge_good {last ofType : Bool} (hq : v ≠ .list ∨ q ≠ .any)
    (hz : tot = true → last = true → v = .list) : SimGood h r env tot q v (.edge last ofType) := by
  rintro c rfl
  have hm : simMatcher h env (.edge last ofType) = edgeMatcher h ofType (!last) := by
    cases ofType <;> (rw [simMatcher]; rfl)
  rw [hm]
  refine ⟨edge_decides wf (listsOk_of hq) ?_, fun ht => edge_answers wf (listsOk_of hq) ?_⟩
  · intro x _ _
    rw [decide_eq_true_eq, Sim.Sat]
    simp
  · cases last with
    | false => exact Or.inl rfl
    | true => exact Or.inr (via_ne (hz ht rfl))

theorem only_good {ofType : Bool} (hq : v ≠ .list ∨ q ≠ .any) : SimGood h r env tot q v (.only ofType) := by
  rintro c rfl
  have hm : simMatcher h env (.only ofType) = onlyMatcher h ofType := by
    cases ofType <;> (rw [simMatcher]; rfl)
  rw [hm]
  refine ⟨only_decides wf (listsOk_of hq) ?_, fun ht => only_answers wf (listsOk_of hq)⟩
  intro x _ _
  rw [decide_eq_true_eq, Sim.Sat]

include ev

mutual
theorem sim_good (s : Sim) (q : ListQ) (v : Via) (hok : s.Ok h r env tot q v) : SimGood h r env tot q v s := by
  match s, hok with
  | .all, _ => exact all_good wf
  | .name n, _ =>
    refine OneOk.simGood ?_
    have : (Sim.name n).Sat h r env = Named h n := by funext x; rw [Sim.Sat]
    rw [simMatcher, this]
    exact name_ok n
  | .cls n, _ =>
    refine OneOk.simGood ?_
    have : (Sim.cls n).Sat h r env = fun x => ∃ l, ClassList (viewOf (h.node x).attrs) l ∧ n ∈ l := by funext x; rw [Sim.Sat]
    rw [simMatcher, this]
    exact cls_ok ev n
  | .id i, hok => rw [Sim.Ok] at hok; exact id_good hok.1 hok.2.1 hok.2.2
  | .attr key, _ =>
    refine OneOk.simGood ?_
    have : (Sim.attr key).Sat h r env = HasAttr h key := by funext x; rw [Sim.Sat]
    rw [simMatcher, this]
    exact attr_ok ev key
  | .attrTest key t w, hok =>
    rw [Sim.Ok] at hok
    refine OneOk.simGood ?_
    have : (Sim.attrTest key t w).Sat h r env = fun x => t.Holds w (viewOf (h.node x).attrs key) := by funext x; rw [Sim.Sat]
    rw [simMatcher, this]
    exact attrTest_ok ev key t hok
  | .nth last ofType a b, hok =>
    rw [Sim.Ok] at hok
    rcases hok.1 with h1 | ⟨h1, h2, h3⟩
    · exact nth_good' wf h1 hok.2.1 hok.2.2
    · exact nth_good_step wf h3 h2 h1
  | .nthIdx last ofType b, hok => rw [Sim.Ok] at hok; exact nthIdx_good wf hok.1 hok.2
  | .edge last ofType, hok => rw [Sim.Ok] at hok; exact edge_good wf hok.1 hok.2
  | .only ofType, hok => rw [Sim.Ok] at hok; exact only_good wf hok
  | .root, _ =>
    refine OneOk.simGood ?_
    have : Sim.root.Sat h r env = fun x => Named h "html".toList x ∧ x ∈ h.kids r ∧ env.isDoc r = true := by
      funext x; rw [Sim.Sat]
    rw [simMatcher, this]
    exact root_ok wf env.isDoc
  | .empty, _ =>
    refine OneOk.simGood ?_
    have : Sim.empty.Sat h r env = fun x => ∀ c ∈ h.kids x, (h.node c).kind = .comment := by funext x; rw [Sim.Sat]
    rw [simMatcher, this]
    exact empty_ok
  | .contains t, _ =>
    refine OneOk.simGood ?_
    have : (Sim.contains t).Sat h r env = fun x => ∃ u v, env.text x = u ++ t ++ v := by funext x; rw [Sim.Sat]
    rw [simMatcher, this]
    exact contains_ok ev t
  | .checked, _ =>
    refine OneOk.simGood ?_
    have : Sim.checked.Sat h r env = Checked h r := by funext x; rw [Sim.Sat]
    rw [simMatcher, this]
    exact checked_ok ev wf
  | .not sel, hok => rw [Sim.Ok] at hok; exact not_good wf hok.1 (inners_good sel _ hok.2)
  | .has sel, hok => rw [Sim.Ok] at hok; exact has_good wf (inners_good sel _ hok)
  | .alias sel, hok => rw [Sim.Ok] at hok; exact alias_good wf hok.1 (inners_good sel _ hok.2)
termination_by structural s

theorem inners_good (sel : List (List (Comb × List Sim))) (q : ListQ) (hok : innersOk h r env tot q sel) :
    SelGood h r env tot q sel := by
  match sel, hok with
  | [], _ => intro cx hcx; cases hcx
  | c :: cs, hok =>
    rw [innersOk] at hok
    have h1 := proc_good wf hok.1.1 hok.1.2.1 hok.1.2.2.1 hok.1.2.2.2 (inner_good c q hok.2.1)
    have h2 := inners_good cs q hok.2.2
    intro cx hcx
    rcases List.mem_cons.1 hcx with rfl | hcx
    · exact h1
    · exact h2 cx hcx
termination_by structural sel

theorem inner_good (cx : List (Comb × List Sim)) (q : ListQ) (hok : innerOk h r env tot q cx) : CxGood h r env tot q cx := by
  match cx, hok with
  | [], _ => exact trivial
  | s :: l, hok =>
    rw [innerOk] at hok
    exact ⟨step_good s _ hok.1, inner_good l q hok.2⟩
termination_by structural cx

theorem step_good (s : Comb × List Sim) (q : ListQ) (hok : stepOk h r env tot q s) :
    ∀ t ∈ s.2, SimGood h r env tot q .list t := by
  match s, hok with
  | (_, ss), hok => rw [stepOk] at hok; exact sims_good ss q hok
termination_by structural s

theorem sims_good (ss : List Sim) (q : ListQ) (hok : simsOk h r env tot q ss) :
    ∀ t ∈ ss, SimGood h r env tot q .list t := by
  match ss, hok with
  | [], _ => intro t ht; cases ht
  | s :: ss, hok =>
    rw [simsOk] at hok
    have h1 := sim_good s q .list hok.1
    have h2 := sims_good ss q hok.2
    intro t ht
    rcases List.mem_cons.1 ht with rfl | ht
    · exact h1
    · exact h2 t ht
termination_by structural ss
end

end Visdom
