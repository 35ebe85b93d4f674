import Verif.Props.AnyOrder
/-!
# C19: exactly when `:last-child` and its relatives panic

`:last-child`, `:last-of-type`, `:nth-last-child(k)` and `:nth-last-of-type(k)`, used alone, subtract one from the number of child nodes of the
element they start from.
-/
namespace Visdom
open Spec Classical

variable {h : Heap} {r : Nat} {env : Env}

/-- The rules that count from the end: the last one, or the `b`-th last one. -/
def FromEnd : Sim → Prop
  | .edge true _ => True
  | .nthIdx true _ b => 0 < b
  | _ => False

/-- What such a rule does to one element. -/
theorem fromEnd_spec {s : Sim} (hs : FromEnd s) : ∃ sp, (simMatcher h env s).one = none ∧ (simMatcher h env s).spec = some sp ∧
    (simMatcher h env s).inCache = false ∧ (∀ x, h.kids x = [] → sp x = .error .overflow) ∧
    ∀ x, h.kids x ≠ [] → ∃ l, sp x = .ok l ∧ ∀ e ∈ l, e.1 ∈ h.children x := by
  have h1 : ∀ (b : Int), 0 < b → (∀ x, h.kids x = [] → nthChildSpec h false b x = .error .overflow) ∧
      ∀ x, h.kids x ≠ [] → ∃ l, nthChildSpec h false b x = .ok l ∧ ∀ e ∈ l, e.1 ∈ h.children x := by
    intro b hb
    refine ⟨fun x hx => ?_, fun x hx => ?_⟩
    · simp [nthChildSpec, hb, specPass, Heap.childLen, hx]
    · refine ⟨_, by simp only [nthChildSpec, if_pos hb, specPass, Bool.false_eq_true, if_false, Heap.childLen, List.length_eq_zero_iff, hx]; rfl, ?_⟩
      intro e he
      obtain ⟨f, hf, rfl⟩ := List.mem_map.1 he
      exact (List.of_mem_zip hf).1
  have h2 : ∀ (b : Int), 0 < b → (∀ x, h.kids x = [] → nthOfTypeSpec h false b x = .error .overflow) ∧
      ∀ x, h.kids x ≠ [] → ∃ l, nthOfTypeSpec h false b x = .ok l ∧ ∀ e ∈ l, e.1 ∈ h.children x := by
    intro b hb
    refine ⟨fun x hx => ?_, fun x hx => ?_⟩
    · simp [nthOfTypeSpec, hb, Heap.childLen, hx]
    · have hm : ∀ (names : Names) (l : List Nat), ∃ bs, nameMarks h [(b - 1).toNat] names l = .ok bs := by
        intro names l
        induction l generalizing names with
        | nil => exact ⟨[], rfl⟩
        | cons a l ih =>
          simp only [nameMarks, nameStep]
          split
          · next he => split at he <;> cases he
          · next he =>
            obtain ⟨bs, hbs⟩ := ih _
            rw [hbs]
            exact ⟨_, rfl⟩
      obtain ⟨bs, hbs⟩ := hm [] (h.children x).reverse
      refine ⟨_, by simp only [nthOfTypeSpec, if_pos hb, hbs, specPass, Bool.false_eq_true, if_false, Heap.childLen, List.length_eq_zero_iff, hx]; rfl, ?_⟩
      intro e he
      obtain ⟨f, hf, rfl⟩ := List.mem_map.1 he
      exact (List.of_mem_zip hf).1
  cases s
  case edge last o =>
    cases last
    · cases hs
    · cases o
      · exact ⟨nthChildSpec h false 1, by unfold simMatcher; rfl, by unfold simMatcher; rfl, by unfold simMatcher; rfl, h1 1 (by decide)⟩
      · exact ⟨nthOfTypeSpec h false 1, by unfold simMatcher; rfl, by unfold simMatcher; rfl, by unfold simMatcher; rfl, h2 1 (by decide)⟩
  case nthIdx last o b =>
    cases last
    · cases hs
    · cases o
      · exact ⟨nthChildSpec h false b, by unfold simMatcher; rfl, by unfold simMatcher; rfl, by unfold simMatcher; rfl, h1 b hs⟩
      · exact ⟨nthOfTypeSpec h false b, by unfold simMatcher; rfl, by unfold simMatcher; rfl, by unfold simMatcher; rfl, h2 b hs⟩
  all_goals cases hs

section
variable (wf : TreeWF h r) (ev : Metas h r)
include wf ev

/-- C19 for `> :last-child` and the like, exactly: a panic exactly when some member has no child nodes; otherwise exactly the elements meant. -/
theorem C19_last_children_exact {s : Sim} (hs : FromEnd s) {S : List Nat} (hS : Nodes h r S) :
    (find h env S [[(.children, [s])]] = .error .overflow ↔ ∃ x ∈ S, h.kids x = []) ∧
    ((∀ x ∈ S, h.kids x ≠ []) → ∃ res, find h env S [[(.children, [s])]] = .ok res ∧
      ∀ e, e ∈ res ↔ h.isElem e = true ∧ s.Sat h r env e ∧ ∃ y ∈ S, e ∈ h.kids y) := by
  by_cases hne : S = []
  · subst hne
    simp [find_nil]
  obtain ⟨sp, h1, h2, h3, h4, h5⟩ := fromEnd_spec (h := h) (env := env) hs
  have hok : CmpdOk h r env false .any .child [s] := by
    refine ⟨by simp, fun t ht => ?_⟩
    obtain rfl := List.mem_singleton.1 ht
    refine ⟨fun _ => ?_, Or.inl rfl⟩
    cases t
    case edge last o => unfold Sim.Ok; exact ⟨Or.inl (by simp), by simp⟩
    case nthIdx last o b => unfold Sim.Ok; exact ⟨Or.inl (by simp), by simp⟩
    all_goals cases hs
  obtain ⟨hhead, hD, _⟩ := cmpdOk_good (c := .children) (c0 := .children) wf ev (by simp) hok
  have hf := find_one_step (h := h) (env := env) hne .children [s]
  have hsel : select h S (optimizeCmpd (simSegs h env .children [s])) none =
      flatMapR (fun x => (sp x).map fun l => (l.filter (·.2.1)).map (·.1)) S := by
    have : optimizeCmpd (simSegs h env .children [s]) = [(simMatcher h env s, .children)] := by
      rw [simSegs, simSegs]; rfl
    rw [this]
    simp only [select, selectFirst, h3, Bool.false_and, Bool.false_eq_true, if_false, selectByRule, Option.getD, h1, h2]
    cases flatMapR (fun x => (sp x).map fun l => (l.filter (·.2.1)).map (·.1)) S <;> rfl
  have hdec : ∀ x, (h.kids x = [] ∧ (sp x).map (fun l => (l.filter (·.2.1)).map (·.1)) = .error .overflow) ∨
      (h.kids x ≠ [] ∧ ∃ y, (sp x).map (fun l => (l.filter (·.2.1)).map (·.1)) = .ok y) := by
    intro x
    by_cases hx : h.kids x = []
    · left; rw [h4 x hx]; exact ⟨hx, rfl⟩
    · right
      obtain ⟨l, hl, _⟩ := h5 x hx
      rw [hl]; exact ⟨hx, _, rfl⟩
  constructor
  · rw [hf, hsel, flatMapR_fails fun x _ => (hdec x).imp (·.2) (·.2)]
    refine exists_congr fun x => and_congr_right fun _ => ?_
    rcases hdec x with ⟨k1, k2⟩ | ⟨k1, y, k2⟩
    · simp [k1, k2]
    · simp [k1, k2]
  · intro hk
    obtain ⟨res, hr⟩ : ∃ res, find h env S [[(.children, [s])]] = .ok res := by
      rw [hf, hsel]
      exact flatMapR_total fun x hx => ((hdec x).resolve_left fun k => hk x hx k.1).2
    refine ⟨res, hr, fun e => ?_⟩
    rw [hf] at hr
    have := (select_decides (fun _ _ _ => True.intro) (fun _ _ _ => True.intro) wf hD (oc := none) (Or.inr ⟨rfl, hhead⟩) hS hne
      True.intro (by simp) (by simp) (fun _ _ => True.intro) hr).2 e
    rw [this]
    simp only [decide_eq_true_eq, Rel, cmpdSat, and_true]

/-- C19 for `:last-child` and the like among the descendants, exactly: a panic exactly when the set stumbles or some member that stands out
has no child nodes; otherwise exactly the elements meant. -/
theorem C19_last_descendants_exact {s : Sim} (hs : FromEnd s) {S : List Nat} (hS : Nodes h r S) :
    (find h env S [[(.childrenAll, [s])]] = .error .unreachableCode ↔ Stumbles h S) ∧
    (find h env S [[(.childrenAll, [s])]] = .error .overflow ↔
      ¬ Stumbles h S ∧ ∃ A x B, S = A ++ x :: B ∧ StandsOut h A x ∧ h.kids x = []) ∧
    (¬ Stumbles h S → (∀ A x B, S = A ++ x :: B → StandsOut h A x → h.kids x ≠ []) →
      ∃ res, find h env S [[(.childrenAll, [s])]] = .ok res ∧
        ∀ e, e ∈ res ↔ h.isElem e = true ∧ s.Sat h r env e ∧ ∃ y ∈ S, Below h y e) := by
  have hw := hS.within
  by_cases hne : S = []
  · subst hne
    have : ¬ Stumbles h [] := by rintro ⟨A, t, B, x, C, he, _⟩; simp at he
    simp [find_nil, this]
  obtain ⟨sp, h1, h2, h3, h4, h5⟩ := fromEnd_spec (h := h) (env := env) hs
  have hok : CmpdOk h r env false .any .desc [s] := by
    refine ⟨by simp, fun t ht => ?_⟩
    obtain rfl := List.mem_singleton.1 ht
    refine ⟨fun _ => ?_, Or.inl rfl⟩
    cases t
    case edge last o => unfold Sim.Ok; exact ⟨Or.inl (by simp), by simp⟩
    case nthIdx last o b => unfold Sim.Ok; exact ⟨Or.inl (by simp), by simp⟩
    all_goals cases hs
  obtain ⟨hhead, hD, _⟩ := cmpdOk_good (c := .childrenAll) (c0 := .childrenAll) wf ev (by simp) hok
  have hf := find_one_step (h := h) (env := env) hne .childrenAll [s]
  have hsel : select h S (optimizeCmpd (simSegs h env .childrenAll [s])) none = overTops h (dfsSpec h sp h.fuel) S := by
    have : optimizeCmpd (simSegs h env .childrenAll [s]) = [(simMatcher h env s, .childrenAll)] := by
      rw [simSegs, simSegs]; rfl
    rw [this]
    simp only [select, selectFirst, h3, Bool.false_and, Bool.false_eq_true, if_false, selectByRule, Option.getD, h1, h2]
    cases overTops h (dfsSpec h sp h.fuel) S <;> rfl
  -- below an element with child nodes there is no panic
  have hdfs : ∀ (n x : Nat) (π : List Nat), At h r π x → h.size < π.length + n → h.kids x ≠ [] → ∃ res, dfsSpec h sp n x = .ok res := by
    intro n
    induction n with
    | zero => intro x π hx hn _; have := path_length wf hx; omega
    | succ n ih =>
      intro x π hx hn hk
      obtain ⟨l, hl, hlm⟩ := h5 x hk
      simp only [dfsSpec, hl]
      refine flatMapR_total fun c hc => ?_
      obtain ⟨i, hi⟩ := List.getElem?_of_mem (mem_children.1 (hlm c hc)).1
      by_cases hck : (c.2.2 && decide (0 < h.childLen c.1)) = true
      · rw [if_pos hck]
        have hpos : 0 < h.childLen c.1 := of_decide_eq_true (Bool.and_eq_true_iff.1 hck).2
        obtain ⟨y, hy⟩ := ih c.1 _ (.step hx hi) (by simp; omega) (by intro he; simp [Heap.childLen, he] at hpos)
        rw [hy]; exact ⟨_, rfl⟩
      · rw [if_neg hck]; exact ⟨_, rfl⟩
  have hdec : ∀ x, Within h r x → (h.kids x = [] ∧ dfsSpec h sp h.fuel x = .error .overflow) ∨
      (h.kids x ≠ [] ∧ ∃ y, dfsSpec h sp h.fuel x = .ok y) := by
    intro x hx
    by_cases hk : h.kids x = []
    · left
      refine ⟨hk, ?_⟩
      obtain ⟨n, hn⟩ : ∃ n, h.fuel = n + 1 := ⟨h.size, rfl⟩
      rw [hn]
      simp only [dfsSpec, h4 x hk]
    · obtain ⟨π, hπ, hn⟩ := dfs_path wf hx
      exact Or.inr ⟨hk, hdfs _ x π hπ hn hk⟩
  -- the topmost elements
  have htop : (Stumbles h S ∧ overTops h (dfsSpec h sp h.fuel) S = .error .unreachableCode) ∨
      (¬ Stumbles h S ∧ ∃ u, overTops h (dfsSpec h sp h.fuel) S = flatMapR (dfsSpec h sp h.fuel) u ∧ (∀ x ∈ u, x ∈ S) ∧
        ∀ x, x ∈ u ↔ ∃ A B, S = A ++ x :: B ∧ StandsOut h A x) := by
    rcases uniqueParents_stumbles wf hw with ⟨u, hu, hn⟩ | ⟨hu, hn⟩
    · right
      refine ⟨hn, ?_⟩
      have ht := uniqueParents_tops wf hw hu
      have hsub : ∀ x ∈ u, x ∈ S := by
        intro x hx
        obtain ⟨A, B, he, _⟩ := (ht x).1 hx
        rw [he]; simp
      refine ⟨u, ?_, hsub, ht⟩
      unfold overTops
      split
      · rw [hu]
      · next hlen =>
        obtain ⟨x, S', rfl⟩ := List.exists_cons_of_ne_nil hne
        have : S' = [] := by
          cases S' with
          | nil => rfl
          | cons y S' => simp at hlen
        subst this
        obtain rfl := Except.ok.inj hu
        rfl
    · left
      refine ⟨hn, ?_⟩
      have hlen : 1 < S.length := by
        obtain ⟨A, t, B, x, C, rfl, _⟩ := hn
        simp; omega
      unfold overTops
      rw [if_pos hlen, hu]
  rw [hf, hsel]
  rcases htop with ⟨k1, k2⟩ | ⟨k1, u, k2, k3, k4⟩
  · rw [k2]
    simp [k1]
  · rw [k2]
    have herr := flatMapR_fails (f := dfsSpec h sp h.fuel) (l := u) (e := .overflow)
      fun x hx => (hdec x (hw x (k3 x hx))).imp (·.2) (·.2)
    have hcond : (∃ x ∈ u, dfsSpec h sp h.fuel x = .error .overflow) ↔ ∃ A x B, S = A ++ x :: B ∧ StandsOut h A x ∧ h.kids x = [] := by
      constructor
      · rintro ⟨x, hx, he⟩
        obtain ⟨A, B, k5, k6⟩ := (k4 x).1 hx
        refine ⟨A, x, B, k5, k6, ?_⟩
        rcases hdec x (hw x (k3 x hx)) with ⟨k, _⟩ | ⟨_, y, k⟩
        · exact k
        · rw [k] at he; cases he
      · rintro ⟨A, x, B, k5, k6, k7⟩
        have hx := (k4 x).2 ⟨A, B, k5, k6⟩
        exact ⟨x, hx, ((hdec x (hw x (k3 x hx))).resolve_right fun k => k.1 k7).2⟩
    refine ⟨⟨fun he => ?_, fun he => absurd he k1⟩, ?_, fun _ hall => ?_⟩
    · exfalso
      by_cases hx : ∃ x ∈ u, dfsSpec h sp h.fuel x = .error .overflow
      · rw [herr.2 hx] at he; cases he
      · obtain ⟨y, hy⟩ := flatMapR_total (f := dfsSpec h sp h.fuel) (l := u)
          fun x hm => ((hdec x (hw x (k3 x hm))).resolve_left fun k => hx ⟨x, hm, k.2⟩).2
        rw [hy] at he; cases he
    · rw [herr, hcond]
      simp [k1]
    · obtain ⟨res, hr⟩ := flatMapR_total (f := dfsSpec h sp h.fuel) (l := u) fun x hm => by
        obtain ⟨A, B, k5, k6⟩ := (k4 x).1 hm
        exact ((hdec x (hw x (k3 x hm))).resolve_left fun k => hall A x B k5 k6 k.1).2
      refine ⟨res, hr, fun e => ?_⟩
      rw [← k2, ← hsel] at hr
      have := (select_decides (fun _ _ _ => True.intro) (fun _ _ _ => True.intro) wf hD (oc := none) (Or.inr ⟨rfl, hhead⟩) hS hne
        True.intro (by simp) (by simp) (fun _ _ => True.intro) hr).2 e
      rw [this]
      simp only [decide_eq_true_eq, Rel, cmpdSat, and_true]

/-- C19 for `Vis::load(html)?.find(":last-child")`: a panic exactly when the document is empty. -/
theorem C19_last_document {s : Sim} (hs : FromEnd s) :
    (find h env [r] [[(.childrenAll, [s])]] = .error .overflow ↔ h.kids r = []) ∧
    (h.kids r ≠ [] → ∃ res, find h env [r] [[(.childrenAll, [s])]] = .ok res ∧
      ∀ e, e ∈ res ↔ h.isElem e = true ∧ s.Sat h r env e ∧ Below h r e) := by
  have hns : ¬ Stumbles h [r] := by
    rintro ⟨A, t, B, x, C, he, _⟩
    have := congrArg List.length he
    simp at this
    omega
  have hone : ∀ {A : List Nat} {x : Nat} {B : List Nat}, [r] = A ++ x :: B → A = [] ∧ x = r := by
    intro A x B he
    cases A with
    | nil => simp at he; exact ⟨rfl, he.1.symm⟩
    | cons a A => have := congrArg List.length he; simp at this
  obtain ⟨_, h2, h3⟩ := C19_last_descendants_exact wf ev (env := env) hs (nodes_root wf)
  constructor
  · rw [h2]
    constructor
    · rintro ⟨_, A, x, B, he, _, hk⟩
      obtain ⟨_, rfl⟩ := hone he
      exact hk
    · intro hk
      exact ⟨hns, [], r, [], rfl, by intro A' a B he; simp at he, hk⟩
  · intro hk
    obtain ⟨res, hr, hm⟩ := h3 hns fun A x B he _ => by
      obtain ⟨_, rfl⟩ := hone he
      exact hk
    exact ⟨res, hr, fun e => by rw [hm e]; simp⟩

end

/-- The empty element 6 of `nest`: `> :last-child` panics from it, not from its parent. Among the descendants of 1 and 6 it does not matter:
6 lies below 1. -/
example : FromEnd (.edge true false) ∧ nest.kids 6 = [] ∧
    find nest env0 [6] [[(.children, [.edge true false])]] = .error .overflow ∧
    find nest env0 [1] [[(.children, [.edge true false])]] = .ok [6] ∧
    find nest env0 [1, 6] [[(.childrenAll, [.edge true false])]] = .ok [3, 4, 5, 6] ∧
    find nest env0 [2, 6] [[(.childrenAll, [.edge true false])]] = .error .overflow ∧
    find nest env0 [0] [[(.childrenAll, [.nthIdx true false 2])]] = .ok [2] :=
  ⟨True.intro, by decide, by decide, by decide, by decide, by decide, by decide⟩

end Visdom
