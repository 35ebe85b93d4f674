import Verif.Props.LastExact
import Verif.Props.OrderExact
import Verif.Props.Common
/-!
# C19: exactly when `:nth-child(an+b)` and its relatives panic

For some `an+b` and some numbers of children the library computes a position that is too large (`BadNth`, C01). Looking for such positions
among children or descendants the library then panics; it never answers wrongly.
-/
namespace Visdom
open Spec Classical

variable {h : Heap} {r : Nat} {env : Env}

theorem markMatched_fst : ∀ (l ms : List Nat), (markMatched l ms).map (·.1) = l
  | [], ms => by cases ms <;> rfl
  | a :: l, [] => by simp only [markMatched, List.map_cons, markMatched_fst l []]
  | a :: l, m :: ms => by
    simp only [markMatched]
    split <;> simp only [List.map_cons, markMatched_fst l]

/-- Looking below the topmost elements of a set. -/
theorem overTops_shape (wf : TreeWF h r) {S : List Nat} (hw : ∀ x ∈ S, Within h r x) (hne : S ≠ []) (k : Nat → R (List Nat)) :
    (Stumbles h S ∧ overTops h k S = .error .unreachableCode) ∨
    (¬ Stumbles h S ∧ ∃ u, overTops h k S = flatMapR k u ∧ (∀ x ∈ u, x ∈ S) ∧ ∀ x ∈ S, ∃ t ∈ u, Within h t x) := by
  rcases uniqueParents_stumbles wf hw with ⟨u, hu, hn⟩ | ⟨hu, hn⟩
  · right
    refine ⟨hn, u, ?_, uniqueParents_cover wf hw hu⟩
    unfold overTops
    split
    · rw [hu]
    · next hlen =>
      obtain ⟨x, S', rfl⟩ := List.exists_cons_of_ne_nil hne
      have : S' = [] := by
        cases S' with
        | nil => rfl
        | cons y S' => simp at hlen
      subst this
      obtain rfl := Except.ok.inj hu
      rfl
  · left
    refine ⟨hn, ?_⟩
    have hlen : 1 < S.length := by
      obtain ⟨A, t, B, x, C, rfl, _⟩ := hn
      simp; omega
    unfold overTops
    rw [if_pos hlen, hu]

section
variable (wf : TreeWF h r)
include wf

theorem nth_sim {last o : Bool} {a b : Int} : simMatcher h env (.nth last o a b) = nthMatcher h o (!last) (some a) (some b) := by
  cases o <;> (rw [simMatcher]; rfl)

/-- What lies below an element and has element children lies within an element child. -/
theorem child_towards {x y c : Nat} (hx : Within h r x) (hc : c ∈ h.kids x) (hy : Within h c y) (hyc : h.children y ≠ []) :
    c ∈ h.children x ∧ 0 < h.childLen c := by
  have hk : h.kids c ≠ [] := by
    rcases within_cases hy with rfl | ⟨d, hd, _⟩
    · intro he; apply hyc; simp [Heap.children, he]
    · exact List.ne_nil_of_mem hd
  obtain ⟨d, hd⟩ := List.exists_mem_of_ne_nil _ hk
  exact ⟨mem_children.2 ⟨hc, isElem_of_kids wf (.step hx hc) hd (parent_of_child wf hx hc)⟩, List.length_pos_iff.2 hk⟩

/-- Going down with a list handle that panics with `e` on some children: exactly when such children are met. -/
theorem dfsAll_fails {f : List Nat → Option Bool → R (List Nat)} {e : Panic} {bad : Nat → Prop}
    (hf : ∀ x, Within h r x → h.children x ≠ [] →
      (bad x → f (h.children x) (some false) = .error e) ∧ (¬ bad x → ∃ res, f (h.children x) (some false) = .ok res)) :
    ∀ (n x : Nat) (π : List Nat), At h r π x → h.size < π.length + n →
      ((∃ y, Within h x y ∧ h.children y ≠ [] ∧ bad y) → dfsAll h f n x = .error e) ∧
      ((¬ ∃ y, Within h x y ∧ h.children y ≠ [] ∧ bad y) → ∃ res, dfsAll h f n x = .ok res) := by
  intro n
  induction n with
  | zero => intro x π hx hn; have := path_length wf hx; omega
  | succ n ih =>
    intro x π hx hn
    by_cases hc : h.children x = []
    · constructor
      · rintro ⟨y, hy, hyc, _⟩
        exfalso
        rcases within_cases hy with rfl | ⟨c, hck, hcy⟩
        · exact hyc hc
        · have := (child_towards wf hx.within hck hcy hyc).1
          rw [hc] at this; cases this
      · intro _
        exact ⟨[], by simp [dfsAll, hc]⟩
    · have hc' : (h.children x).isEmpty = false := by simpa using hc
      obtain ⟨hb, hg⟩ := hf x hx.within hc
      by_cases hbx : bad x
      · refine ⟨fun _ => by simp only [dfsAll, hc', Bool.false_eq_true, if_false, hb hbx], fun hno => ?_⟩
        exact absurd ⟨x, .self, hc, hbx⟩ hno
      · obtain ⟨ms, hms⟩ := hg hbx
        simp only [dfsAll, hc', Bool.false_eq_true, if_false, hms]
        have hmem : ∀ c ∈ markMatched (h.children x) ms, c.1 ∈ h.children x := by
          intro c hcm
          rw [← markMatched_fst (h.children x) ms]
          exact List.mem_map_of_mem hcm
        have hstep : ∀ c ∈ markMatched (h.children x) ms,
            ((∃ y, Within h c.1 y ∧ h.children y ≠ [] ∧ bad y) → dfsAll h f n c.1 = .error e) ∧
            ((¬ ∃ y, Within h c.1 y ∧ h.children y ≠ [] ∧ bad y) → ∃ res, dfsAll h f n c.1 = .ok res) := by
          intro c hcm
          obtain ⟨i, hi⟩ := List.getElem?_of_mem (mem_children.1 (hmem c hcm)).1
          exact ih c.1 _ (.step hx hi) (by simp; omega)
        constructor
        · rintro ⟨y, hy, hyc, hby⟩
          rcases within_cases hy with rfl | ⟨c, hck, hcy⟩
          · exact absurd hby hbx
          · obtain ⟨hcc, hlen⟩ := child_towards wf hx.within hck hcy hyc
            rw [← markMatched_fst (h.children x) ms] at hcc
            obtain ⟨d, hd, rfl⟩ := List.mem_map.1 hcc
            refine (flatMapR_fails fun d' hd' => ?_).2 ⟨d, hd, ?_⟩
            · by_cases hl : 0 < h.childLen d'.1
              · simp only [if_pos hl]
                by_cases hex : ∃ y, Within h d'.1 y ∧ h.children y ≠ [] ∧ bad y
                · rw [(hstep d' hd').1 hex]; exact Or.inl rfl
                · obtain ⟨z, hz⟩ := (hstep d' hd').2 hex
                  rw [hz]; exact Or.inr ⟨_, rfl⟩
              · simp only [if_neg hl]; exact Or.inr ⟨_, rfl⟩
            · simp only [if_pos hlen, (hstep d hd).1 ⟨y, hcy, hyc, hby⟩]
        · intro hno
          refine flatMapR_total fun d hd => ?_
          by_cases hl : 0 < h.childLen d.1
          · simp only [if_pos hl]
            obtain ⟨z, hz⟩ := (hstep d hd).2 fun ⟨y, hy, hyc, hby⟩ =>
              hno ⟨y, Within.trans (.step .self (mem_children.1 (hmem d hd)).1) hy, hyc, hby⟩
            rw [hz]; exact ⟨_, rfl⟩
          · simp only [if_neg hl]; exact ⟨_, rfl⟩

variable (ev : Metas h r)
include ev

theorem nth_cmpdOk {last o : Bool} {a b : Int} (hb : NthWords h r b) {v : Via} (hv : v ≠ .list) :
    CmpdOk h r env false .any v [.nth last o a b] := by
  refine ⟨by simp, fun t ht => ?_⟩
  obtain rfl := List.mem_singleton.1 ht
  refine ⟨fun _ => ?_, Or.inl rfl⟩
  rw [Sim.Ok]
  exact ⟨Or.inr ⟨rfl, hv, hb⟩, Or.inl hv, by simp⟩

/-- C19 for `> :nth-child(an+b)` and the like, exactly: a panic exactly when the number of children of some member makes the formula bad
(for `:nth-of-type` only when a member has no element children). Otherwise exactly the elements meant. -/
theorem C19_nth_children_exact (last o : Bool) {a b : Int} (hb : NthWords h r b) {S : List Nat} (hS : Nodes h r S) :
    (find h env S [[(.children, [.nth last o a b])]] = .error (nthPanic o last) ↔
      ∃ x ∈ S, BadNth a b (h.children x).length ∧ (o = true → h.children x = [])) ∧
    ((¬ ∃ x ∈ S, BadNth a b (h.children x).length ∧ (o = true → h.children x = [])) →
      ∃ res, find h env S [[(.children, [.nth last o a b])]] = .ok res ∧
        ∀ e, e ∈ res ↔ h.isElem e = true ∧ (∃ j : Nat, AtPos h r last o e j ∧ NthSelects a b j) ∧ ∃ y ∈ S, e ∈ h.kids y) := by
  by_cases hne : S = []
  · subst hne
    simp [find_nil]
  have hw := hS.within
  obtain ⟨hhead, hD, _⟩ := cmpdOk_good (c := .children) (c0 := .children) wf ev (by simp)
    (nth_cmpdOk (env := env) (last := last) (o := o) (a := a) wf ev hb (v := .child) (by simp))
  have hf := find_one_step (h := h) (env := env) hne .children [.nth last o a b]
  obtain ⟨f, hall⟩ : ∃ f, (nthMatcher h o (!last) (some a) (some b)).all = some f := by
    cases o <;> exact ⟨_, rfl⟩
  have hsel : select h S (optimizeCmpd (simSegs h env .children [.nth last o a b])) none =
      flatMapR (fun x => f (h.children x) (some false)) S := by
    have : optimizeCmpd (simSegs h env .children [.nth last o a b]) = [(nthMatcher h o (!last) (some a) (some b), .children)] := by
      rw [simSegs, simSegs, nth_sim wf]; rfl
    rw [this]
    simp only [select, selectFirst, nthMatcher_cache, Bool.false_and, Bool.false_eq_true, if_false, selectByRule, Option.getD, nthMatcher_one,
      nthMatcher_spec_n, hall]
    cases flatMapR (fun x => f (h.children x) (some false)) S <;> rfl
  have hdec := fun x (hx : x ∈ S) => nth_child_exact (last := last) wf hb.1 hb.2.1 hall (hw x hx) (hb.2.2 x (hw x hx))
  constructor
  · rw [hf, hsel, flatMapR_fails]
    · refine exists_congr fun x => and_congr_right fun hx => ?_
      obtain ⟨k1, k2⟩ := hdec x hx
      refine ⟨fun he => ?_, k1⟩
      by_contra hn
      obtain ⟨y, hy⟩ := k2 hn
      rw [hy] at he; cases he
    · intro x hx
      obtain ⟨k1, k2⟩ := hdec x hx
      by_cases hbad : BadNth a b (h.children x).length ∧ (o = true → h.children x = [])
      · exact Or.inl (k1 hbad)
      · exact Or.inr (k2 hbad)
  · intro hno
    obtain ⟨res, hr⟩ : ∃ res, find h env S [[(.children, [.nth last o a b])]] = .ok res := by
      rw [hf, hsel]
      exact flatMapR_total fun x hx => (hdec x hx).2 fun hbad => hno ⟨x, hx, hbad⟩
    refine ⟨res, hr, fun e => ?_⟩
    rw [hf] at hr
    have := (select_decides (fun _ _ _ => True.intro) (fun _ _ _ => True.intro) wf hD (oc := none) (Or.inr ⟨rfl, hhead⟩) hS hne
      True.intro (by simp) (by simp) (fun _ _ => True.intro) hr).2 e
    rw [this]
    simp only [decide_eq_true_eq, Rel, cmpdSat, and_true, Sim.Sat]

/-- C19 for `:nth-child(an+b)` and `:nth-last-child(an+b)` among the descendants, exactly: a panic exactly when the set stumbles, or when
within some member there is a node with element children whose number makes the formula bad; `:nth-of-type` and `:nth-last-of-type`
only panic when the set stumbles. Otherwise exactly the elements meant. -/
theorem C19_nth_descendants_exact (last o : Bool) {a b : Int} (hb : NthWords h r b) {S : List Nat} (hS : Nodes h r S) :
    (find h env S [[(.childrenAll, [.nth last o a b])]] = .error .unreachableCode ↔ Stumbles h S) ∧
    (find h env S [[(.childrenAll, [.nth last o a b])]] = .error (nthPanic o last) ↔
      ¬ Stumbles h S ∧ o = false ∧ ∃ x ∈ S, ∃ y, Within h x y ∧ h.children y ≠ [] ∧ BadNth a b (h.children y).length) ∧
    (¬ Stumbles h S → (o = false → ¬ ∃ x ∈ S, ∃ y, Within h x y ∧ h.children y ≠ [] ∧ BadNth a b (h.children y).length) →
      ∃ res, find h env S [[(.childrenAll, [.nth last o a b])]] = .ok res ∧
        ∀ e, e ∈ res ↔ h.isElem e = true ∧ (∃ j : Nat, AtPos h r last o e j ∧ NthSelects a b j) ∧ ∃ y ∈ S, Below h y e) := by
  have hw := hS.within
  by_cases hne : S = []
  · subst hne
    have : ¬ Stumbles h [] := by rintro ⟨A, t, B, x, C, he, _⟩; simp at he
    simp [find_nil, this]
  obtain ⟨hhead, hD, _⟩ := cmpdOk_good (c := .childrenAll) (c0 := .childrenAll) wf ev (by simp)
    (nth_cmpdOk (env := env) (last := last) (o := o) (a := a) wf ev hb (v := .desc) (by simp))
  have hf := find_one_step (h := h) (env := env) hne .childrenAll [.nth last o a b]
  obtain ⟨f, hall⟩ : ∃ f, (nthMatcher h o (!last) (some a) (some b)).all = some f := by
    cases o <;> exact ⟨_, rfl⟩
  have hsel : select h S (optimizeCmpd (simSegs h env .childrenAll [.nth last o a b])) none = overTops h (dfsAll h f h.fuel) S := by
    have : optimizeCmpd (simSegs h env .childrenAll [.nth last o a b]) = [(nthMatcher h o (!last) (some a) (some b), .childrenAll)] := by
      rw [simSegs, simSegs, nth_sim wf]; rfl
    rw [this]
    simp only [select, selectFirst, nthMatcher_cache, Bool.false_and, Bool.false_eq_true, if_false, selectByRule, Option.getD, nthMatcher_one,
      nthMatcher_spec_n, hall]
    cases overTops h (dfsAll h f h.fuel) S <;> rfl
  have hdfs := dfsAll_fails wf (f := f) (e := nthPanic o last) (bad := fun y => BadNth a b (h.children y).length ∧ o = false) (by
    intro x hx hc
    obtain ⟨k1, k2⟩ := nth_child_exact (last := last) wf hb.1 hb.2.1 hall hx (hb.2.2 x hx)
    refine ⟨fun ⟨h1, h2⟩ => k1 ⟨h1, fun h3 => ?_⟩, fun hn => k2 fun ⟨h1, h2⟩ => hn ⟨h1, ?_⟩⟩
    · rw [h2] at h3; cases h3
    · cases o
      · rfl
      · exact absurd (h2 rfl) hc)
  have hdec : ∀ x ∈ S, ((∃ y, Within h x y ∧ h.children y ≠ [] ∧ BadNth a b (h.children y).length ∧ o = false) →
        dfsAll h f h.fuel x = .error (nthPanic o last)) ∧
      ((¬ ∃ y, Within h x y ∧ h.children y ≠ [] ∧ BadNth a b (h.children y).length ∧ o = false) → ∃ res, dfsAll h f h.fuel x = .ok res) := by
    intro x hx
    obtain ⟨π, hπ, hn⟩ := dfs_path wf (hw x hx)
    exact hdfs _ x π hπ hn
  have hpan : nthPanic o last ≠ .unreachableCode := by cases o <;> cases last <;> simp [nthPanic]
  rw [hf, hsel]
  rcases overTops_shape wf hw hne (dfsAll h f h.fuel) with ⟨k1, k2⟩ | ⟨k1, u, k2, k3, k4⟩
  · rw [k2]
    refine ⟨by simp [k1], ⟨fun he => absurd (Except.error.inj he).symm hpan, fun he => absurd k1 he.1⟩, fun hn => absurd k1 hn⟩
  · rw [k2]
    have hcond : (∃ x ∈ u, dfsAll h f h.fuel x = .error (nthPanic o last)) ↔
        o = false ∧ ∃ x ∈ S, ∃ y, Within h x y ∧ h.children y ≠ [] ∧ BadNth a b (h.children y).length := by
      constructor
      · rintro ⟨x, hx, he⟩
        by_cases hex : ∃ y, Within h x y ∧ h.children y ≠ [] ∧ BadNth a b (h.children y).length ∧ o = false
        · obtain ⟨y, h1, h2, h3, h4⟩ := hex
          exact ⟨h4, x, k3 x hx, y, h1, h2, h3⟩
        · obtain ⟨z, hz⟩ := (hdec x (k3 x hx)).2 hex
          rw [hz] at he; cases he
      · rintro ⟨h0, x, hx, y, h1, h2, h3⟩
        obtain ⟨t, ht, htx⟩ := k4 x hx
        exact ⟨t, ht, (hdec t (k3 t ht)).1 ⟨y, htx.trans h1, h2, h3, h0⟩⟩
    have htot : ∀ x ∈ u, dfsAll h f h.fuel x = .error (nthPanic o last) ∨ ∃ res, dfsAll h f h.fuel x = .ok res := by
      intro x hx
      by_cases hex : ∃ y, Within h x y ∧ h.children y ≠ [] ∧ BadNth a b (h.children y).length ∧ o = false
      · exact Or.inl ((hdec x (k3 x hx)).1 hex)
      · exact Or.inr ((hdec x (k3 x hx)).2 hex)
    have herr := flatMapR_fails htot
    refine ⟨⟨fun he => ?_, fun he => absurd he k1⟩, ?_, fun _ hall' => ?_⟩
    · exfalso
      by_cases hx : ∃ x ∈ u, dfsAll h f h.fuel x = .error (nthPanic o last)
      · rw [herr.2 hx] at he
        exact hpan (Except.error.inj he)
      · obtain ⟨y, hy⟩ := flatMapR_total (f := dfsAll h f h.fuel) (l := u) fun x hm => (htot x hm).resolve_left fun k => hx ⟨x, hm, k⟩
        rw [hy] at he; cases he
    · rw [herr, hcond]
      simp [k1]
    · obtain ⟨res, hr⟩ := flatMapR_total (f := dfsAll h f h.fuel) (l := u) fun x hm => (htot x hm).resolve_left fun k => by
        obtain ⟨h1, h2⟩ := hcond.1 ⟨x, hm, k⟩
        exact hall' h1 h2
      refine ⟨res, hr, fun e => ?_⟩
      rw [← k2, ← hsel] at hr
      have := (select_decides (fun _ _ _ => True.intro) (fun _ _ _ => True.intro) wf hD (oc := none) (Or.inr ⟨rfl, hhead⟩) hS hne
        True.intro (by simp) (by simp) (fun _ _ => True.intro) hr).2 e
      rw [this]
      simp only [decide_eq_true_eq, Rel, cmpdSat, and_true, Sim.Sat]

end

/-- Two children make `:nth-child(-2n+3)` bad, four do not. -/
example : NthWords demo 0 3 ∧ BadNth (-2) 3 (demo.children 5).length ∧ ¬ BadNth (-2) 3 (row.children 1).length ∧
    find demo env0 [5] [[(.children, [.nth false false (-2) 3])]] = .error .outOfBounds ∧
    find demo env0 [1] [[(.childrenAll, [.nth true false (-2) 3])]] = .error .overflow ∧
    find demo env0 [1] [[(.childrenAll, [.nth true true (-2) 3])]] = .ok [2, 5, 6, 7] ∧
    find row env0 [1] [[(.children, [.nth false false (-2) 3])]] = .ok [2, 4] ∧
    find row env0 [1] [[(.childrenAll, [.nth true false (-2) 3])]] = .ok [3, 5] :=
  ⟨⟨by decide, by decide, fun p hp => demo_small p hp⟩, by simp only [BadNth]; decide, by simp only [BadNth]; decide, by decide, by decide, by decide,
    by decide, by decide⟩

end Visdom
