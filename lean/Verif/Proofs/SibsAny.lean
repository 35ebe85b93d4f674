import Verif.Proofs.Navigate
/-!
# `siblings` from sets with repetitions
-/
namespace Visdom
open Spec Classical
variable {h : Heap} {r : Nat} {env : Env} (wf : TreeWF h r) (ev : Metas h r)
include wf ev

/-- What is kept for the parent `p`: the parent if two or more members, counted with repetition, have it, otherwise the member. -/
def SibEntryN (h : Heap) (L : List Nat) (p : Nat) (e : Nat × Bool) : Prop :=
  (e = (p, true) ∧ 2 ≤ (L.filter fun y => h.parent y == some p).length) ∨ ∃ x, e = (x, false) ∧ L.filter (fun y => h.parent y == some p) = [x]

/-- The loop invariant: `ps` are the parents met, in order. -/
structure SibInvN (h : Heap) (r : Nat) (L : List Nat) (ps : List Nat) (s : AllSibState) : Prop where
  nodup : ps.Nodup
  within : ∀ p ∈ ps, Within h r p
  all : ∀ x ∈ L, ∀ p, h.parent x = some p → p ∈ ps
  len : s.kept.length = ps.length
  seen : s.seen.length = ps.length
  entry : ∀ (i p : Nat), ps[i]? = some p → ∃ e, s.kept[i]? = some e ∧ SibEntryN h L p e ∧
    s.seen[i]? = some (h.treeIndexs p, i, e.2, p)

omit wf ev in
theorem SibEntryN.push {L : List Nat} {p x : Nat} {e : Nat × Bool} (he : SibEntryN h L p e)
    (hx : h.parent x ≠ some p ∨ e.2 = true) : SibEntryN h (L ++ [x]) p e := by
  rcases he with ⟨h1, h2⟩ | ⟨a, h1, h2⟩
  · refine Or.inl ⟨h1, ?_⟩
    rw [List.filter_append, List.length_append]
    omega
  · refine Or.inr ⟨a, h1, ?_⟩
    have hx' : h.parent x ≠ some p := hx.resolve_right (by rw [h1]; simp)
    rw [List.filter_append, h2]
    simp [hx']

omit ev in
theorem sibInvN_step {L ps : List Nat} {s : AllSibState} (hi : SibInvN h r L ps s) {x : Nat} (hx : Within h r x) :
    ∃ ps', SibInvN h r (L ++ [x]) ps' (allSibStep h s x) := by
  unfold allSibStep
  cases hp : h.parent x with
  | none =>
    refine ⟨ps, hi.nodup, hi.within, ?_, hi.len, hi.seen, ?_⟩
    · intro y hy p hyp
      rcases List.mem_append.1 hy with hy | hy
      · exact hi.all y hy p hyp
      · rw [List.mem_singleton] at hy; subst hy; rw [hp] at hyp; cases hyp
    · intro i p hip
      obtain ⟨e, h1, h2, h3⟩ := hi.entry i p hip
      exact ⟨e, h1, h2.push (Or.inl (by rw [hp]; simp)), h3⟩
  | some p =>
    obtain ⟨hpw, hpk⟩ := parent_some wf hx hp
    have hall : ∀ ps' : List Nat, (∀ q ∈ ps, q ∈ ps') → p ∈ ps' → ∀ y ∈ L ++ [x], ∀ q, h.parent y = some q → q ∈ ps' := by
      intro ps' h1 h2 y hy q hq
      rcases List.mem_append.1 hy with hy | hy
      · exact h1 q (hi.all y hy q hq)
      · rw [List.mem_singleton] at hy; subst hy; rw [hp] at hq; cases hq; exact h2
    simp only []
    split
    · rename_i a pos changed par hfind
      -- the entry found is the one of `p`
      have hmem := List.mem_of_find?_eq_some hfind
      have heq := List.find?_some hfind
      simp only [beq_iff_eq] at heq
      obtain ⟨i, hilt, hget⟩ := List.getElem_of_mem hmem
      have hget? : s.seen[i]? = some (a, pos, changed, par) := by rw [List.getElem?_eq_getElem hilt, hget]
      have hips : i < ps.length := by rw [← hi.seen]; exact hilt
      obtain ⟨e, k1, k2, k3⟩ := hi.entry i ps[i] (List.getElem?_eq_getElem hips)
      rw [hget?] at k3
      simp only [Option.some.injEq, Prod.mk.injEq] at k3
      obtain ⟨e1, e2, e3, e4⟩ := k3
      have hpe : ps[i] = p := treeIndexs_inj wf (hi.within _ (List.getElem_mem hips)) hpw (e1.symm.trans heq)
      have hpmem : p ∈ ps := hpe ▸ List.getElem_mem hips
      subst e2
      rw [hpe] at e4 k2
      subst e4
      have huniq : ∀ (j q : Nat), ps[j]? = some q → (q = par ↔ j = pos) := by
        intro j q hj
        obtain ⟨hjl, hjq⟩ := List.getElem?_eq_some_iff.1 hj
        constructor
        · rintro rfl
          exact (List.Nodup.getElem_inj_iff hi.nodup).1 (hjq.trans hpe.symm)
        · rintro rfl; exact hjq.symm.trans hpe
      have hidx : ∀ (j q : Nat), ps[j]? = some q → (h.treeIndexs q = h.treeIndexs par ↔ j = pos) := by
        intro j q hj
        rw [← huniq j q hj]
        constructor
        · exact fun he => treeIndexs_inj wf (hi.within q (List.mem_of_getElem? hj)) hpw he
        · rintro rfl; rfl
      split
      · rename_i hch
        subst hch
        refine ⟨ps, hi.nodup, hi.within, hall ps (fun _ h => h) hpmem, hi.len, hi.seen, ?_⟩
        intro j q hj
        obtain ⟨e', h1, h2, h3⟩ := hi.entry j q hj
        refine ⟨e', h1, h2.push ?_, h3⟩
        by_cases hq : q = par
        · right
          obtain rfl := (huniq j q hj).1 hq
          rw [k1] at h1; cases h1; exact e3.symm
        · left; rw [hp]; simpa using fun e => hq e.symm
      · rename_i hch
        refine ⟨ps, hi.nodup, hi.within, hall ps (fun _ h => h) hpmem, by rw [List.length_set]; exact hi.len,
          by rw [List.length_map]; exact hi.seen, ?_⟩
        intro j q hj
        obtain ⟨e', h1, h2, h3⟩ := hi.entry j q hj
        by_cases hq : j = pos
        · subst hq
          have hqp : q = par := (huniq j q hj).2 rfl
          subst hqp
          rw [k1] at h1
          cases h1
          refine ⟨(q, true), ?_, Or.inl ⟨rfl, ?_⟩, ?_⟩
          · rw [List.getElem?_set_self (by rw [hi.len]; exact hips)]
          · rcases k2 with ⟨k2, _⟩ | ⟨z, k2, k4⟩
            · rw [k2] at e3; rw [e3] at hch; exact absurd rfl hch
            · rw [List.filter_append, k4]
              simp [hp]
          · rw [List.getElem?_map, h3, Option.map_some]
            simp
        · refine ⟨e', ?_, h2.push (Or.inl ?_), ?_⟩
          · rw [List.getElem?_set_ne (fun e => hq e.symm)]; exact h1
          · rw [hp]
            intro e
            exact hq ((huniq j q hj).1 (Option.some.inj e).symm)
          · rw [List.getElem?_map, h3, Option.map_some]
            rw [if_neg]
            simp only [beq_iff_eq]
            exact fun e => hq ((hidx j q hj).1 e)
    · rename_i hfind
      have hpn : p ∉ ps := by
        intro hpm
        obtain ⟨i, hilt, hget⟩ := List.getElem_of_mem hpm
        obtain ⟨e, k1, k2, k3⟩ := hi.entry i p (by rw [List.getElem?_eq_getElem hilt, hget])
        have := List.find?_eq_none.1 hfind _ (List.mem_of_getElem? k3)
        simp at this
      refine ⟨ps ++ [p], ?_, ?_, hall _ (fun q hq => List.mem_append_left _ hq) (by simp), by simp [hi.len], by simp [hi.seen], ?_⟩
      · rw [List.nodup_append]
        exact ⟨hi.nodup, List.nodup_singleton _, fun a ha b hb => by
          rw [List.mem_singleton] at hb; subst hb; rintro rfl; exact hpn ha⟩
      · intro q hq
        rcases List.mem_append.1 hq with hq | hq
        · exact hi.within q hq
        · rw [List.mem_singleton] at hq; subst hq; exact hpw
      · intro j q hj
        rcases Nat.lt_or_ge j ps.length with hlt | hge
        · rw [List.getElem?_append_left hlt] at hj
          obtain ⟨e', h1, h2, h3⟩ := hi.entry j q hj
          refine ⟨e', ?_, h2.push (Or.inl ?_), ?_⟩
          · rw [List.getElem?_append_left (by rw [hi.len]; exact hlt)]; exact h1
          · rw [hp]
            rintro e
            cases e
            exact hpn (List.mem_of_getElem? hj)
          · rw [List.getElem?_append_left (by rw [hi.seen]; exact hlt)]; exact h3
        · rw [List.getElem?_append_right hge] at hj
          have hj0 : j = ps.length := by
            rcases Nat.eq_or_lt_of_le hge with e | hlt
            · exact e.symm
            · rw [List.getElem?_eq_none (by simp; omega)] at hj; cases hj
          subst hj0
          simp only [Nat.sub_self, List.getElem?_cons_zero, Option.some.injEq] at hj
          subst hj
          refine ⟨(x, false), ?_, Or.inr ⟨x, rfl, ?_⟩, ?_⟩
          · rw [List.getElem?_append_right (by rw [hi.len]), hi.len]; simp
          · have hnil : L.filter (fun y => h.parent y == some p) = [] := by
              rw [List.filter_eq_nil_iff]
              intro y hy hyp
              exact hpn (hi.all y hy p (by simpa using hyp))
            rw [List.filter_append, hnil]
            simp [hp]
          · rw [List.getElem?_append_right (by rw [hi.seen]), hi.seen, hi.len]; simp

omit ev in
theorem uniqueAllN_inv {X : List Nat} (hX : ∀ x ∈ X, Within h r x) :
    ∃ ps, SibInvN h r X ps (X.foldl (allSibStep h) {}) := by
  have key : ∀ (l L : List Nat) (ps : List Nat) (s : AllSibState), SibInvN h r L ps s → (∀ x ∈ l, Within h r x) →
      ∃ ps', SibInvN h r (L ++ l) ps' (l.foldl (allSibStep h) s) := by
    intro l
    induction l with
    | nil => intro L ps s hi _; exact ⟨ps, by rw [List.append_nil]; exact hi⟩
    | cons x l ih =>
      intro L ps s hi hw
      obtain ⟨ps', hi'⟩ := sibInvN_step wf hi (hw x List.mem_cons_self)
      have := ih (L ++ [x]) ps' _ hi' (fun y hy => hw y (List.mem_cons_of_mem _ hy))
      simpa using this
  have := key X [] [] {} ⟨List.nodup_nil, by simp, by simp, rfl, rfl, by simp⟩ hX
  simpa using this

omit wf ev in
theorem SibEntryN.cases {X : List Nat} {p : Nat} {e : Nat × Bool} (he : SibEntryN h X p e) :
    (e = (p, true) ∧ ∃ x ∈ X, h.parent x = some p) ∨
    ∃ x ∈ X, e = (x, false) ∧ h.parent x = some p ∧ ∀ y ∈ X, h.parent y = some p → y = x := by
  rcases he with ⟨rfl, h2⟩ | ⟨x, rfl, h2⟩
  · left
    refine ⟨rfl, ?_⟩
    obtain ⟨x, hx⟩ := List.exists_mem_of_length_pos (show 0 < (X.filter fun y => h.parent y == some p).length by omega)
    rw [List.mem_filter, beq_iff_eq] at hx
    exact ⟨x, hx.1, hx.2⟩
  · right
    have hx : x ∈ X.filter (fun y => h.parent y == some p) := by rw [h2]; simp
    rw [List.mem_filter, beq_iff_eq] at hx
    refine ⟨x, hx.1, rfl, hx.2, fun y hy hp => ?_⟩
    have : y ∈ X.filter (fun y => h.parent y == some p) := by rw [List.mem_filter, beq_iff_eq]; exact ⟨hy, hp⟩
    rw [h2] at this
    simpa using this

theorem siblings_any {ss : List Sim} (hok1 : CmpdOk h r env true .doc .child ss) (hok2 : CmpdOk h r env true .doc .list ss)
    {X : List Nat} (hX : Nodes h r X) :
    ∃ res, siblingsSel h X (some (findSel h env (cmpdSel ss))) = .ok res ∧ DocSorted h r res ∧
      ∀ e, e ∈ res ↔ h.isElem e = true ∧ cmpdSat h r env ss e ∧ ((∃ y ∈ X, Sib h r y e) ∨ (2 ≤ X.count e ∧ h.parent e ≠ none)) := by
  obtain ⟨ps, hi⟩ := uniqueAllN_inv wf hX.within
  set kept := uniqueAllSiblings h X with hkept
  have hkept' : (X.foldl (allSibStep h) {}).kept = kept := rfl
  have hlen := hi.len
  rw [hkept'] at hlen
  -- every entry has a parent
  have hentry : ∀ e ∈ kept, ∃ p, Within h r p ∧ SibEntryN h X p e ∧
      (if e.2 then some e.1 else h.parent e.1) = some p := by
    intro e he
    obtain ⟨i, hilt, hget⟩ := List.getElem_of_mem he
    have hip : i < ps.length := by rw [← hlen]; exact hilt
    obtain ⟨e', k1, k2, _⟩ := hi.entry i ps[i] (List.getElem?_eq_getElem hip)
    rw [hkept', List.getElem?_eq_getElem hilt, hget] at k1
    cases k1
    refine ⟨ps[i], hi.within _ (List.getElem_mem hip), k2, ?_⟩
    rcases k2.cases with ⟨rfl, _⟩ | ⟨x, _, rfl, hp, _⟩
    · rfl
    · exact hp
  have hcover : ∀ y ∈ X, ∀ p, h.parent y = some p → ∃ e ∈ kept, SibEntryN h X p e := by
    intro y hy p hp
    obtain ⟨i, hilt, hget⟩ := List.getElem_of_mem (hi.all y hy p hp)
    obtain ⟨e, k1, k2, _⟩ := hi.entry i p (by rw [List.getElem?_eq_getElem hilt, hget])
    exact ⟨e, List.mem_of_getElem? k1, k2⟩
  have hpar : kept.map (fun e => if e.2 then some e.1 else h.parent e.1) = ps.map some := by
    refine List.ext_getElem? fun i => ?_
    rw [List.getElem?_map, List.getElem?_map]
    rcases Nat.lt_or_ge i ps.length with hlt | hge
    · obtain ⟨e, k1, k2, _⟩ := hi.entry i ps[i] (List.getElem?_eq_getElem hlt)
      rw [hkept'] at k1
      rw [k1, List.getElem?_eq_getElem hlt, Option.map_some, Option.map_some]
      rcases k2.cases with ⟨h2, _⟩ | ⟨x, _, h2, hp, _⟩
      · rw [h2]; simp
      · rw [h2]; simp [hp]
    · rw [List.getElem?_eq_none hge, List.getElem?_eq_none (by rw [hlen]; exact hge)]; rfl
  have hpn : (kept.map (fun e => if e.2 then some e.1 else h.parent e.1)).Nodup := by
    rw [hpar]
    exact hi.nodup.map (fun a b e => Option.some.inj e)
  -- what one entry contributes
  have hone : ∀ e ∈ kept, ∃ l, findSelector h [e.1] ((findSel h env (cmpdSel ss)).map (headComb (if e.2 then .children else .siblings))) = .ok l ∧
      SibAsc h l ∧ ∀ z, z ∈ l ↔ h.isElem z = true ∧ cmpdSat h r env ss z ∧
        (if e.2 then z ∈ h.kids e.1 else Sib h r e.1 z) := by
    intro e he
    obtain ⟨p, hpw, hent, _⟩ := hentry e he
    rw [findSel_cmpd hok1.1]
    rcases hent.cases with ⟨rfl, x, hx, hpx⟩ | ⟨x, hx, rfl, hp, _⟩
    · have hN : Nodes h r [p] := by
        intro y hy
        rw [List.mem_singleton] at hy
        subst hy
        refine ⟨hpw, ?_⟩
        by_cases hr : y = r
        · exact Or.inr hr
        · obtain ⟨_, hk⟩ := parent_some wf (hX.within x hx) hpx
          exact Or.inl (elem_of_kid wf hpw (List.mem_of_getElem? hk) hr)
      obtain ⟨cs, h1, h2, h3, h4⟩ := nav_step wf ev (c := .children) (by simp) (by simp) (q := .doc) hok1 hN trivial
        (by
          intro cs hcs
          simp only [cands, List.flatMap_cons, List.flatMap_nil, List.append_nil, Except.ok.injEq] at hcs
          subst hcs
          exact ⟨children_docSorted hpw, children_sibAsc wf hpw⟩)
      refine ⟨_, h4, ?_, ?_⟩
      · simp only [cands, List.flatMap_cons, List.flatMap_nil, List.append_nil, Except.ok.injEq] at h1
        subst h1
        exact Spec.SibAsc.sublist (children_sibAsc wf hpw) List.filter_sublist
      · intro z
        rw [List.mem_filter, h3, decide_eq_true_eq]
        simp only [List.mem_singleton, exists_eq_left, Rel, if_true]
        tauto
    · have hxw := hX.within x hx
      have hN : Nodes h r [x] := by
        intro y hy
        rw [List.mem_singleton] at hy
        subst hy
        exact hX y hx
      obtain ⟨cs, h1, h2, h3, h4⟩ := nav_step wf ev (c := .siblings) (by simp) (by simp) (q := .doc) hok2 hN ⟨x, rfl⟩
        (fun cs hcs => siblings_cands wf hxw hcs)
      refine ⟨_, h4, Spec.SibAsc.sublist (siblings_cands wf hxw h1).2 List.filter_sublist, ?_⟩
      intro z
      rw [List.mem_filter, h3, decide_eq_true_eq]
      simp only [List.mem_singleton, exists_eq_left, Rel, Bool.false_eq_true, if_false]
      tauto
  choose! G hG1 hG2 hG3 using hone
  have hflat : flatMapR (fun e => findSelector h [e.1] ((findSel h env (cmpdSel ss)).map (headComb (if e.2 then .children else .siblings)))) kept
      = .ok (kept.flatMap G) := flatMapR_ok hG1
  have hGp : ∀ e ∈ kept, ∀ z ∈ G e, h.parent z = (if e.2 then some e.1 else h.parent e.1) ∧ Within h r z := by
    intro e he z hz
    obtain ⟨p, hpw, _, hp⟩ := hentry e he
    rw [hp]
    obtain ⟨_, _, hr⟩ := (hG3 e he z).1 hz
    cases hb : e.2 with
    | true =>
      rw [hb] at hr hp
      cases hp
      exact ⟨parent_of_child wf hpw hr, .step hpw hr⟩
    | false =>
      rw [hb] at hr hp
      simp only [Bool.false_eq_true, if_false] at hr hp
      obtain ⟨q, hq, k1, k2, _⟩ := hr
      rw [parent_of_child wf hq k1] at hp
      cases hp
      exact ⟨parent_of_child wf hq k2, .step hq k2⟩
  have hnod : (kept.flatMap G).Nodup := by
    rw [List.nodup_flatMap]
    refine ⟨fun e he => (hG2 e he).nodup, ?_⟩
    have := List.pairwise_map.1 hpn
    refine List.Pairwise.imp_of_mem ?_ this
    intro a b ha hb hab z hza hzb
    exact hab ((hGp a ha z hza).1.symm.trans (hGp b hb z hzb).1)
  have hwith : ∀ z ∈ kept.flatMap G, Within h r z := by
    intro z hz
    obtain ⟨e, he, hz⟩ := List.mem_flatMap.1 hz
    exact (hGp e he z hz).2
  have hperm := sortElems_perm h (kept.flatMap G)
  refine ⟨sortElems h (kept.flatMap G), ?_, ?_, ?_⟩
  · unfold siblingsSel
    simp only []
    rw [← hkept, hflat]
    rfl
  · refine List.Pairwise.imp ?_ ((sortElems_sorted wf hwith).and (hperm.nodup_iff.2 hnod))
    rintro a b ⟨h1, h2⟩
    exact h1.resolve_left h2
  · intro z
    rw [hperm.mem_iff, List.mem_flatMap]
    constructor
    · rintro ⟨e, he, hz⟩
      obtain ⟨h1, h2, h3⟩ := (hG3 e he z).1 hz
      obtain ⟨p, hpw, hent, _⟩ := hentry e he
      refine ⟨h1, h2, ?_⟩
      rcases hent with ⟨rfl, hlen⟩ | ⟨x, rfl, hx⟩
      · simp only [if_true] at h3
        have k : ∀ w ∈ X, h.parent w = some p → w ∈ h.kids p := fun w hw hp =>
          List.mem_of_getElem? (parent_some wf (hX.within w hw) hp).2
        by_cases hex : ∃ y ∈ X, h.parent y = some p ∧ y ≠ z
        · obtain ⟨y, hy, hp, hne⟩ := hex
          exact Or.inl ⟨y, hy, p, hpw, k y hy hp, h3, hne⟩
        · right
          have hpz := parent_of_child wf hpw h3
          refine ⟨?_, by rw [hpz]; simp⟩
          have : X.filter (fun y => h.parent y == some p) = X.filter (fun y => y == z) := by
            refine List.filter_congr fun y hy => ?_
            rw [Bool.eq_iff_iff, beq_iff_eq, beq_iff_eq]
            constructor
            · intro hp
              by_contra hne
              exact hex ⟨y, hy, hp, hne⟩
            · rintro rfl; exact hpz
          rw [this] at hlen
          rwa [List.count, List.countP_eq_length_filter]
      · have : x ∈ X := by
          have hm : x ∈ X.filter (fun y => h.parent y == some p) := by rw [hx]; simp
          exact (List.mem_filter.1 hm).1
        exact Or.inl ⟨x, this, by simpa using h3⟩
    · rintro ⟨h1, h2, ⟨y, hy, p, hpw, hyk, hzk, hyz⟩ | ⟨hcnt, hpz⟩⟩
      · obtain ⟨e, he, hent⟩ := hcover y hy p (parent_of_child wf hpw hyk)
        refine ⟨e, he, (hG3 e he z).2 ⟨h1, h2, ?_⟩⟩
        rcases hent.cases with ⟨rfl, _⟩ | ⟨x, hx, rfl, _, hall⟩
        · simpa using hzk
        · have := hall y hy (parent_of_child wf hpw hyk)
          subst this
          simp only [Bool.false_eq_true, if_false]
          exact ⟨p, hpw, hyk, hzk, hyz⟩
      · obtain ⟨p, hp⟩ := Option.ne_none_iff_exists'.1 hpz
        have hzX : z ∈ X := List.count_pos_iff.1 (by omega)
        obtain ⟨hpw, hk⟩ := parent_some wf (hX.within z hzX) hp
        obtain ⟨e, he, hent⟩ := hcover z hzX p hp
        refine ⟨e, he, (hG3 e he z).2 ⟨h1, h2, ?_⟩⟩
        rcases hent with ⟨rfl, _⟩ | ⟨x, rfl, hx⟩
        · simpa using List.mem_of_getElem? hk
        · exfalso
          have hle : X.count z ≤ (X.filter fun y => h.parent y == some p).length := by
            rw [List.count, List.countP_eq_length_filter]
            refine List.Sublist.length_le (List.monotone_filter_right X fun y hy => ?_)
            rw [beq_iff_eq] at hy ⊢
            rw [hy]; exact hp
          rw [hx] at hle
          simp at hle
          omega

end Visdom
