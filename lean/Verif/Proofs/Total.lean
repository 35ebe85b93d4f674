import Verif.Proofs.Select
/-!
# Where the engine answers
-/
namespace Visdom
open Spec

variable {h : Heap} {r : Nat} {Q : List Nat → Prop} {m : Matcher} {c : Comb} {P : Nat → Bool}

theorem filterR_answers {g : Nat → R Bool} (hA : Answers h r Q m c) (hg : m.one = some g) {l : List Nat}
    (hl : Elems h r l) : ∃ res, filterR g l = .ok res :=
  filterR_total fun x hx => hA.one g hg x (hl x hx).1 (hl x hx).2

theorem getAll_answers (hA : Answers h r Q m c) (h1 : c ≠ .childrenAll) (h2 : c ≠ .children) (hone : m.one = none)
    {l : List Nat} (hl : Elems h r l) (hQ : Q l) : ∃ res, m.getAll l none = .ok res := by
  unfold Matcher.getAll
  rcases hA.handle with hh | hh
  · rw [hone] at hh; cases hh
  · cases hall : m.all with
    | none => rw [hall] at hh; cases hh
    | some f => exact hA.all h1 h2 f hall l hl hQ

theorem apply_answers (hA : Answers h r Q m c) (h1 : c ≠ .childrenAll) (h2 : c ≠ .children) {l : List Nat}
    (hl : Elems h r l) (hQ : Q l) : ∃ res, m.apply l none = .ok res := by
  unfold Matcher.apply
  cases hall : m.all with
  | some f => exact hA.all h1 h2 f hall l hl hQ
  | none =>
    cases hone : m.one with
    | some g => exact filterR_answers hA hone hl
    | none =>
      rcases hA.handle with hh | hh
      · rw [hone] at hh; cases hh
      · rw [hall] at hh; cases hh

section
variable (wf : TreeWF h r)
include wf

theorem dfsOne_answers {g : Nat → R Bool} (hA : Answers h r Q m c) (hg : m.one = some g) {n x : Nat} {π : List Nat}
    (hx : At h r π x) (hn : h.size < π.length + n) : ∃ res, dfsOne h g n x = .ok res := by
  induction n generalizing x π with
  | zero => have := path_length wf hx; omega
  | succ n ih =>
    simp only [dfsOne]
    refine flatMapR_total fun c hc => ?_
    obtain ⟨hcw, hce⟩ := children_elems hx.within c hc
    obtain ⟨b, hb⟩ := hA.one g hg c hcw hce
    obtain ⟨i, hi⟩ := List.getElem?_of_mem (mem_children.1 hc).1
    obtain ⟨y, hy⟩ := ih (.step hx hi) (by simp; omega)
    simp only [hb]
    split
    · rename_i e he; split at he
      · rw [hy] at he; cases he
      · cases he
    · exact ⟨_, rfl⟩

theorem dfsSpec_answers {s : Nat → R (List (Nat × Bool × Bool))} (hA : Answers h r Q m .childrenAll)
    (hD : Decides h r Q m .childrenAll P)
    (hone : m.one = none) (hs : m.spec = some s) {n x : Nat} {π : List Nat}
    (hx : At h r π x) (hn : h.size < π.length + n) : ∃ res, dfsSpec h s n x = .ok res := by
  induction n generalizing x π with
  | zero => have := path_length wf hx; omega
  | succ n ih =>
    simp only [dfsSpec]
    obtain ⟨l, hl⟩ := hA.spec (Or.inl rfl) hone s hs x hx.within
    simp only [hl]
    refine flatMapR_total fun c hc => ?_
    have hck : c.1 ∈ h.children x := by
      rcases hD.spec hone s hs x l hx.within hl with rfl | ⟨rfl, _⟩
      · obtain ⟨a, ha, rfl⟩ := List.mem_map.1 hc; exact ha
      · cases hc
    obtain ⟨i, hi⟩ := List.getElem?_of_mem (mem_children.1 hck).1
    obtain ⟨y, hy⟩ := ih (.step hx hi) (by simp; omega)
    split
    · rename_i e he; split at he
      · rw [hy] at he; cases he
      · cases he
    · exact ⟨_, rfl⟩

theorem dfsAll_answers {f : List Nat → Option Bool → R (List Nat)} (hA : Answers h r Q m .childrenAll)
    (hc : m.inCache = false) (hone : m.one = none) (hspec : m.spec = none) (hf : m.all = some f) {n x : Nat}
    {π : List Nat} (hx : At h r π x) (hn : h.size < π.length + n) : ∃ res, dfsAll h f n x = .ok res := by
  induction n generalizing x π with
  | zero => have := path_length wf hx; omega
  | succ n ih =>
    simp only [dfsAll]
    split
    · exact ⟨_, rfl⟩
    · rename_i he
      obtain ⟨mt, hm⟩ := hA.child (Or.inl ⟨rfl, hc⟩) hone hspec f hf x hx.within (fun _ => by simpa using he)
      simp only [hm]
      refine flatMapR_total fun c hc => ?_
      have hck : c.1 ∈ h.children x := by
        have : ∀ (l ms : List Nat), ∀ c ∈ markMatched l ms, c.1 ∈ l := by
          intro l
          induction l with
          | nil => intro ms c hc; cases ms <;> cases hc
          | cons a l ih =>
            intro ms c hc
            cases ms with
            | nil =>
              simp only [markMatched, List.mem_cons] at hc
              rcases hc with rfl | hc
              · simp
              · exact List.mem_cons_of_mem _ (ih _ _ hc)
            | cons m ms =>
              simp only [markMatched] at hc
              split at hc <;> simp only [List.mem_cons] at hc <;> rcases hc with rfl | hc
              · simp
              · exact List.mem_cons_of_mem _ (ih _ _ hc)
              · simp
              · exact List.mem_cons_of_mem _ (ih _ _ hc)
        exact this _ _ c hc
      obtain ⟨i, hi⟩ := List.getElem?_of_mem (mem_children.1 hck).1
      obtain ⟨y, hy⟩ := ih (.step hx hi) (by simp; omega)
      split
      · rename_i e he; split at he
        · rw [hy] at he; cases he
        · cases he
      · exact ⟨_, rfl⟩

theorem overTops_total {exec k : Nat → R (List Nat)} {l cs : List Nat} (hl : ∀ x ∈ l, Within h r x)
    (hk : overTops h k l = .ok cs) (hf : ∀ x, Within h r x → ∃ y, exec x = .ok y) :
    ∃ res, overTops h exec l = .ok res := by
  unfold overTops at hk ⊢
  split at hk
  · rename_i hlen
    rw [if_pos hlen]
    split at hk
    · cases hk
    · rename_i u hu
      exact flatMapR_total fun x hx => hf x (hl x ((uniqueParents_cover wf hl hu).1 x hx))
  · rename_i hlen
    rw [if_neg hlen]
    exact flatMapR_total fun x hx => hf x (hl x hx)

theorem dfs_path {x : Nat} (hx : Within h r x) : ∃ π, At h r π x ∧ h.size < π.length + h.fuel := by
  obtain ⟨π, hπ⟩ := hx.path
  exact ⟨π, hπ, by unfold Heap.fuel; omega⟩

/-- A rule answers when its candidates can be listed and its matcher answers. -/
theorem selectByRule_answers (hA : Answers h r Q m c) (hD : Decides h r Q m c P)
    (hQ : ∀ l, Elems h r l → DocSorted h r l → Q l) {l cs : List Nat}
    (hl : ∀ x ∈ l, Within h r x) (hchain : c = .chain → Elems h r l)
    (hcs : cands h c l = .ok cs) (hcQ : c = .chain ∨ c = .next ∨ c = .prev ∨ c = .parent → Q cs)
    (hcache : c = .childrenAll → m.inCache = false) : ∃ res, selectByRule h l m c = .ok res := by
  have noH : m.one = none → m.all = none → False := by
    intro h1 h2
    rcases hA.handle with hh | hh
    · rw [h1] at hh; cases hh
    · rw [h2] at hh; cases hh
  cases c with
  | childrenAll =>
    simp only [cands] at hcs
    simp only [selectByRule]
    cases hone : m.one with
    | some g =>
      exact overTops_total wf hl hcs fun x hx => by
        obtain ⟨π, hπ, hn⟩ := dfs_path wf hx
        exact dfsOne_answers wf hA hone hπ hn
    | none =>
      cases hspec : m.spec with
      | some s =>
        exact overTops_total wf hl hcs fun x hx => by
          obtain ⟨π, hπ, hn⟩ := dfs_path wf hx
          exact dfsSpec_answers wf hA hD hone hspec hπ hn
      | none =>
        cases hall : m.all with
        | some f =>
          exact overTops_total wf hl hcs fun x hx => by
            obtain ⟨π, hπ, hn⟩ := dfs_path wf hx
            exact dfsAll_answers wf hA (hcache rfl) hone hspec hall hπ hn
        | none => exact (noH hone hall).elim
  | children =>
    simp only [selectByRule]
    cases hone : m.one with
    | some g => exact flatMapR_total fun x hx => filterR_answers hA hone (children_elems (hl x hx))
    | none =>
      cases hspec : m.spec with
      | some s =>
        refine flatMapR_total fun x hx => ?_
        obtain ⟨w, hw⟩ := hA.spec (Or.inr rfl) hone s hspec x (hl x hx)
        rw [hw]; exact ⟨_, rfl⟩
      | none =>
        cases hall : m.all with
        | some f =>
          exact flatMapR_total fun x hx => hA.child (Or.inr rfl) hone hspec f hall x (hl x hx) (by simp)
        | none => exact (noH hone hall).elim
  | parent =>
    simp only [cands, Except.ok.injEq] at hcs
    simp only [selectByRule]
    have hel : Elems h r (parentsOf h (uniqueSiblingFirst h l)) :=
      parentsOf_elems wf fun x hx => hl x (uniqueFirst_sub wf hl x hx)
    cases hone : m.one with
    | some g => exact filterR_answers hA hone hel
    | none => exact getAll_answers hA (by simp) (by simp) hone hel (by rw [hcs]; exact hcQ (by simp))
  | parentAll =>
    simp only [cands] at hcs
    simp only [selectByRule]
    cases hall : flatMapR (ancestorsFuel h h.fuel) l with
    | error e => rw [hall] at hcs; cases hcs
    | ok all =>
      simp only []
      have hel : Elems h r all := by
        intro e he
        obtain ⟨a, ha, y, hy, hey⟩ := ((flatMapR_mem hall).2 e).1 he
        obtain ⟨l', hl', hm⟩ := ancestors_ok wf (hl a ha)
        rw [hl'] at hy; cases hy
        obtain ⟨h1, _, h3⟩ := (hm e).1 hey
        exact ⟨h1, h3⟩
      have hw : ∀ x ∈ all, Within h r x := fun x hx => (hel x hx).1
      cases hone : m.one with
      | some g =>
        obtain ⟨w, hf⟩ := filterR_answers hA hone hel
        simp only [hf]; exact ⟨_, rfl⟩
      | none =>
        obtain ⟨s1, _, s3⟩ := C14_sort_and_unique wf hw
        have hel' : Elems h r (sortAndUnique h all) := fun x hx => hel x ((s3 x).1 hx)
        exact getAll_answers hA (by simp) (by simp) hone hel'
          (hQ _ hel' s1)
  | nextAll =>
    simp only [selectByRule]
    refine flatMapR_total fun x hx => ?_
    have hxw := hl x (uniqueFirst_sub wf hl x hx)
    obtain ⟨ns, h1, h2, h3⟩ := nextElems_ok wf hxw
    rw [h1]
    have hel : Elems h r ns := fun e he => ⟨(laterSib_within ((h2 e).1 he).1).2, ((h2 e).1 he).2⟩
    refine apply_answers hA (by simp) (by simp) hel (hQ _ hel ?_)
    rcases h3 with rfl | ⟨p, hp, _, hs⟩
    · exact .nil
    · exact sublist_kids_docSorted hp hs
  | next =>
    simp only [cands, Except.ok.injEq] at hcs
    simp only [selectByRule]
    have hel : Elems h r (l.filterMap h.nextElem) := by
      intro e he
      obtain ⟨x, hx, hxe⟩ := List.mem_filterMap.1 he
      obtain ⟨h1, h2⟩ := (mem_nextElem wf (hl x hx)).1 hxe
      exact ⟨(laterSib_within (nextSib_later h1)).2, h2⟩
    cases hone : m.one with
    | some g => exact filterR_answers hA hone hel
    | none => exact apply_answers hA (by simp) (by simp) hel (by rw [hcs]; exact hcQ (by simp))
  | prevAll =>
    simp only [selectByRule]
    refine flatMapR_total fun x hx => ?_
    have hxw := hl x (uniqueLast_sub wf hl x hx)
    obtain ⟨ns, h1, h2, h3⟩ := prevElems_ok wf hxw
    rw [h1]
    have hel : Elems h r ns := fun e he => ⟨(laterSib_within ((h2 e).1 he).1).1, ((h2 e).1 he).2⟩
    refine apply_answers hA (by simp) (by simp) hel (hQ _ hel ?_)
    rcases h3 with rfl | ⟨p, hp, _, hs⟩
    · exact .nil
    · exact sublist_kids_docSorted hp hs
  | prev =>
    simp only [cands] at hcs
    simp only [selectByRule, hcs]
    have hel : Elems h r cs := by
      intro e he
      obtain ⟨a, ha, y, hy, hey⟩ := ((flatMapR_mem hcs).2 e).1 he
      obtain ⟨o, ho, hm⟩ := prevElem_ok wf (hl a ha)
      rw [ho] at hy
      simp only [Except.map, Except.ok.injEq] at hy
      subst hy
      have : o = some e := by simpa using hey
      obtain ⟨h1, h2⟩ := (hm e).1 this
      exact ⟨(laterSib_within (nextSib_later h1)).1, h2⟩
    cases hone : m.one with
    | some g => exact filterR_answers hA hone hel
    | none => exact apply_answers hA (by simp) (by simp) hel (hcQ (by simp))
  | siblings =>
    simp only [selectByRule]
    refine flatMapR_total fun e he => ?_
    rcases uniqueAll_sub e he with ⟨h2, h1⟩ | ⟨h2, x, hx, hpar⟩
    · obtain ⟨l', k1, k2, k3⟩ := siblings_ok wf (hl _ h1)
      rw [h2]
      simp only [Bool.false_eq_true, if_false, k1]
      have hel : Elems h r l' := by
        intro a ha
        obtain ⟨⟨p, hp, _, hk, _⟩, hae⟩ := (k2 a).1 ha
        exact ⟨.step hp hk, hae⟩
      refine apply_answers hA (by simp) (by simp) hel (hQ _ hel ?_)
      rcases k3 with rfl | ⟨p, hp, _, hs⟩
      · exact .nil
      · exact sublist_kids_docSorted hp hs
    · have hw := (parent_some wf (hl x hx) hpar).1
      rw [h2]
      simp only [if_true]
      exact apply_answers hA (by simp) (by simp) (children_elems hw) (hQ _ (children_elems hw) (children_docSorted hw))
  | chain =>
    simp only [cands, Except.ok.injEq] at hcs
    simp only [selectByRule]
    exact apply_answers hA (by simp) (by simp) (hchain rfl) (by rw [hcs]; exact hcQ (by simp))

theorem selectRest_answers (hQ : ∀ l, Elems h r l → DocSorted h r l → Q l)
    (hQf : ∀ l P, Q l → Q (l.filter P)) {ss : List Seg} {Ps : List (Nat → Bool)}
    (hD : List.Forall₂ (fun s p => s.2 = Comb.chain ∧ Decides h r Q s.1 .chain p) ss Ps)
    (hA : ∀ t ∈ ss, Answers h r Q t.1 .chain) {l : List Nat}
    (hl : Elems h r l) (hq : Q l) : ∃ res, selectRest h l ss = .ok res := by
  induction hD generalizing l with
  | nil => exact ⟨l, rfl⟩
  | @cons s p ss Ps hs _ ih =>
    simp only [selectRest]
    split
    · exact ⟨_, rfl⟩
    · obtain ⟨l', hl'⟩ := selectByRule_answers wf (hA s (by simp)) hs.2 hQ (fun x hx => (hl x hx).1) (fun _ => hl)
        (cs := l) rfl (fun _ => hq) (by simp)
      rw [hs.1, hl']
      simp only []
      obtain ⟨cs, h1, h2⟩ := selectByRule_decides wf hs.2 hQ (fun x hx => (hl x hx).1) (fun _ => hl)
          (fun _ cs hcs => by simp only [cands, Except.ok.injEq] at hcs; subst hcs; exact hq) (by simp) hl'
      simp only [cands, Except.ok.injEq] at h1
      subst h1
      rw [h2]
      exact ih (fun t ht => hA t (List.mem_cons_of_mem _ ht)) (fun x hx => hl x (List.mem_filter.1 hx).1) (hQf _ _ hq)

/-- A compound answers when the candidates of its first rule can be listed. -/
theorem select_answers (hQ : ∀ l, Elems h r l → DocSorted h r l → Q l)
    (hQf : ∀ l P, Q l → Q (l.filter P)) {rules : Cmpd} (hA : AnswersCmpd h r Q c rules)
    (hD : DecidesCmpd h r Q c rules P) {l : List Nat} {oc : Option Comb}
    (hoc : oc = some c ∨ (oc = none ∧ HeadIs c rules)) (hl : Nodes h r l) (hne : l ≠ [])
    (hchain : c = .chain → Elems h r l) (hsib : c = .siblings → ∃ x, l = [x]) (hcs : ∃ cs, cands h c l = .ok cs ∧ Q cs) :
    ∃ res, select h l rules oc = .ok res := by
  obtain ⟨s, ss, P0, Ps, rfl, hD0, hDs, hP⟩ := hD
  obtain ⟨s', ss', he, hA0, hAs⟩ := hA
  simp only [List.cons.injEq] at he
  obtain ⟨rfl, rfl⟩ := he
  obtain ⟨cs, hcs, hcQ⟩ := hcs
  have hcomb : oc.getD s.2 = c := by
    rcases hoc with rfl | ⟨rfl, m, ss', he⟩
    · rfl
    · simp only [List.cons.injEq] at he
      rw [he.1]; rfl
  have hw := hl.within
  simp only [select, hcomb]
  unfold selectFirst
  by_cases hcase : (s.1.inCache && c == .childrenAll) = true
  · rw [if_pos hcase]
    simp only [Bool.and_eq_true, beq_iff_eq] at hcase
    obtain ⟨hca, rfl⟩ := hcase
    obtain ⟨cached, hcached⟩ := hA0.cache rfl hca l hne hw
    have hcm := hD0.cache rfl hca l cached hne hw hcached
    obtain ⟨w, hf⟩ : ∃ w, filterR (fun x => hasEle0 h l x .childrenAll) cached = .ok w := by
      refine filterR_total fun x hx => ?_
      obtain ⟨b, hb, _⟩ := hasRelated_ok wf (d := .childrenAll) rfl hl
        (l := [x]) (by intro y hy; simp at hy; subst hy; exact ((hcm _).1 hx).1)
      exact ⟨b, hb⟩
    rw [hcached]
    simp only [hf, Except.map]
    have hww : Elems h r w := by
      intro x hx
      have := (hcm x).1 (((filterR_mem hf x).1 hx).1)
      exact ⟨this.1, this.2.1⟩
    obtain ⟨s1, _, s3⟩ := C14_sort_and_unique wf (fun x hx => (hww x hx).1)
    have hel : Elems h r (sortAndUnique h w) := fun x hx => hww x ((s3 x).1 hx)
    exact selectRest_answers wf hQ hQf hDs hAs hel
      (hQ _ hel s1)
  · rw [if_neg hcase]
    have hcache : c = .childrenAll → s.1.inCache = false := by
      rintro rfl
      cases hic : s.1.inCache with
      | false => rfl
      | true => exact absurd (by simp [hic]) hcase
    obtain ⟨l', hl'⟩ := selectByRule_answers wf hA0 hD0 hQ hw hchain hcs (fun _ => hcQ) hcache
    rw [hl']
    obtain ⟨cs', h1, h2⟩ := selectByRule_decides wf hD0 hQ hw hchain
      (fun _ cs' hcs' => by rw [hcs] at hcs'; cases hcs'; exact hcQ) hcache hl'
    rw [hcs] at h1; cases h1
    have hel := cands_elems wf hl hchain hsib hcs
    rw [h2]
    exact selectRest_answers wf hQ hQf hDs hAs (fun x hx => hel x (List.mem_filter.1 hx).1) (hQf _ _ hcQ)

end
end Visdom
