import Verif.Proofs.PosType
/-!
# Names that occur once; grouping of siblings
-/
namespace Visdom
open Spec
variable {h : Heap} {r : Nat}

/-- How often a name occurs. -/
def tagCount (h : Heap) (t : List Char) (l : List Nat) : Nat := l.countP fun y => tagName h y == t

structure OnlyInv (h : Heap) (pre : List Nat) (only : Names) (rep : List (List Char)) : Prop where
  once : ∀ t i, (t, i) ∈ only ↔ (∃ x, pre[i]? = some x ∧ tagName h x = t) ∧ tagCount h t pre = 1
  sorted : only.Pairwise fun a b => a.2 < b.2
  rep : ∀ t, t ∈ rep ↔ 2 ≤ tagCount h t pre

theorem tagCount_snoc (t : List Char) (pre : List Nat) (c : Nat) :
    tagCount h t (pre ++ [c]) = tagCount h t pre + if tagName h c = t then 1 else 0 := by
  simp [tagCount, List.countP_append, List.countP_cons]

theorem tagCount_pos {t : List Char} {l : List Nat} {i x : Nat} (hi : l[i]? = some x) (ht : tagName h x = t) :
    1 ≤ tagCount h t l := by
  unfold tagCount
  rw [Nat.succ_le_iff, List.countP_pos_iff]
  exact ⟨x, List.mem_of_getElem? hi, by simp [ht]⟩

theorem getElem?_snoc {pre : List Nat} {c x i : Nat} : (pre ++ [c])[i]? = some x ↔ pre[i]? = some x ∨ (i = pre.length ∧ x = c) := by
  rcases Nat.lt_trichotomy i pre.length with h1 | h1 | h1
  · rw [List.getElem?_append_left h1]
    constructor
    · exact Or.inl
    · rintro (h2 | ⟨h2, _⟩)
      · exact h2
      · omega
  · subst h1
    simp [eq_comm]
  · rw [List.getElem?_eq_none (by simp; omega), List.getElem?_eq_none (by omega)]
    constructor
    · intro h2; cases h2
    · rintro (h2 | ⟨h2, _⟩)
      · cases h2
      · omega

theorem onlyInv_step {pre : List Nat} {only : Names} {rep : List (List Char)} {c : Nat} (hi : OnlyInv h pre only rep) :
    (rep.contains (tagName h c) = true → OnlyInv h (pre ++ [c]) only rep) ∧
    (rep.contains (tagName h c) = false → ∀ k, only.findIdx? (fun e => e.1 == tagName h c) = some k →
      OnlyInv h (pre ++ [c]) (only.eraseIdx k) (rep ++ [tagName h c])) ∧
    (rep.contains (tagName h c) = false → only.findIdx? (fun e => e.1 == tagName h c) = none →
      OnlyInv h (pre ++ [c]) (only ++ [(tagName h c, pre.length)]) rep) := by
  refine ⟨?_, ?_, ?_⟩
  · intro hc
    have h2 := (hi.rep _).1 (by simpa using hc)
    refine ⟨?_, hi.sorted, ?_⟩
    · intro t i
      rw [hi.once, tagCount_snoc]
      by_cases ht : tagName h c = t
      · subst ht
        simp only [if_true]
        constructor <;> rintro ⟨_, _⟩ <;> omega
      · simp only [if_neg ht, Nat.add_zero]
        refine and_congr_left fun _ => exists_congr fun x => ?_
        rw [getElem?_snoc]
        constructor
        · rintro ⟨a, b⟩; exact ⟨Or.inl a, b⟩
        · rintro ⟨a | ⟨_, rfl⟩, b⟩
          · exact ⟨a, b⟩
          · exact absurd b ht
    · intro t
      rw [hi.rep, tagCount_snoc]
      by_cases ht : tagName h c = t
      · subst ht; simp only [if_true]; omega
      · simp [ht]
  · intro hc k hk
    obtain ⟨hklt, hke, _⟩ := List.findIdx?_eq_some_iff_getElem.1 hk
    have hkt : only[k].1 = tagName h c := by simpa using hke
    have hmem := List.getElem_mem hklt
    have honce := (hi.once only[k].1 only[k].2).1 (by simpa using hmem)
    have huniq : ∀ (i : Nat), (tagName h c, i) ∈ only → i = only[k].2 := by
      intro i hmi
      obtain ⟨⟨x, hx, hxt⟩, hcnt⟩ := (hi.once _ i).1 hmi
      obtain ⟨⟨y, hy, hyt⟩, _⟩ := honce
      by_contra hne
      -- two positions with the same name
      have : 2 ≤ tagCount h (tagName h c) pre := by
        have key : ∀ {a b u v : Nat}, a < b → pre[a]? = some u → pre[b]? = some v → tagName h u = tagName h c →
            tagName h v = tagName h c → 2 ≤ tagCount h (tagName h c) pre := by
          intro a b u v hab hu hv hut hvt
          have hsplit : pre = pre.take b ++ pre.drop b := (List.take_append_drop b pre).symm
          have h1 : 1 ≤ tagCount h (tagName h c) (pre.take b) :=
            tagCount_pos (i := a) (x := u) (by rw [List.getElem?_take_of_lt hab]; exact hu) hut
          have h2 : 1 ≤ tagCount h (tagName h c) (pre.drop b) :=
            tagCount_pos (i := 0) (x := v) (by rw [List.getElem?_drop]; exact hv) hvt
          rw [hsplit]
          unfold tagCount at *
          rw [List.countP_append]; omega
        rcases Nat.lt_or_gt_of_ne hne with h1 | h1
        · exact key h1 hx hy hxt (by rw [hyt, hkt])
        · exact key h1 hy hx (by rw [hyt, hkt]) hxt
      omega
    have hkcnt : tagCount h (tagName h c) pre = 1 := by rw [← hkt]; exact honce.2
    refine ⟨?_, hi.sorted.sublist (List.eraseIdx_sublist _ _), ?_⟩
    · intro t i
      rw [List.mem_eraseIdx_iff_getElem?, tagCount_snoc]
      by_cases ht : tagName h c = t
      · subst ht
        simp only [if_true]
        constructor
        · rintro ⟨j, hj, hje⟩
          have hm := List.mem_of_getElem? hje
          have hu := huniq i hm
          exfalso
          obtain ⟨hjl, hje'⟩ := List.getElem?_eq_some_iff.1 hje
          rcases Nat.lt_or_gt_of_ne hj with h1 | h1
          · have hlt := List.pairwise_iff_getElem.1 hi.sorted j k hjl hklt h1
            rw [hje'] at hlt
            exact absurd hu (Nat.ne_of_lt hlt)
          · have hlt := List.pairwise_iff_getElem.1 hi.sorted k j hklt hjl h1
            rw [hje'] at hlt
            exact absurd hu (Nat.ne_of_gt hlt)
        · rintro ⟨_, h2⟩; omega
      · simp only [if_neg ht, Nat.add_zero]
        have hmem' : (∃ j, j ≠ k ∧ only[j]? = some (t, i)) ↔ (t, i) ∈ only := by
          constructor
          · rintro ⟨j, _, hj⟩; exact List.mem_of_getElem? hj
          · intro hm
            obtain ⟨j, hj⟩ := List.getElem?_of_mem hm
            refine ⟨j, ?_, hj⟩
            rintro rfl
            rw [List.getElem?_eq_getElem hklt] at hj
            simp only [Option.some.injEq] at hj
            rw [hj] at hkt
            exact ht hkt.symm
        rw [hmem', hi.once]
        refine and_congr_left fun _ => exists_congr fun x => ?_
        rw [getElem?_snoc]
        constructor
        · rintro ⟨a, b⟩; exact ⟨Or.inl a, b⟩
        · rintro ⟨a | ⟨_, rfl⟩, b⟩
          · exact ⟨a, b⟩
          · exact absurd b ht
    · intro t
      rw [List.mem_append, hi.rep, tagCount_snoc, List.mem_singleton]
      by_cases ht : tagName h c = t
      · subst ht
        simp only [if_true, hkcnt]
        simp
      · simp [ht, Ne.symm ht]
  · intro hc hk
    have hno : ∀ i, (tagName h c, i) ∉ only := by
      intro i hm
      have := List.findIdx?_eq_none_iff.1 hk _ hm
      simp at this
    have h2 : ¬ 2 ≤ tagCount h (tagName h c) pre := fun h' => by
      have := (hi.rep _).2 h'
      simp at hc; exact hc this
    have h0 : tagCount h (tagName h c) pre = 0 := by
      by_contra hne
      have h1 : tagCount h (tagName h c) pre = 1 := by omega
      have : 0 < tagCount h (tagName h c) pre := by omega
      unfold tagCount at this
      rw [List.countP_pos_iff] at this
      obtain ⟨x, hx, hxt⟩ := this
      obtain ⟨i, hxi⟩ := List.getElem?_of_mem hx
      exact hno i ((hi.once _ i).2 ⟨⟨x, hxi, by simpa using hxt⟩, h1⟩)
    have hnone : ∀ (i x : Nat), pre[i]? = some x → tagName h x ≠ tagName h c := by
      intro i x hx ht
      have := tagCount_pos hx ht
      omega
    refine ⟨?_, ?_, ?_⟩
    · intro t i
      rw [List.mem_append, List.mem_singleton, hi.once, tagCount_snoc]
      by_cases ht : tagName h c = t
      · subst ht
        simp only [if_true, h0]
        constructor
        · rintro (⟨_, h'⟩ | h')
          · omega
          · simp only [Prod.mk.injEq, true_and] at h'
            exact ⟨⟨c, getElem?_snoc.2 (Or.inr ⟨h', rfl⟩), rfl⟩, by trivial⟩
        · rintro ⟨⟨x, hx, hxt⟩, _⟩
          right
          rcases getElem?_snoc.1 hx with h' | ⟨h', _⟩
          · exact absurd hxt (hnone i x h')
          · rw [h']
      · simp only [if_neg ht, Nat.add_zero, Prod.mk.injEq, Ne.symm ht, false_and, or_false]
        refine and_congr_left fun _ => exists_congr fun x => ?_
        rw [getElem?_snoc]
        constructor
        · rintro ⟨a, b⟩; exact ⟨Or.inl a, b⟩
        · rintro ⟨a | ⟨_, rfl⟩, b⟩
          · exact ⟨a, b⟩
          · exact absurd b ht
    · rw [List.pairwise_append]
      refine ⟨hi.sorted, List.pairwise_singleton _ _, ?_⟩
      intro a ha b hb
      rw [List.mem_singleton] at hb
      subst hb
      obtain ⟨⟨x, hx, _⟩, _⟩ := (hi.once a.1 a.2).1 (by simpa using ha)
      exact (List.getElem?_eq_some_iff.1 hx).1
    · intro t
      rw [hi.rep, tagCount_snoc]
      by_cases ht : tagName h c = t
      · subst ht; simp only [if_true]; omega
      · simp [ht]

theorem onlyNames_spec {cs pre : List Nat} {only : Names} {rep : List (List Char)} (hi : OnlyInv h pre only rep) :
    ∃ rep', OnlyInv h (pre ++ cs) (onlyNames h cs pre.length only rep) rep' := by
  induction cs generalizing pre only rep with
  | nil => exact ⟨rep, by simpa [onlyNames] using hi⟩
  | cons c cs ih =>
    simp only [onlyNames]
    obtain ⟨s1, s2, s3⟩ := onlyInv_step (c := c) hi
    have hl : pre.length + 1 = (pre ++ [c]).length := by simp
    have happ : pre ++ c :: cs = (pre ++ [c]) ++ cs := by simp
    rw [happ, hl]
    split
    · rename_i hc; exact ih (s1 hc)
    · rename_i hc
      have hc' : rep.contains (tagName h c) = false := by simpa using hc
      split
      · rename_i k hk; exact ih (s2 hc' k hk)
      · rename_i hk; exact ih (s3 hc' hk)

theorem onlyNames_inv (C : List Nat) : ∃ rep, OnlyInv h C (onlyNames h C 0 [] []) rep := by
  have h0 : OnlyInv h [] [] [] := ⟨by simp, List.Pairwise.nil, by simp [tagCount]⟩
  simpa using onlyNames_spec (cs := C) h0

theorem atAll_tags {C : List Nat} {only : Names} {res : List Nat}
    (ho : ∀ e ∈ only, ∃ x, C[e.2]? = some x ∧ tagName h x = e.1) (hr : atAll C (only.map (·.2)) = .ok res) :
    res.map (tagName h) = only.map (·.1) := by
  induction only generalizing res with
  | nil => simp only [List.map_nil, atAll, flatMapR, Except.ok.injEq] at hr; simp [← hr]
  | cons e es ih =>
    obtain ⟨c, res', hc, hr', rfl⟩ := atAll_cons hr
    obtain ⟨x, hx, hxt⟩ := ho e List.mem_cons_self
    rw [hx] at hc; cases hc
    simp only [List.map_cons, hxt, ih (fun e he => ho e (List.mem_cons_of_mem _ he)) hr']

theorem firstNamed_filter {only : Names} {sibs : List Nat} {P : Nat → Bool} (hn : (only.map (·.1)).Nodup)
    (hP : ∀ x ∈ sibs, P x = true ↔ tagName h x ∈ only.map (·.1))
    (hsub : ((sibs.filter P).map (tagName h)).Sublist (only.map (·.1))) :
    firstNamed h only sibs = sibs.filter P := by
  induction only generalizing sibs with
  | nil =>
    simp only [firstNamed]
    simp only [List.map_nil, List.sublist_nil, List.map_eq_nil_iff] at hsub
    exact hsub.symm
  | cons e es ih =>
    obtain ⟨he, hn'⟩ := List.nodup_cons.1 hn
    simp only [firstNamed]
    simp only [List.map_cons] at hsub
    replace he : e.1 ∉ es.map (·.1) := he
    have hcase : ∀ {a b : List Char} {l m : List (List Char)}, (a :: l).Sublist (b :: m) → (a :: l).Sublist m ∨ (a = b ∧ l.Sublist m) := by
      intro a b l m hh
      cases hh with
      | cons _ hh => exact Or.inl hh
      | cons_cons _ hh => exact Or.inr ⟨rfl, hh⟩
    have hpre : ∀ (A B : List Nat) (x : Nat), sibs = A ++ x :: B → (∀ y ∈ A, P y = false) → tagName h x = e.1 →
        sibs.dropWhile (fun x => decide (tagName h x ≠ e.1)) = x :: B := by
      intro A B x hs hA hx
      rw [hs, List.dropWhile_append_of_pos]
      · simp [hx]
      · intro y hy
        simp only [ne_eq, decide_eq_true_eq]
        intro hye
        have := (hP y (by rw [hs]; simp [hy])).2 (by simp [hye])
        rw [hA y hy] at this; cases this
    generalize hf : sibs.filter P = F at hsub
    cases F with
    | nil =>
      have hall : ∀ x ∈ sibs, P x = false := by
        intro x hx
        have := List.filter_eq_nil_iff.1 hf x hx
        simpa using this
      have : sibs.dropWhile (fun x => decide (tagName h x ≠ e.1)) = [] := by
        rw [List.dropWhile_eq_nil_iff]
        intro x hx
        simp only [ne_eq, decide_eq_true_eq]
        intro hxe
        have := (hP x hx).2 (by simp [hxe])
        rw [hall x hx] at this; cases this
      rw [this]
      simp only
      rw [ih hn' ?_ (by rw [hf]; simp), hf]
      intro x hx
      rw [hP x hx]
      constructor
      · intro hm
        have := (hP x hx).2 hm
        rw [hall x hx] at this; cases this
      · intro hm; simp only [List.map_cons]; exact List.mem_cons_of_mem _ hm
    | cons s F =>
      by_cases hs : tagName h s = e.1
      · -- the first one found carries the first name
        obtain ⟨A, B, hsplit, hA, hPs, hB⟩ := List.filter_eq_cons_iff.1 hf
        rw [hpre A B s hsplit (fun y hy => by simpa using hA y hy) hs]
        simp only
        have hFsub : (F.map (tagName h)).Sublist (es.map (·.1)) := by
          rw [List.map_cons] at hsub
          rcases hcase hsub with hh | ⟨_, hh⟩
          · exfalso
            apply he
            rw [← hs]
            exact hh.subset (by simp)
          · exact hh
        rw [ih hn' ?_ (by rw [hB]; exact hFsub), hB]
        intro x hx
        have hxs : x ∈ sibs := by rw [hsplit]; simp [hx]
        rw [hP x hxs]
        constructor
        · intro hm
          rcases List.mem_cons.1 hm with h' | h'
          · exfalso
            have hPx := (hP x hxs).2 hm
            have : x ∈ B.filter P := List.mem_filter.2 ⟨hx, hPx⟩
            rw [hB] at this
            have h' : tagName h x = e.1 := h'
            exact he (h' ▸ hFsub.subset (List.mem_map_of_mem this))
          · exact h'
        · exact List.mem_cons_of_mem _
      · have hsub' : (((s :: F).map (tagName h))).Sublist (es.map (·.1)) := by
          rw [List.map_cons] at hsub ⊢
          rcases hcase hsub with hh | ⟨h', _⟩
          · exact hh
          · exact absurd h' hs
        have hnot : ∀ x ∈ sibs, tagName h x ≠ e.1 := by
          intro x hx hxe
          have hPx := (hP x hx).2 (by simp [hxe])
          have : x ∈ s :: F := by rw [← hf]; exact List.mem_filter.2 ⟨hx, hPx⟩
          exact he (hxe ▸ hsub'.subset (List.mem_map_of_mem this))
        have : sibs.dropWhile (fun x => decide (tagName h x ≠ e.1)) = [] := by
          rw [List.dropWhile_eq_nil_iff]
          intro x hx
          simpa using hnot x hx
        rw [this]
        simp only
        rw [ih hn' ?_ (by rw [hf]; exact hsub'), hf]
        intro x hx
        rw [hP x hx, List.map_cons, List.mem_cons]
        exact ⟨fun h' => h'.resolve_left (hnot x hx), Or.inr⟩

/-- The callback of `:only-of-type` after the `expect`. -/
def onlyCore (h : Heap) (C sibs : List Nat) : R (List Nat) :=
  let only := onlyNames h C 0 [] []
  if sibs.length = C.length then atAll sibs (only.map (·.2)) else .ok (firstNamed h only sibs)

theorem onlyCore_ok {P : Nat → Bool} {sibs C : List Nat} (hsub : sibs.Sublist C)
    (hP : ∀ c ∈ C, P c = true ↔ tagCount h (tagName h c) C = 1) : onlyCore h C sibs = .ok (sibs.filter P) := by
  obtain ⟨rep, hi⟩ := onlyNames_inv (h := h) C
  unfold onlyCore
  generalize onlyNames h C 0 [] [] = only at hi
  have hsorted : (only.map (·.2)).Pairwise (· < ·) := by rw [List.pairwise_map]; exact hi.sorted
  have hpos : ∀ (i : Nat) c, C[i]? = some c → (P c = true ↔ i ∈ only.map (·.2)) := by
    intro i c hc
    rw [hP c (List.mem_of_getElem? hc), List.mem_map]
    constructor
    · intro h1; exact ⟨(tagName h c, i), (hi.once _ _).2 ⟨⟨c, hc, rfl⟩, h1⟩, rfl⟩
    · rintro ⟨⟨t, j⟩, he, rfl⟩
      obtain ⟨⟨x, hx, hxt⟩, h1⟩ := (hi.once t j).1 he
      simp only at hc
      rw [hc] at hx; cases hx
      rw [hxt]; exact h1
  have hbound : ∀ a ∈ only.map (·.2), a < C.length := by
    intro a ha
    obtain ⟨⟨t, j⟩, he, rfl⟩ := List.mem_map.1 ha
    obtain ⟨⟨x, hx, _⟩, _⟩ := (hi.once t j).1 he
    exact (List.getElem?_eq_some_iff.1 hx).1
  obtain ⟨res, hres⟩ := atAll_total hbound
  have hres' := atAll_filter (k := 0) hsorted (by simp) (fun i c _ hc => hpos i c hc) hres
  rw [List.drop_zero] at hres'
  split
  · rename_i hl
    obtain rfl := hsub.eq_of_length hl
    rw [hres, hres']
  · have htags := atAll_tags (h := h) (fun e he => ((hi.once e.1 e.2).1 (by simpa using he)).1) hres
    rw [hres'] at htags
    simp only
    rw [firstNamed_filter]
    · -- names are distinct: a name with two entries would occur twice
      rw [List.nodup_iff_pairwise_ne, List.pairwise_map]
      refine List.Pairwise.imp_of_mem ?_ hi.sorted
      intro a b ha hb hab heq
      obtain ⟨⟨x, hx, hxt⟩, hcnt⟩ := (hi.once a.1 a.2).1 (by simpa using ha)
      obtain ⟨⟨y, hy, hyt⟩, _⟩ := (hi.once b.1 b.2).1 (by simpa using hb)
      have h1 : 1 ≤ tagCount h a.1 (C.take b.2) :=
        tagCount_pos (i := a.2) (x := x) (by rw [List.getElem?_take_of_lt hab]; exact hx) hxt
      have h2 : 1 ≤ tagCount h a.1 (C.drop b.2) :=
        tagCount_pos (i := 0) (x := y) (by rw [List.getElem?_drop]; exact hy) (by rw [hyt, heq])
      have : tagCount h a.1 C = tagCount h a.1 (C.take b.2) + tagCount h a.1 (C.drop b.2) := by
        conv_lhs => rw [← List.take_append_drop b.2 C]
        exact List.countP_append
      omega
    · intro x hx
      have hxC := hsub.subset hx
      obtain ⟨i, hi'⟩ := List.getElem?_of_mem hxC
      rw [hP x hxC]
      constructor
      · intro h1
        exact List.mem_map.2 ⟨(tagName h x, i), (hi.once _ _).2 ⟨⟨x, hi', rfl⟩, h1⟩, rfl⟩
      · intro hm
        obtain ⟨⟨t, j⟩, he, het⟩ := List.mem_map.1 hm
        simp only at het
        rw [← het]
        exact ((hi.once t j).1 he).2
    · rw [← htags]
      exact (hsub.filter P).map _

/-- Grouping: when the callback filters every group, the whole filters the list. -/
theorem groupLoop_filter {allowFn : Nat → R (Option (List Nat))} {cb : SibData → R (List Nat)} {P : Nat → Bool}
    {L : List Nat}
    (hpar : ∀ x ∈ L, h.parent x ≠ none)
    (hcb : ∀ d p, d.parent = some p → allowFn (h.children p).length = .ok d.allow →
      (∀ x ∈ slice L d, h.parent x = some p) → slice L d ≠ [] → ∀ y, cb d = .ok y → y = (slice L d).filter P) :
    ∀ (l : List Nat) (i : Nat) (d : SibData) (ds : List SibData) (res : List Nat), L.drop i = l →
      (∀ p, d.parent = some p → d.stop = i ∧ d.start < i ∧ allowFn (h.children p).length = .ok d.allow ∧
        ∀ x ∈ slice L d, h.parent x = some p) →
      (d.parent = none → d.start = 0 ∧ d.stop = 0 ∧ i = 0) → i ≤ L.length →
      groupLoop h allowFn l i d = .ok ds → flatMapR cb ds = .ok res → res = (L.drop d.start).filter P := by
  intro l
  induction l with
  | nil =>
    intro i d ds res hl hd hd0 hiL hg hr
    simp only [groupLoop, Except.ok.injEq] at hg
    have hi : L.length ≤ i := List.drop_eq_nil_iff.1 hl
    cases hp : d.parent with
    | none =>
      obtain ⟨h1, h2, h3⟩ := hd0 hp
      subst h3
      have : L = [] := List.eq_nil_of_length_eq_zero (by omega)
      rw [h1, h2] at hg
      simp only [Nat.lt_irrefl, if_false] at hg
      subst hg
      simp only [flatMapR, Except.ok.injEq] at hr
      simp [this, ← hr]
    | some p =>
      obtain ⟨h1, h2, h3, h4⟩ := hd p hp
      rw [if_pos (by omega)] at hg
      subst hg
      simp only [flatMapR] at hr
      split at hr
      · cases hr
      · rename_i x hx
        simp only [List.append_nil, Except.ok.injEq] at hr
        have hsl : slice L d = L.drop d.start := by
          unfold slice; rw [h1, List.take_of_length_le hi]
        rw [← hr, hcb d p hp h3 h4 ?_ x hx, hsl]
        rw [hsl]
        intro h0
        have := List.drop_eq_nil_iff.1 h0
        omega
  | cons x l ih =>
    intro i d ds res hl hd hd0 hiL hg hr
    have hilt : i < L.length := by
      rcases Nat.lt_or_ge i L.length with h1 | h1
      · exact h1
      · rw [List.drop_eq_nil_of_le h1] at hl; cases hl
    have hxi : L[i]? = some x := by rw [← List.head?_drop, hl]; rfl
    have hdrop : L.drop (i + 1) = l := by
      rw [← List.drop_drop, hl]; rfl
    have hxL : x ∈ L := List.mem_of_getElem? hxi
    simp only [groupLoop] at hg
    cases hxp : h.parent x with
    | none => exact absurd hxp (hpar x hxL)
    | some p =>
      simp only [hxp] at hg
      by_cases hsame : d.parent = some p
      · rw [if_pos hsame] at hg
        obtain ⟨h1, h2, h3, h4⟩ := hd p hsame
        refine ih (i + 1) { d with stop := i + 1 } ds res hdrop ?_ ?_ (by omega) hg hr
        · intro q hq
          have : q = p := by
            have : d.parent = some q := hq
            rw [hsame] at this; exact (Option.some.inj this).symm
          subst this
          refine ⟨rfl, by simp only; omega, h3, ?_⟩
          intro y hy
          have hy' : y ∈ (L.take (i + 1)).drop d.start := hy
          rw [List.take_add_one, hxi, List.drop_append_of_le_length (by simp; omega)] at hy'
          rcases List.mem_append.1 hy' with h' | h'
          · exact h4 y (by unfold slice; rw [h1]; exact h')
          · have : y = x := by simpa using h'
            rw [this]; exact hxp
        · intro hq
          have : d.parent = none := hq
          rw [hsame] at this; cases this
      · rw [if_neg hsame] at hg
        split at hg
        · cases hg
        · rename_i a ha
          split at hg
          · cases hg
          · rename_i ds' hds
            simp only [Except.ok.injEq] at hg
            have hnew := ih (i + 1) { start := i, stop := i + 1, allow := a, parent := some p } ds'
            have hslice : slice L { start := i, stop := i + 1, allow := a, parent := some p } = [x] := by
              unfold slice
              simp only
              rw [List.take_add_one, hxi, List.drop_append_of_le_length (by simp; omega)]
              simp
            have hcond : ∀ q, (some p : Option Nat) = some q → i + 1 = i + 1 ∧ i < i + 1 ∧
                allowFn (h.children q).length = .ok a ∧
                ∀ x ∈ slice L { start := i, stop := i + 1, allow := a, parent := some p }, h.parent x = some q := by
              intro q hq
              cases hq
              refine ⟨rfl, by omega, ha, ?_⟩
              rw [hslice]
              intro y hy
              rw [List.mem_singleton] at hy; subst hy; exact hxp
            cases hp : d.parent with
            | none =>
              obtain ⟨e1, e2, e3⟩ := hd0 hp
              subst e3
              rw [hp] at hg
              simp only [Option.isSome_none, Bool.false_eq_true, if_false] at hg
              subst hg
              have := hnew res hdrop hcond (by simp) (by omega) hds hr
              rw [e1]; exact this
            | some q =>
              obtain ⟨e1, e2, e3, e4⟩ := hd q hp
              rw [hp] at hg
              simp only [Option.isSome_some, if_true] at hg
              subst hg
              simp only [flatMapR] at hr
              split at hr
              · cases hr
              · rename_i y hy
                split at hr
                · cases hr
                · rename_i z hz
                  simp only [Except.ok.injEq] at hr
                  have h2 := hnew z hdrop hcond (by simp) (by omega) hds hz
                  have hsl : slice L d = (L.take i).drop d.start := by unfold slice; rw [e1]
                  have h1 := hcb d q hp e3 e4 (by
                    rw [hsl]; intro h0
                    have := List.drop_eq_nil_iff.1 h0
                    simp at this; omega) y hy
                  rw [← hr, h1, h2, hsl, ← List.filter_append]
                  congr 1
                  conv_rhs => rw [← List.take_append_drop i L]
                  rw [List.drop_append_of_le_length (by simp; omega)]

theorem groupDo_filter {allowFn : Nat → R (Option (List Nat))} {cb : SibData → R (List Nat)} {P : Nat → Bool}
    {L res : List Nat} (hpar : ∀ x ∈ L, h.parent x ≠ none)
    (hcb : ∀ d p, d.parent = some p → allowFn (h.children p).length = .ok d.allow →
      (∀ x ∈ slice L d, h.parent x = some p) → slice L d ≠ [] → ∀ y, cb d = .ok y → y = (slice L d).filter P)
    (hr : groupDo h allowFn cb L = .ok res) : res = L.filter P := by
  unfold groupDo at hr
  split at hr
  · cases hr
  · rename_i ds hds
    have := groupLoop_filter hpar hcb L 0 {} ds res rfl (by intro p hp; cases hp) (by simp) (by omega) hds hr
    simpa using this

theorem groupLoop_total {allowFn : Nat → R (Option (List Nat))} (hpar : ∀ p, (∃ x, h.parent x = some p) → ∃ a, allowFn (h.children p).length = .ok a)
    (l : List Nat) (i : Nat) (d : SibData) : ∃ ds, groupLoop h allowFn l i d = .ok ds := by
  induction l generalizing i d with
  | nil => exact ⟨_, rfl⟩
  | cons x l ih =>
    simp only [groupLoop]
    cases hx : h.parent x with
    | none => exact ih _ _
    | some p =>
      simp only
      split
      · exact ih _ _
      · obtain ⟨a, ha⟩ := hpar p ⟨x, hx⟩
        obtain ⟨ds, hds⟩ := ih (i + 1) { start := i, stop := i + 1, allow := a, parent := some p }
        simp only [ha, hds]
        exact ⟨_, rfl⟩

/-- The data handed to the callbacks. -/
theorem groupLoop_data {allowFn : Nat → R (Option (List Nat))} {L : List Nat} (hpar : ∀ x ∈ L, h.parent x ≠ none) :
    ∀ (l : List Nat) (i : Nat) (d : SibData) (ds : List SibData), L.drop i = l →
      (∀ p, d.parent = some p → d.stop = i ∧ d.start < i ∧ allowFn (h.children p).length = .ok d.allow ∧
        ∀ x ∈ slice L d, h.parent x = some p) →
      (d.parent = none → d.start = 0 ∧ d.stop = 0 ∧ i = 0) → i ≤ L.length →
      groupLoop h allowFn l i d = .ok ds →
      ∀ d' ∈ ds, ∃ p, d'.parent = some p ∧ allowFn (h.children p).length = .ok d'.allow ∧
        (∀ x ∈ slice L d', h.parent x = some p) ∧ slice L d' ≠ [] := by
  intro l
  induction l with
  | nil =>
    intro i d ds hl hd hd0 hiL hg d' hd'
    simp only [groupLoop, Except.ok.injEq] at hg
    have hi : L.length ≤ i := List.drop_eq_nil_iff.1 hl
    cases hp : d.parent with
    | none =>
      obtain ⟨h1, h2, h3⟩ := hd0 hp
      rw [h1, h2] at hg
      simp only [Nat.lt_irrefl, if_false] at hg
      subst hg; cases hd'
    | some p =>
      obtain ⟨h1, h2, h3, h4⟩ := hd p hp
      rw [if_pos (by omega)] at hg
      subst hg
      rw [List.mem_singleton] at hd'
      subst hd'
      refine ⟨p, hp, h3, h4, ?_⟩
      unfold slice; rw [h1, List.take_of_length_le hi]
      intro h0
      have := List.drop_eq_nil_iff.1 h0
      omega
  | cons x l ih =>
    intro i d ds hl hd hd0 hiL hg d' hd'
    have hilt : i < L.length := by
      rcases Nat.lt_or_ge i L.length with h1 | h1
      · exact h1
      · rw [List.drop_eq_nil_of_le h1] at hl; cases hl
    have hxi : L[i]? = some x := by rw [← List.head?_drop, hl]; rfl
    have hdrop : L.drop (i + 1) = l := by
      rw [← List.drop_drop, hl]; rfl
    have hxL : x ∈ L := List.mem_of_getElem? hxi
    simp only [groupLoop] at hg
    cases hxp : h.parent x with
    | none => exact absurd hxp (hpar x hxL)
    | some p =>
      simp only [hxp] at hg
      by_cases hsame : d.parent = some p
      · rw [if_pos hsame] at hg
        obtain ⟨h1, h2, h3, h4⟩ := hd p hsame
        refine ih (i + 1) { d with stop := i + 1 } ds hdrop ?_ ?_ (by omega) hg d' hd'
        · intro q hq
          have : q = p := by
            have : d.parent = some q := hq
            rw [hsame] at this; exact (Option.some.inj this).symm
          subst this
          refine ⟨rfl, by simp only; omega, h3, ?_⟩
          intro y hy
          have hy' : y ∈ (L.take (i + 1)).drop d.start := hy
          rw [List.take_add_one, hxi, List.drop_append_of_le_length (by simp; omega)] at hy'
          rcases List.mem_append.1 hy' with h' | h'
          · exact h4 y (by unfold slice; rw [h1]; exact h')
          · have : y = x := by simpa using h'
            rw [this]; exact hxp
        · intro hq
          have : d.parent = none := hq
          rw [hsame] at this; cases this
      · rw [if_neg hsame] at hg
        split at hg
        · cases hg
        · rename_i a ha
          split at hg
          · cases hg
          · rename_i ds' hds
            simp only [Except.ok.injEq] at hg
            have hslice : slice L { start := i, stop := i + 1, allow := a, parent := some p } = [x] := by
              unfold slice
              simp only
              rw [List.take_add_one, hxi, List.drop_append_of_le_length (by simp; omega)]
              simp
            have hnew := ih (i + 1) { start := i, stop := i + 1, allow := a, parent := some p } ds' hdrop (by
              intro q hq
              have : p = q := Option.some.inj hq
              subst this
              refine ⟨rfl, by simp, ha, ?_⟩
              rw [hslice]
              intro y hy
              rw [List.mem_singleton] at hy; subst hy; exact hxp) (by simp) (by omega) hds
            cases hp : d.parent with
            | none =>
              rw [hp] at hg
              simp only [Option.isSome_none, Bool.false_eq_true, if_false] at hg
              subst hg
              exact hnew d' hd'
            | some q =>
              obtain ⟨e1, e2, e3, e4⟩ := hd q hp
              rw [hp] at hg
              simp only [Option.isSome_some, if_true] at hg
              subst hg
              rcases List.mem_cons.1 hd' with h' | h'
              · subst h'
                refine ⟨q, hp, e3, e4, ?_⟩
                unfold slice; rw [e1]
                intro h0
                have := List.drop_eq_nil_iff.1 h0
                simp at this; omega
              · exact hnew d' h'

theorem groupDo_total {allowFn : Nat → R (Option (List Nat))} {cb : SibData → R (List Nat)} {L : List Nat}
    (hpar : ∀ x ∈ L, h.parent x ≠ none)
    (ha : ∀ p, (∃ x, h.parent x = some p) → ∃ a, allowFn (h.children p).length = .ok a)
    (hcb : ∀ d p, d.parent = some p → allowFn (h.children p).length = .ok d.allow →
      (∀ x ∈ slice L d, h.parent x = some p) → slice L d ≠ [] → ∃ y, cb d = .ok y) :
    ∃ res, groupDo h allowFn cb L = .ok res := by
  unfold groupDo
  obtain ⟨ds, hds⟩ := groupLoop_total ha L 0 {}
  simp only [hds]
  refine flatMapR_total ?_
  intro d hd
  obtain ⟨p, h1, h2, h3, h4⟩ := groupLoop_data hpar L 0 {} ds rfl (by intro p hp; cases hp) (by simp) (by omega) hds d hd
  exact hcb d p h1 h2 h3 h4

theorem slice_infix (L : List Nat) (d : SibData) : slice L d <:+: L :=
  (List.drop_suffix _ _).isInfix.trans (List.take_prefix _ _).isInfix

theorem slice_sublist (L : List Nat) (d : SibData) : (slice L d).Sublist L :=
  (List.drop_sublist _ _).trans (List.take_sublist _ _)

end Visdom
