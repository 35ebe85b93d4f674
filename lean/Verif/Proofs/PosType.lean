import Verif.Proofs.PosList
/-!
# Positions among elements of one name
-/
namespace Visdom
variable {h : Heap}

/-- The counters tell how often each name was seen: one less than the number. -/
def Counts (names : Names) (cnt : List Char → Nat) : Prop :=
  ∀ t, (names.find? (fun e => e.1 == t)).map (fun e => e.2 + 1) = if cnt t = 0 then none else some (cnt t)

theorem counts_nil : Counts [] fun _ => 0 := fun _ => rfl

theorem find_map_ite (names : Names) (n t : List Char) :
    (names.map fun f => if f.1 == n then (f.1, f.2 + 1) else f).find? (fun e => e.1 == t) =
      (names.find? (fun e => e.1 == t)).map fun f => if f.1 == n then (f.1, f.2 + 1) else f := by
  rw [List.find?_map]
  congr 1
  have : ((fun e : List Char × Nat => e.1 == t) ∘ fun f => if f.1 == n then (f.1, f.2 + 1) else f) =
      fun e => e.1 == t := by
    funext f
    simp only [Function.comp_apply]
    split <;> rfl
  rw [this]

/-- The number 0 is at most the first one. -/
def ZeroFirst (allow : List Nat) : Prop := ∀ a as, allow = a :: as → 0 ∉ as

theorem zeroFirst_of_sorted {allow : List Nat} (hs : allow.Pairwise (· < ·)) : ZeroFirst allow := by
  rintro a as rfl hm
  have := (List.pairwise_cons.1 hs).1 0 hm
  omega

theorem nameStep_spec {allow : List Nat} {names : Names} {cnt : List Char → Nat} {x : Nat} (hc : Counts names cnt)
    (hs : ZeroFirst allow) {b : Bool} {names' : Names} (hr : nameStep h allow names x = .ok (b, names')) :
    b = decide (cnt (tagName h x) ∈ allow) ∧
      Counts names' fun t => if t = tagName h x then cnt t + 1 else cnt t := by
  unfold nameStep at hr
  have hx := hc (tagName h x)
  cases hf : names.find? (fun e => e.1 == tagName h x) with
  | some e =>
    simp only [hf, Except.ok.injEq, Prod.mk.injEq] at hr
    obtain ⟨rfl, rfl⟩ := hr
    rw [hf] at hx
    have hne : cnt (tagName h x) ≠ 0 := by
      intro h0; simp [h0] at hx
    simp only [Option.map_some, hne, if_false, Option.some.injEq] at hx
    refine ⟨by rw [hx], ?_⟩
    intro t
    rw [find_map_ite, Option.map_map]
    by_cases ht : t = tagName h x
    · subst ht
      have he1 : (e.1 == tagName h x) = true := by simpa using List.find?_some hf
      simp only [hf, Option.map_some, Function.comp_apply, if_pos he1, if_true]
      rw [if_neg (by omega), hx]
    · simp only [if_neg ht]
      rw [← hc t]
      cases hft : names.find? (fun e => e.1 == t) with
      | none => rfl
      | some f =>
        have hf1 : f.1 = t := by simpa using List.find?_some hft
        have : ¬ f.1 = tagName h x := by rw [hf1]; exact ht
        simp [this]
  | none =>
    simp only [hf] at hr
    rw [hf] at hx
    have h0 : cnt (tagName h x) = 0 := by
      by_contra hne
      simp [hne] at hx
    cases allow with
    | nil => cases hr
    | cons a as =>
      simp only [Except.ok.injEq, Prod.mk.injEq] at hr
      obtain ⟨rfl, rfl⟩ := hr
      refine ⟨?_, ?_⟩
      · rw [h0]
        have : 0 ∉ as := hs a as rfl
        simp [this, eq_comm]
      · intro t
        rw [List.find?_append]
        by_cases ht : t = tagName h x
        · subst ht
          simp [hf, h0]
        · simp only [if_neg ht]
          rw [← hc t]
          have : ((tagName h x) == t) = false := by simp [Ne.symm ht]
          simp [this]

theorem nameStep_total {allow : List Nat} {names : Names} {x : Nat} (ha : allow ≠ []) :
    ∃ y, nameStep h allow names x = .ok y := by
  unfold nameStep
  split
  · exact ⟨_, rfl⟩
  · cases allow with
    | nil => exact absurd rfl ha
    | cons a as => exact ⟨_, rfl⟩

theorem nameMarks_total {allow : List Nat} {names : Names} {l : List Nat} (ha : allow ≠ []) :
    ∃ bs, nameMarks h allow names l = .ok bs := by
  induction l generalizing names with
  | nil => exact ⟨[], rfl⟩
  | cons x l ih =>
    obtain ⟨⟨b, names'⟩, hy⟩ := nameStep_total (h := h) (names := names) (x := x) ha
    obtain ⟨bs, hbs⟩ := ih (names := names')
    exact ⟨b :: bs, by simp only [nameMarks, hy, hbs]⟩

/-- The number of elements with the name of `x` among `l`. -/
def nameCount (h : Heap) (x : Nat) (l : List Nat) : Nat := l.countP fun y => tagName h y == tagName h x

theorem nameMarks_spec {allow : List Nat} {names : Names} {cnt : List Char → Nat} {l : List Nat} (hc : Counts names cnt)
    (hs : ZeroFirst allow) {bs : List Bool} (hr : nameMarks h allow names l = .ok bs) :
    bs.length = l.length ∧ ∀ (i : Nat) x, l[i]? = some x →
      bs[i]? = some (decide (cnt (tagName h x) + nameCount h x (l.take i) ∈ allow)) := by
  induction l generalizing names cnt bs with
  | nil => simp only [nameMarks, Except.ok.injEq] at hr; subst hr; simp
  | cons y l ih =>
    simp only [nameMarks] at hr
    split at hr
    · cases hr
    · rename_i b names' hstep
      split at hr
      · cases hr
      · rename_i bs' hbs
        simp only [Except.ok.injEq] at hr
        subst hr
        obtain ⟨h1, h2⟩ := nameStep_spec hc hs hstep
        obtain ⟨i1, i2⟩ := ih h2 hbs
        refine ⟨by simp [i1], ?_⟩
        intro i x hx
        cases i with
        | zero =>
          simp only [List.getElem?_cons_zero, Option.some.injEq] at hx
          subst hx
          simp only [nameCount, List.getElem?_cons_zero, List.take_zero, List.countP_nil, Nat.add_zero, h1]
          rfl
        | succ i =>
          simp only [List.getElem?_cons_succ] at hx ⊢
          rw [i2 i x hx]
          have hcnt : (if tagName h x = tagName h y then cnt (tagName h x) + 1 else cnt (tagName h x)) +
              nameCount h x (l.take i) = cnt (tagName h x) + nameCount h x ((y :: l).take (i + 1)) := by
            simp only [nameCount, List.take_succ_cons, List.countP_cons]
            by_cases ht : tagName h x = tagName h y
            · rw [if_pos ht]; simp [ht]; omega
            · have : (tagName h y == tagName h x) = false := by simp [Ne.symm ht]
              rw [if_neg ht, this]; simp
          simp only [hcnt]

theorem collectAvail_filter {A sibs : List Nat} (hA : A.Pairwise (· < ·))
    (hs : sibs.Pairwise fun a b => h.index a < h.index b) :
    collectAvail h A sibs = sibs.filter fun x => decide (h.index x ∈ A) := by
  induction A generalizing sibs with
  | nil => simp [collectAvail]
  | cons a A ih =>
    obtain ⟨ha, hA'⟩ := List.pairwise_cons.1 hA
    simp only [collectAvail]
    have key : ∀ {s}, s ∈ sibs.takeWhile (fun x => decide (h.index x < a)) → h.index s ∉ a :: A := by
      intro s hsm hm
      have := List.mem_takeWhile_imp hsm
      simp only [decide_eq_true_eq] at this
      rcases List.mem_cons.1 hm with e | e
      · omega
      · have := ha _ e; omega
    have hsplit : sibs.filter (fun x => decide (h.index x ∈ a :: A)) =
        (sibs.dropWhile (fun x => decide (h.index x < a))).filter (fun x => decide (h.index x ∈ a :: A)) := by
      conv_lhs => rw [← List.takeWhile_append_dropWhile (p := fun x => decide (h.index x < a)) (l := sibs)]
      rw [List.filter_append]
      have : (sibs.takeWhile (fun x => decide (h.index x < a))).filter (fun x => decide (h.index x ∈ a :: A)) = [] := by
        rw [List.filter_eq_nil_iff]
        intro s hsm
        have := key hsm
        simpa using this
      rw [this, List.nil_append]
    rw [hsplit]
    have hdrop := hs.sublist (List.dropWhile_sublist (fun x => decide (h.index x < a)))
    cases hd : sibs.dropWhile (fun x => decide (h.index x < a)) with
    | nil => rfl
    | cons s t =>
      rw [hd] at hdrop
      obtain ⟨hst, ht⟩ := List.pairwise_cons.1 hdrop
      have hge : a ≤ h.index s := by
        have := List.head_dropWhile_not (fun x => decide (h.index x < a)) (l := sibs) (by rw [hd]; simp)
        simp only [hd, List.head_cons, decide_eq_false_iff_not] at this
        omega
      by_cases he : h.index s = a
      · simp only [if_pos he]
        rw [ih hA' ht, List.filter_cons_of_pos (by simp [he])]
        congr 1
        refine List.filter_congr ?_
        intro y hy
        have := hst y hy
        have hne : ¬ h.index y = a := by omega
        simp [hne]
      · simp only [if_neg he]
        rw [ih hA' hdrop]
        refine List.filter_congr ?_
        intro y hy
        have : a < h.index y := by
          rcases List.mem_cons.1 hy with rfl | hy
          · omega
          · have := hst y hy; omega
        have hne : ¬ h.index y = a := by omega
        simp [hne]

/-- `handle_nth_of_type` after the two `expect`s. -/
def ofTypeCore (h : Heap) (asc : Bool) (allow C sibs : List Nat) : R (List Nat) :=
  let order := if asc then C else C.reverse
  match nameMarks h allow [] order with
  | .error e => .error e
  | .ok bs =>
    let idx := ((order.zip bs).filter (·.2)).map fun e => h.index e.1
    .ok (collectAvail h (if asc then idx else idx.reverse) sibs)

theorem ofTypeCore_filter {asc : Bool} {P : Nat → Bool} {sibs allow C res : List Nat}
    (hC : C.Pairwise fun a b => h.index a < h.index b) (hs : ZeroFirst allow) (hsub : sibs.Sublist C)
    (hP : ∀ (i : Nat) c, (if asc then C else C.reverse)[i]? = some c →
      (P c = true ↔ nameCount h c ((if asc then C else C.reverse).take i) ∈ allow))
    (hr : ofTypeCore h asc allow C sibs = .ok res) : res = sibs.filter P := by
  unfold ofTypeCore at hr
  generalize horder : (if asc then C else C.reverse) = order at hr hP
  simp only at hr
  split at hr
  · cases hr
  · rename_i bs hbs
    simp only [Except.ok.injEq] at hr
    obtain ⟨hlen, hmark⟩ := nameMarks_spec counts_nil hs hbs
    -- the indexes are those of the elements with `P`
    have hzip : (order.zip bs).filter (·.2) = (order.filter P).map fun c => (c, true) := by
      have : order.zip bs = order.map fun c => (c, P c) := by
        apply List.ext_getElem?
        intro i
        rw [List.getElem?_map]
        cases hi : order[i]? with
        | none =>
          have : order.length ≤ i := List.getElem?_eq_none_iff.1 hi
          simp; omega
        | some c =>
          have hb := hmark i c hi
          rw [Option.map_some, List.getElem?_zip_eq_some]
          refine ⟨hi, ?_⟩
          rw [hb]
          have := hP i c hi
          simp only [Nat.zero_add, Option.some.injEq]
          by_cases hm : nameCount h c (order.take i) ∈ allow
          · simp [hm, this.2 hm]
          · have : ¬ P c = true := fun h' => hm (this.1 h')
            simp [hm, this]
      rw [this, List.filter_map]
      have hcomp : ((fun x : Nat × Bool => x.2) ∘ fun c => (c, P c)) = P := rfl
      rw [hcomp]
      apply List.map_congr_left
      intro c hc
      simp [(List.mem_filter.1 hc).2]
    rw [hzip, List.map_map] at hr
    have hidx : (if asc then (order.filter P).map ((fun e : Nat × Bool => h.index e.1) ∘ fun c => (c, true))
        else ((order.filter P).map ((fun e : Nat × Bool => h.index e.1) ∘ fun c => (c, true))).reverse) =
        (C.filter P).map h.index := by
      have : ((fun e : Nat × Bool => h.index e.1) ∘ fun c => (c, true)) = h.index := rfl
      rw [this]
      cases asc with
      | true => simp only [if_true] at horder ⊢; rw [horder]
      | false =>
        simp only [Bool.false_eq_true, if_false] at horder ⊢
        rw [← horder, List.filter_reverse, List.map_reverse, List.reverse_reverse]
    rw [hidx] at hr
    rw [← hr, collectAvail_filter ?_ (hC.sublist hsub)]
    · refine List.filter_congr ?_
      intro x hx
      have hxC := hsub.subset hx
      rw [Bool.eq_iff_iff]
      simp only [List.mem_map, List.mem_filter, decide_eq_true_eq]
      constructor
      · rintro ⟨y, ⟨hy, hPy⟩, he⟩
        have : y = x := by
          by_contra hne
          rcases List.pairwise_iff_getElem.1 hC with hpw
          obtain ⟨i, hi, rfl⟩ := List.getElem_of_mem hy
          obtain ⟨j, hj, rfl⟩ := List.getElem_of_mem hxC
          rcases Nat.lt_trichotomy i j with h1 | h1 | h1
          · have := hpw i j hi hj h1; omega
          · subst h1; exact hne rfl
          · have := hpw j i hj hi h1; omega
        rwa [← this]
      · intro hPx; exact ⟨x, ⟨hxC, hPx⟩, rfl⟩
    · rw [List.pairwise_map]
      exact hC.sublist List.filter_sublist

theorem ofTypeCore_total {asc : Bool} {allow C sibs : List Nat} (ha : allow ≠ []) :
    ∃ res, ofTypeCore h asc allow C sibs = .ok res := by
  unfold ofTypeCore
  obtain ⟨bs, hbs⟩ := nameMarks_total (h := h) (names := []) (l := if asc then C else C.reverse) ha
  simp only [hbs]
  exact ⟨_, rfl⟩

end Visdom
