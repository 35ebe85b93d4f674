import Verif.Proofs.NoneUp
import Verif.Spec.Stumble
/-!
# When `unique_parents` panics
-/
namespace Visdom
open Spec

variable {h : Heap} {r : Nat}

/-- The last element kept by `unique_parents`. -/
def lastTop (h : Heap) (top : Nat) : List Nat → R Nat
  | [] => .ok top
  | x :: l =>
    match relationOf (h.treeIndexs x) (h.treeIndexs top) with
    | .other => lastTop h x l
    | .descendant => lastTop h top l
    | _ => .error .unreachableCode

theorem lastTop_append (top : Nat) (l l' : List Nat) : lastTop h top (l ++ l') = (lastTop h top l).bind fun t => lastTop h t l' := by
  induction l generalizing top with
  | nil => rfl
  | cons x l ih =>
    simp only [List.cons_append, lastTop]
    split
    · exact ih x
    · exact ih top
    · rfl

theorem uniqueParentsFrom_lastTop (top : Nat) (l : List Nat) :
    (∃ t u, lastTop h top l = .ok t ∧ uniqueParentsFrom h top l = .ok u) ∨
    (lastTop h top l = .error .unreachableCode ∧ uniqueParentsFrom h top l = .error .unreachableCode) := by
  induction l generalizing top with
  | nil => exact Or.inl ⟨top, [], rfl, rfl⟩
  | cons x l ih =>
    simp only [lastTop, uniqueParentsFrom]
    cases relationOf (h.treeIndexs x) (h.treeIndexs top) with
    | other =>
      rcases ih x with ⟨t, u, h1, h2⟩ | ⟨h1, h2⟩
      · exact Or.inl ⟨t, x :: u, h1, by simp only [h2]; rfl⟩
      · exact Or.inr ⟨h1, by simp only [h2]; rfl⟩
    | descendant => exact ih top
    | _ => exact Or.inr ⟨rfl, rfl⟩

theorem stumbles_append {l l' : List Nat} (hs : Stumbles h l) : Stumbles h (l ++ l') := by
  obtain ⟨A, t, B, x, C, rfl, h1, h2, h3⟩ := hs
  exact ⟨A, t, B, x, C ++ l', by simp, h1, h2, h3⟩

/-- Of two elements that stand out, everything behind being below them, none comes before the other. -/
theorem standsOut_unique {A B A' B' : List Nat} {t t' : Nat} (he : A ++ t :: B = A' ++ t' :: B') (hB : ∀ y ∈ B, Below h t y)
    (h' : StandsOut h A' t') (hB' : ∀ y ∈ B', Below h t' y) (ho : StandsOut h A t) : t = t' ∧ A = A' ∧ B = B' := by
  rcases List.append_eq_append_iff.1 he with ⟨as, h1, h2⟩ | ⟨bs, h1, h2⟩
  · cases as with
    | nil =>
      simp only [List.nil_append, List.cons.injEq] at h2
      simp only [List.append_nil] at h1
      exact ⟨h2.1, h1.symm, h2.2⟩
    | cons a as =>
      simp only [List.cons_append, List.cons.injEq] at h2
      obtain ⟨rfl, rfl⟩ := h2
      exact absurd (hB t' (by simp)) (h' A t as h1 fun y hy => hB y (by simp [hy]))
  · cases bs with
    | nil =>
      simp only [List.nil_append, List.cons.injEq] at h2
      simp only [List.append_nil] at h1
      exact ⟨h2.1.symm, h1, h2.2.symm⟩
    | cons a as =>
      simp only [List.cons_append, List.cons.injEq] at h2
      obtain ⟨rfl, rfl⟩ := h2
      exact absurd (hB' t (by simp)) (ho A' t' as h1 fun y hy => hB' y (by simp [hy]))

theorem stumbles_snoc {l : List Nat} {x : Nat} (hs : Stumbles h (l ++ [x])) :
    Stumbles h l ∨ ∃ A t B, l = A ++ t :: B ∧ StandsOut h A t ∧ (∀ y ∈ B, Below h t y) ∧ Within h x t := by
  obtain ⟨A, t, B, y, C, he, h1, h2, h3⟩ := hs
  rcases List.eq_nil_or_concat C with rfl | ⟨C', z, rfl⟩
  · right
    have : l ++ [x] = (A ++ t :: B) ++ [y] := by simpa using he
    obtain ⟨rfl, e⟩ := List.append_inj' this rfl
    obtain rfl : x = y := by simpa using e
    exact ⟨A, t, B, rfl, h1, h2, h3⟩
  · left
    have : l ++ [x] = (A ++ t :: (B ++ y :: C')) ++ [z] := by simpa using he
    obtain ⟨rfl, _⟩ := List.append_inj' this rfl
    exact ⟨A, t, B, y, C', rfl, h1, h2, h3⟩

theorem lastTop_stumbles (wf : TreeWF h r) {a : Nat} {l : List Nat} (ha : Within h r a) (hl : ∀ x ∈ l, Within h r x) :
    (∃ t A B, lastTop h a l = .ok t ∧ a :: l = A ++ t :: B ∧ StandsOut h A t ∧ (∀ y ∈ B, Below h t y) ∧ ¬ Stumbles h (a :: l)) ∨
    (lastTop h a l = .error .unreachableCode ∧ Stumbles h (a :: l)) := by
  induction l using List.reverseRecOn with
  | nil =>
    refine Or.inl ⟨a, [], [], rfl, rfl, ?_, by simp, ?_⟩
    · intro A' b B he
      simp at he
    · rintro ⟨A, t, B, x, C, he, _⟩
      have := congrArg List.length he
      simp at this
      omega
  | append_singleton l x ih =>
    have hx := hl x (by simp)
    have hl' : ∀ y ∈ a :: l, Within h r y := by
      intro y hy
      rcases List.mem_cons.1 hy with rfl | hy
      · exact ha
      · exact hl y (by simp [hy])
    rw [lastTop_append]
    rcases ih (fun y hy => hl' y (List.mem_cons_of_mem _ hy)) with ⟨t, A, B, h1, h2, h3, h4, h5⟩ | ⟨h1, h2⟩
    · rw [h1]
      have ht : Within h r t := hl' t (by rw [h2]; simp)
      have hrel := C13_relation_is_tree_relation wf hx ht
      simp only [Except.bind, lastTop]
      rw [← List.cons_append]
      -- a stumble at the last element is a stumble over `t`
      have key : Stumbles h (a :: l ++ [x]) → Within h x t := by
        intro hs
        rcases stumbles_snoc hs with hs | ⟨A', t', B', e1, e2, e3, e4⟩
        · exact absurd hs h5
        · rw [h2] at e1
          obtain ⟨rfl, _⟩ := standsOut_unique e1 h4 e2 e3 h3
          exact e4
      split
      · next ho =>
        obtain ⟨o1, o2, o3⟩ := hrel.2.2.2.1 ho
        refine Or.inl ⟨x, a :: l, [], rfl, rfl, ?_, by simp, fun hs => ?_⟩
        · intro P p Q he hQ hb
          rw [h2] at he
          rcases List.append_eq_append_iff.1 he with ⟨as, k1, k2⟩ | ⟨bs, k1, k2⟩
          · cases as with
            | nil =>
              simp only [List.nil_append, List.cons.injEq] at k2
              rw [← k2.1] at hb
              exact o3 hb
            | cons b as =>
              simp only [List.cons_append, List.cons.injEq] at k2
              obtain ⟨rfl, rfl⟩ := k2
              exact o3 ((h4 p (by simp)).trans hb)
          · cases bs with
            | nil =>
              simp only [List.nil_append, List.cons.injEq] at k2
              rw [k2.1] at hb
              exact o3 hb
            | cons b as =>
              simp only [List.cons_append, List.cons.injEq] at k2
              obtain ⟨rfl, rfl⟩ := k2
              exact h3 P p as k1 (fun y hy => hQ y (by simp [hy])) (hQ t (by simp))
        · rcases within_cases (key hs) with e | hb
          · exact o1 e
          · exact o2 hb
      · next hd =>
        have hb := hrel.2.1.1 hd
        refine Or.inl ⟨t, A, B ++ [x], rfl, by rw [h2]; simp, h3, ?_, fun hs => before_not_within wf ht hx (Or.inl hb) (key hs)⟩
        intro y hy
        rcases List.mem_append.1 hy with hy | hy
        · exact h4 y hy
        · rw [List.mem_singleton.1 hy]; exact hb
      · next n1 n2 =>
        refine Or.inr ⟨rfl, A, t, B, x, [], by rw [h2]; simp, h3, h4, ?_⟩
        by_contra hw
        have hne : x ≠ t := fun e => hw (e ▸ .self)
        by_cases hb : Below h t x
        · exact n2 (hrel.2.1.2 hb)
        · exact n1 (hrel.2.2.2.2 ⟨hne, fun hb' => hw hb'.within, hb⟩)
    · exact Or.inr ⟨by rw [h1]; rfl, stumbles_append (l := a :: l) h2⟩

/-- `unique_parents` panics exactly on the sets that stumble. -/
theorem uniqueParents_stumbles (wf : TreeWF h r) {l : List Nat} (hl : ∀ x ∈ l, Within h r x) :
    (∃ u, uniqueParents h l = .ok u ∧ ¬ Stumbles h l) ∨ (uniqueParents h l = .error .unreachableCode ∧ Stumbles h l) := by
  cases l with
  | nil =>
    refine Or.inl ⟨[], rfl, ?_⟩
    rintro ⟨A, t, B, x, C, he, _⟩
    simp at he
  | cons a l =>
    have hk := lastTop_stumbles wf (hl a (by simp)) (fun x hx => hl x (List.mem_cons_of_mem _ hx))
    rcases uniqueParentsFrom_lastTop (h := h) a l with ⟨t, u, h1, h2⟩ | ⟨h1, h2⟩
    · rcases hk with ⟨t', A, B, e, _, _, _, hns⟩ | ⟨e, _⟩
      · exact Or.inl ⟨a :: u, by simp only [uniqueParents, h2, Except.map], hns⟩
      · rw [h1] at e; cases e
    · rcases hk with ⟨t', A, B, e, _⟩ | ⟨_, hs⟩
      · rw [h1] at e; cases e
      · exact Or.inr ⟨by simp only [uniqueParents, h2, Except.map], hs⟩

theorem uniqueParentsFrom_snoc (top : Nat) (l : List Nat) (x : Nat) : uniqueParentsFrom h top (l ++ [x]) =
    (uniqueParentsFrom h top l).bind fun u => (lastTop h top l).bind fun t => (uniqueParentsFrom h t [x]).map (u ++ ·) := by
  induction l generalizing top with
  | nil =>
    simp only [List.nil_append, uniqueParentsFrom, lastTop, Except.bind]
    cases relationOf (h.treeIndexs x) (h.treeIndexs top) <;> rfl
  | cons y l ih =>
    simp only [List.cons_append, lastTop]
    rw [uniqueParentsFrom, uniqueParentsFrom]
    cases relationOf (h.treeIndexs y) (h.treeIndexs top) with
    | other =>
      simp only [ih]
      cases uniqueParentsFrom h y l with
      | error e => rfl
      | ok u =>
        cases lastTop h y l with
        | error e => rfl
        | ok t =>
          simp only [Except.bind, Except.map]
          cases uniqueParentsFrom h t [x] <;> rfl
    | descendant => exact ih top
    | _ => rfl

theorem uniqueParentsFrom_tops (wf : TreeWF h r) {a : Nat} {l u : List Nat} (ha : Within h r a) (hl : ∀ x ∈ l, Within h r x)
    (hu : uniqueParentsFrom h a l = .ok u) (x : Nat) : x ∈ a :: u ↔ ∃ A B, a :: l = A ++ x :: B ∧ StandsOut h A x := by
  induction l using List.reverseRecOn generalizing u with
  | nil =>
    obtain rfl := Except.ok.inj hu
    constructor
    · intro hx
      obtain rfl := List.mem_singleton.1 hx
      exact ⟨[], [], rfl, by intro A' b B he; simp at he⟩
    · rintro ⟨A, B, he, _⟩
      have : x ∈ [a] := by rw [he]; simp
      exact this
  | append_singleton l y ih =>
    have hl' : ∀ x ∈ l, Within h r x := fun x hx => hl x (by simp [hx])
    have hy := hl y (by simp)
    rw [uniqueParentsFrom_snoc] at hu
    rcases lastTop_stumbles wf ha hl' with ⟨t, A, B, h1, h2, h3, h4, h5⟩ | ⟨h1, _⟩
    swap
    · rw [h1] at hu
      cases hx : uniqueParentsFrom h a l <;> rw [hx] at hu <;> cases hu
    rw [h1] at hu
    have ht : Within h r t := by
      have : t ∈ a :: l := by rw [h2]; simp
      rcases List.mem_cons.1 this with rfl | hm
      · exact ha
      · exact hl' t hm
    have hrel := C13_relation_is_tree_relation wf hy ht
    cases hx : uniqueParentsFrom h a l with
    | error e => rw [hx] at hu; cases hu
    | ok u0 =>
      rw [hx] at hu
      simp only [Except.bind, uniqueParentsFrom] at hu
      have ih := ih hl' hx
      -- an occurrence is an earlier one or the last one
      have hsplit : (∃ A B, a :: (l ++ [y]) = A ++ x :: B ∧ StandsOut h A x) ↔
          (∃ A B, a :: l = A ++ x :: B ∧ StandsOut h A x) ∨ (x = y ∧ StandsOut h (a :: l) y) := by
        rw [← List.cons_append]
        constructor
        · rintro ⟨A', B', he, hs⟩
          rcases List.eq_nil_or_concat B' with rfl | ⟨B'', z, rfl⟩
          · obtain ⟨rfl, e⟩ := List.append_inj' he rfl
            obtain rfl : y = x := by simpa using e
            exact Or.inr ⟨rfl, hs⟩
          · have he' : a :: l ++ [y] = (A' ++ x :: B'') ++ [z] := by simpa using he
            obtain ⟨e, _⟩ := List.append_inj' he' rfl
            exact Or.inl ⟨A', B'', e, hs⟩
        · rintro (⟨A', B', he, hs⟩ | ⟨rfl, hs⟩)
          · exact ⟨A', B' ++ [y], by rw [he]; simp, hs⟩
          · exact ⟨a :: l, [], rfl, hs⟩
      rw [hsplit, ← ih]
      revert hu
      split
      · next ho =>
        intro hu
        obtain ⟨o1, o2, o3⟩ := hrel.2.2.2.1 ho
        obtain rfl : u0 ++ [y] = u := by simpa [Except.map] using hu
        have hout : StandsOut h (a :: l) y := by
          rcases lastTop_stumbles wf ha hl with ⟨t', A', B', g1, g2, g3, g4, _⟩ | ⟨g1, _⟩
          · rw [lastTop_append, h1] at g1
            simp only [Except.bind, lastTop, ho, Except.ok.injEq] at g1
            subst g1
            rcases List.eq_nil_or_concat B' with rfl | ⟨B'', z, rfl⟩
            · rw [← List.cons_append] at g2
              obtain ⟨rfl, _⟩ := List.append_inj' g2 rfl
              exact g3
            · exfalso
              rw [← List.cons_append] at g2
              have he' : a :: l ++ [y] = (A' ++ y :: B'') ++ [z] := by simpa using g2
              obtain ⟨_, e⟩ := List.append_inj' he' rfl
              obtain rfl : y = z := by simpa using e
              exact before_irrefl wf hy (Or.inl (g4 y (by simp)))
          · rw [lastTop_append, h1] at g1
            simp only [Except.bind, lastTop, ho] at g1
            cases g1
        rw [← List.cons_append, List.mem_append, List.mem_singleton]
        constructor
        · rintro (hx | hx)
          · exact Or.inl hx
          · exact Or.inr ⟨hx, hout⟩
        · rintro (hx | ⟨hx, _⟩)
          · exact Or.inl hx
          · exact Or.inr hx
      · next hd =>
        intro hu
        obtain rfl : u0 = u := by simpa [Except.map] using hu
        constructor
        · exact Or.inl
        · rintro (hx | ⟨rfl, hs⟩)
          · exact hx
          · exact absurd (hrel.2.1.1 hd) (hs A t B h2 h4)
      · next => intro hu; cases hu

/-- `unique_parents` keeps the elements that stand out. -/
theorem uniqueParents_tops (wf : TreeWF h r) {l u : List Nat} (hl : ∀ x ∈ l, Within h r x) (hu : uniqueParents h l = .ok u) (x : Nat) :
    x ∈ u ↔ ∃ A B, l = A ++ x :: B ∧ StandsOut h A x := by
  cases l with
  | nil =>
    obtain rfl := Except.ok.inj hu
    simp
  | cons a l =>
    simp only [uniqueParents] at hu
    cases hf : uniqueParentsFrom h a l with
    | error e => rw [hf] at hu; cases hu
    | ok v =>
      rw [hf] at hu
      obtain rfl := Except.ok.inj hu
      exact uniqueParentsFrom_tops wf (hl a (by simp)) (fun x hx => hl x (List.mem_cons_of_mem _ hx)) hf x

end Visdom
