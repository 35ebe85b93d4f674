import Verif.Spec.Tree
import Mathlib.Data.List.Nodup
import Mathlib.Data.List.Range
import Mathlib.Data.List.Perm.Subperm
/-! Paths, depth, and uniqueness of position in well formed trees. -/
namespace Visdom
open Spec

theorem Spec.Within.trans {h : Heap} {x y z : Nat} (a : Within h x y) (b : Within h y z) : Within h x z := by
  induction b with
  | self => exact a
  | step _ hc ih => exact .step ih hc

theorem Spec.Within.head {h : Heap} {x c y : Nat} (hc : c ∈ h.kids x) (b : Within h c y) : Within h x y :=
  Within.trans (.step .self hc) b

theorem Spec.Below.within {h : Heap} {x y : Nat} (b : Below h x y) : Within h x y := by
  obtain ⟨c, hc, hw⟩ := b
  exact Within.head hc hw

theorem within_cases {h : Heap} {x y : Nat} (w : Within h x y) : x = y ∨ Below h x y := by
  induction w with
  | self => exact Or.inl rfl
  | step w hc ih =>
    right
    rcases ih with rfl | ⟨d, hd, hw⟩
    · exact ⟨_, hc, .self⟩
    · exact ⟨d, hd, .step hw hc⟩

theorem Spec.Below.trans {h : Heap} {x y z : Nat} (a : Below h x y) (b : Below h y z) : Below h x z := by
  obtain ⟨c, hc, hw⟩ := a
  exact ⟨c, hc, hw.trans b.within⟩

theorem Spec.Below.of_child {h : Heap} {x c : Nat} (hc : c ∈ h.kids x) : Below h x c := ⟨c, hc, .self⟩

/-- `At h x π y`: following the child positions `π` from `x` leads to `y`. -/
inductive At (h : Heap) (x : Nat) : List Nat → Nat → Prop
  | here : At h x [] x
  | step {π : List Nat} {p c i : Nat} : At h x π p → (h.kids p)[i]? = some c → At h x (π ++ [i]) c

theorem At.within {h : Heap} {x y : Nat} {π : List Nat} (a : At h x π y) : Within h x y := by
  induction a with
  | here => exact .self
  | step _ hc ih => exact .step ih (List.mem_of_getElem? hc)

theorem Spec.Within.path {h : Heap} {x y : Nat} (w : Within h x y) : ∃ π, At h x π y := by
  induction w with
  | self => exact ⟨[], .here⟩
  | step _ hc ih =>
    obtain ⟨π, hπ⟩ := ih
    obtain ⟨i, hi⟩ := List.getElem?_of_mem hc
    exact ⟨π ++ [i], .step hπ hi⟩

theorem At.nil_inv {h : Heap} {x y : Nat} (a : At h x [] y) : y = x := by
  generalize hπ : ([] : List Nat) = π at a
  cases a with
  | here => rfl
  | step _ _ => simp at hπ

theorem At.snoc_inv {h : Heap} {x y i : Nat} {π : List Nat} (a : At h x (π ++ [i]) y) :
    ∃ p, At h x π p ∧ (h.kids p)[i]? = some y := by
  generalize hπ : π ++ [i] = π' at a
  cases a with
  | here => simp at hπ
  | step a hc =>
    have := List.append_inj' hπ rfl
    obtain ⟨rfl, e⟩ := this
    simp at e
    subst e
    exact ⟨_, a, hc⟩

/-- A path leads to one node. -/
theorem At.unique {h : Heap} {x y z : Nat} {π : List Nat} (a : At h x π y) (b : At h x π z) : y = z := by
  induction a generalizing z with
  | here => exact b.nil_inv.symm
  | step _ hc ih =>
    obtain ⟨p, hp, hz⟩ := b.snoc_inv
    rw [ih hp, hz] at hc
    simpa using hc.symm

theorem At.append {h : Heap} {x y z : Nat} {π ρ : List Nat} (a : At h x π y) (b : At h y ρ z) : At h x (π ++ ρ) z := by
  induction b with
  | here => simpa using a
  | step _ hc ih => rw [← List.append_assoc]; exact .step ih hc

theorem At.cons {h : Heap} {x c z i : Nat} {ρ : List Nat} (hc : (h.kids x)[i]? = some c) (b : At h c ρ z) :
    At h x (i :: ρ) z := by
  have : At h x ([] ++ [i]) c := .step .here hc
  exact At.append this b

theorem At.split {h : Heap} {x z : Nat} (π ρ : List Nat) (a : At h x (π ++ ρ) z) :
    ∃ y, At h x π y ∧ At h y ρ z := by
  induction ρ using List.reverseRecOn generalizing z with
  | nil => exact ⟨z, by simpa using a, .here⟩
  | append_singleton ρ i ih =>
    rw [← List.append_assoc] at a
    obtain ⟨p, hp, hc⟩ := a.snoc_inv
    obtain ⟨y, h1, h2⟩ := ih hp
    exact ⟨y, h1, .step h2 hc⟩

theorem At.cons_inv {h : Heap} {x z i : Nat} {ρ : List Nat} (a : At h x (i :: ρ) z) :
    ∃ c, (h.kids x)[i]? = some c ∧ At h c ρ z := by
  obtain ⟨y, h1, h2⟩ := At.split [i] ρ a
  have h1' : At h x ([] ++ [i]) y := h1
  obtain ⟨p, hp, hc⟩ := h1'.snoc_inv
  rw [hp.nil_inv] at hc
  exact ⟨y, hc, h2⟩

section
variable {h : Heap} {r : Nat} (wf : TreeWF h r)
include wf

/-- No child of a tree node is the root. -/
theorem child_ne_root {p c : Nat} (hp : Within h r p) (hc : c ∈ h.kids p) : c ≠ r := by
  rintro rfl
  obtain ⟨i, hi⟩ := List.getElem?_of_mem hc
  have := (wf.link _ _ _ hp hi).1
  rw [wf.rootParent] at this
  cases this

theorem parent_of_child {p c : Nat} (hp : Within h r p) (hc : c ∈ h.kids p) : h.parent c = some p := by
  obtain ⟨i, hi⟩ := List.getElem?_of_mem hc
  exact (wf.link _ _ _ hp hi).1

/-- A node has one path from the root. -/
theorem path_unique {x : Nat} {π ρ : List Nat} (a : At h r π x) (b : At h r ρ x) : π = ρ := by
  induction a generalizing ρ with
  | here =>
    rcases List.eq_nil_or_concat ρ with rfl | ⟨ρ', j, rfl⟩
    · rfl
    · rw [List.concat_eq_append] at b
      obtain ⟨q, hq, hc⟩ := b.snoc_inv
      exact absurd rfl (child_ne_root wf hq.within (List.mem_of_getElem? hc))
  | @step π p c i a hc ih =>
    have l1 := wf.link _ _ _ a.within hc
    rcases List.eq_nil_or_concat ρ with rfl | ⟨ρ', j, rfl⟩
    · have := b.nil_inv
      exact absurd this (child_ne_root wf a.within (List.mem_of_getElem? hc))
    · rw [List.concat_eq_append] at b ⊢
      obtain ⟨q, hq, hc'⟩ := b.snoc_inv
      have l2 := wf.link _ _ _ hq.within hc'
      have hpq : p = q := by
        have := l1.1.symm.trans l2.1
        simpa using this
      subst hpq
      rw [ih hq, ← l1.2, ← l2.2]

/-- The nodes on a path are distinct, so a path is shorter than the heap. -/
theorem path_nodes {x : Nat} {π : List Nat} (a : At h r π x) :
    ∃ L : List Nat, L.length = π.length + 1 ∧ L.Nodup ∧
      ∀ y ∈ L, ∃ ρ, At h r ρ y ∧ ρ.length ≤ π.length := by
  induction a with
  | here => exact ⟨[r], rfl, by simp, by intro y hy; simp at hy; subst hy; exact ⟨[], .here, Nat.le_refl _⟩⟩
  | @step π p c i a hc ih =>
    obtain ⟨L, h1, h2, h3⟩ := ih
    refine ⟨c :: L, by simp [h1], ?_, ?_⟩
    · rw [List.nodup_cons]
      refine ⟨fun hm => ?_, h2⟩
      obtain ⟨ρ, hρ, hl⟩ := h3 c hm
      have := path_unique wf hρ (At.step a hc)
      subst this
      simp only [List.length_append, List.length_singleton] at hl
      omega
    · intro y hy
      rcases List.mem_cons.1 hy with rfl | hy
      · exact ⟨π ++ [i], .step a hc, Nat.le_refl _⟩
      · obtain ⟨ρ, hρ, hl⟩ := h3 y hy
        exact ⟨ρ, hρ, by simp; omega⟩

theorem path_length {x : Nat} {π : List Nat} (a : At h r π x) : π.length < h.size := by
  obtain ⟨L, h1, h2, h3⟩ := path_nodes wf a
  have hsub : L ⊆ List.range h.size := by
    intro y hy
    obtain ⟨ρ, hρ, _⟩ := h3 y hy
    exact List.mem_range.2 (wf.bound y hρ.within)
  have := (List.Nodup.subperm h2 hsub).length_le
  rw [List.length_range] at this
  omega

theorem pathFuel_eq {x : Nat} {π : List Nat} (a : At h r π x) {n : Nat} (hn : π.length < n) :
    h.pathFuel n x = h.index r :: π := by
  induction a generalizing n with
  | here =>
    cases n with
    | zero => simp at hn
    | succ n => simp [Heap.pathFuel, wf.rootParent]
  | @step π p c i a hc ih =>
    cases n with
    | zero => simp at hn
    | succ n =>
      have l := wf.link _ _ _ a.within hc
      simp only [Heap.pathFuel, l.1, l.2]
      rw [ih (by simp at hn; omega)]
      simp

/-- `get_tree_indexs` on a tree node is the root's index followed by the node's path. -/
theorem treeIndexs_eq {x : Nat} {π : List Nat} (a : At h r π x) : h.treeIndexs x = h.index r :: π :=
  pathFuel_eq wf a (by have := path_length wf a; omega)

theorem below_iff_path {x y : Nat} {π ρ : List Nat} (a : At h r π x) (b : At h r ρ y) :
    Below h x y ↔ ∃ σ, σ ≠ [] ∧ ρ = π ++ σ := by
  constructor
  · rintro ⟨c, hc, hw⟩
    obtain ⟨i, hi⟩ := List.getElem?_of_mem hc
    obtain ⟨τ, hτ⟩ := hw.path
    refine ⟨i :: τ, by simp, ?_⟩
    exact path_unique wf b (a.append (At.cons hi hτ))
  · rintro ⟨σ, hσ, rfl⟩
    obtain ⟨x', h1, h2⟩ := At.split π σ b
    have := At.unique h1 a
    subst this
    cases σ with
    | nil => exact absurd rfl hσ
    | cons i σ =>
      obtain ⟨c, hc, hz⟩ := h2.cons_inv
      exact ⟨c, List.mem_of_getElem? hc, hz.within⟩

theorem within_iff_path {x y : Nat} {π ρ : List Nat} (a : At h r π x) (b : At h r ρ y) :
    Within h x y ↔ ∃ σ, ρ = π ++ σ := by
  constructor
  · intro hw
    obtain ⟨τ, hτ⟩ := hw.path
    exact ⟨τ, path_unique wf b (a.append hτ)⟩
  · rintro ⟨σ, rfl⟩
    obtain ⟨x', h1, h2⟩ := At.split π σ b
    have := At.unique h1 a
    subst this
    exact h2.within

/-- An ancestor-or-self chain: if `y` is within a tree node then it is a tree node. -/
theorem within_tree {x y : Nat} (hx : Within h r x) (hw : Within h x y) : Within h r y := hx.trans hw

/-- The position in a child list is unique. -/
theorem child_index_unique {p c i j : Nat} (hp : Within h r p) (hi : (h.kids p)[i]? = some c)
    (hj : (h.kids p)[j]? = some c) : i = j := by
  rw [← (wf.link _ _ _ hp hi).2, ← (wf.link _ _ _ hp hj).2]

theorem kids_nodup {p : Nat} (hp : Within h r p) : (h.kids p).Nodup := by
  rw [List.nodup_iff_injective_getElem]
  rintro ⟨i, hi⟩ ⟨j, hj⟩ hij
  have := child_index_unique wf hp (i := i) (j := j) (c := (h.kids p)[i]) (List.getElem?_eq_getElem hi)
    (by rw [List.getElem?_eq_getElem hj]; exact congrArg some hij.symm)
  simpa using this

/-- Every node of the tree other than the root is at its index in the child list of its parent, which is in the tree. -/
theorem parent_inv {x : Nat} (hx : Within h r x) (hne : x ≠ r) :
    ∃ p, h.parent x = some p ∧ Within h r p ∧ (h.kids p)[h.index x]? = some x := by
  cases hx with
  | self => exact absurd rfl hne
  | @step p c hp hc =>
    obtain ⟨i, hi⟩ := List.getElem?_of_mem hc
    have l := wf.link _ _ _ hp hi
    exact ⟨p, l.1, hp, by rw [l.2]; exact hi⟩

theorem elem_ne_root {x : Nat} (hx : h.isElem x = true) : x ≠ r := by
  rintro rfl
  unfold Heap.isElem at hx
  rw [wf.rootKind] at hx
  cases hx

/-- A node with a parent in the tree: the parent. -/
theorem parent_some {x p : Nat} (hx : Within h r x) (hp : h.parent x = some p) :
    Within h r p ∧ (h.kids p)[h.index x]? = some x := by
  by_cases hne : x = r
  · subst hne; rw [wf.rootParent] at hp; cases hp
  · obtain ⟨q, h1, h2, h3⟩ := parent_inv wf hx hne
    rw [h1] at hp
    simp at hp
    subst hp
    exact ⟨h2, h3⟩

theorem not_below_self {x : Nat} (hx : Within h r x) : ¬ Below h x x := by
  obtain ⟨π, hπ⟩ := hx.path
  rw [below_iff_path wf hπ hπ]
  rintro ⟨σ, hσ, e⟩
  have := congrArg List.length e
  simp at this
  exact hσ this

end
end Visdom
