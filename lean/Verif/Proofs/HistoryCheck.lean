import Verif.Proofs.ParseSample
/-!
# A test for histories

Used only to exhibit concrete histories beside the theorems.
-/
namespace Visdom
open Spec

/-- Test for `Attached`. -/
def attachedB (h : Heap) (U : List Nat) (x : Nat) : Bool :=
  match h.parent x with
  | none => true
  | some p => !U.contains p && ((h.kids p)[h.index x]? == some x)

/-- Test for `Usable`. -/
def usableB (e : Ext) (h : Heap) (U : List Nat) : Op → Bool
  | .remove x => attachedB h U x
  | .removeText x => attachedB h U x
  | .insert _ t n => attachedB h U t && attachedB h U n && !U.contains n && decide (n < h.size) && decide (t < h.size)
  | .replace t n => attachedB h U t && attachedB h U n && !U.contains n && decide (n < h.size) &&
      !(((h.node n).kind == .root) && e.isDoc h n) && decide (t ≠ n) &&
      (match h.hasAncestor (h.size + 1) t n with | .ok b => !b | .error _ => false)
  | .setText x _ => decide (x < h.size)
  | .appendText x _ => (h.node x).content.isSome
  | .prependText x _ => (h.node x).content.isSome
  | .setHtml x s => decide (x < h.size) && attachedB h U x && (match e.parse h s with | .ok _ => true | .error _ => false) &&
      (match h.parent x with | none => true | some p => ((h.node x).kind == .tag) || ((h.node p).kind == .tag))
  | .load s => (match e.parse h s with | .ok _ => true | .error _ => false)

/-- The fragments used, as a list. -/
def usedB (e : Ext) (h : Heap) (U : List Nat) : Op → Option (List Nat)
  | .insert _ t n => match h.validate e t n with
    | .ok b => some (if b && ((h.node n).kind == .root) then n :: U else U)
    | .error _ => none
  | .replace _ n => some (if (h.node n).kind == .root then n :: U else U)
  | _ => some U

/-- Test for `History`. -/
def histB (e : Ext) : Heap → List Nat → List Op → Bool
  | _, _, [] => true
  | h, U, op :: ops => usableB e h U op &&
    match usedB e h U op with
    | none => false
    | some U' => match op.run e h with
      | .ok h' => histB e h' U' ops
      | .error _ => true

section
variable {h : Heap} {e : Ext}

theorem attachedB_sound {U : List Nat} {x : Nat} (hc : attachedB h U x = true) : Attached h (· ∈ U) x := by
  intro p hp
  unfold attachedB at hc
  rw [hp] at hc
  simpa using hc

theorem hasAncestor_sound (n k : Nat) : ∀ t b, h.hasAncestor k t n = .ok b → (b = true ↔ Above h n t) := by
  induction k with
  | zero => intro t b hb; cases hb
  | succ k ih =>
    intro t b hb
    unfold Heap.hasAncestor at hb
    cases hp : h.parent t with
    | none =>
      rw [hp] at hb
      cases hb
      refine ⟨by simp, fun h1 => ?_⟩
      cases h1 with
      | parent h2 => rw [hp] at h2; cases h2
      | step _ h2 => rw [hp] at h2; cases h2
    | some p =>
      rw [hp] at hb
      simp only [] at hb
      split at hb
      · rename_i e1; subst e1; cases hb; exact ⟨fun _ => .parent hp, fun _ => rfl⟩
      · rename_i hne
        refine (ih p b hb).trans ⟨fun h3 => .step h3 hp, fun h3 => ?_⟩
        rcases above_cases h3 hp with e1 | h4
        · exact absurd e1.symm hne
        · exact h4

theorem validate_sound {t n : Nat} {b : Bool} (hb : h.validate e t n = .ok b) : (b = true ↔ Accepted e h t n) := by
  unfold Heap.validate at hb
  unfold Accepted IsDoc
  have hE : h.isElem t = true ↔ (h.node t).kind = .tag := by simp [Heap.isElem]
  have hR : h.isRoot n = true ↔ (h.node n).kind = .root := by simp [Heap.isRoot]
  split at hb
  · rename_i h1
    cases hb
    refine ⟨by simp, fun h2 => ?_⟩
    rw [hE.2 h2.1] at h1
    cases h1
  · rename_i h1
    simp only [Bool.not_eq_true', Bool.not_eq_false] at h1
    split at hb
    · rename_i h2
      simp only [Bool.and_eq_true] at h2
      cases hb
      exact ⟨by simp, fun h3 => absurd ⟨hR.1 h2.1, h2.2⟩ h3.2.1⟩
    · rename_i h2
      simp only [Bool.and_eq_true] at h2
      split at hb
      · rename_i h3
        cases hb
        exact ⟨by simp, fun h4 => absurd h3 h4.2.2.1⟩
      · rename_i h3
        cases h4 : h.hasAncestor (h.size + 1) t n with
        | error x => rw [h4] at hb; cases hb
        | ok c =>
          rw [h4] at hb
          cases hb
          have h5 := hasAncestor_sound n _ t c h4
          rw [Bool.not_eq_true', ← Bool.not_eq_true, h5]
          exact ⟨fun h6 => ⟨hE.1 h1, fun h7 => h2 ⟨hR.2 h7.1, h7.2⟩, h3, h6⟩, fun h6 => h6.2.2.2⟩

theorem usableB_sound {U : List Nat} {op : Op} (hc : usableB e h U op = true) : Usable e h (· ∈ U) op := by
  cases op with
  | remove x => exact attachedB_sound hc
  | removeText x => exact attachedB_sound hc
  | insert pos t n =>
    simp only [usableB, Bool.and_eq_true, decide_eq_true_iff, Bool.not_eq_true', List.contains_eq_mem, decide_eq_false_iff_not] at hc
    exact ⟨attachedB_sound hc.1.1.1.1, attachedB_sound hc.1.1.1.2, hc.1.1.2, hc.1.2, hc.2⟩
  | replace t n =>
    simp only [usableB, Bool.and_eq_true, decide_eq_true_iff, Bool.not_eq_true', List.contains_eq_mem, decide_eq_false_iff_not] at hc
    obtain ⟨⟨⟨⟨⟨⟨c1, c2⟩, c3⟩, c4⟩, c5⟩, c6⟩, c7⟩ := hc
    refine ⟨attachedB_sound c1, attachedB_sound c2, c3, c4, fun h1 => ?_, c6, ?_⟩
    · rw [h1.1, h1.2] at c5; cases c5
    · cases h2 : h.hasAncestor (h.size + 1) t n with
      | error x => rw [h2] at c7; cases c7
      | ok b =>
        rw [h2] at c7
        cases b with
        | true => cases c7
        | false => exact fun h3 => absurd ((hasAncestor_sound n _ t _ h2).2 h3) (by simp)
  | setText x s => simpa [usableB, Usable] using hc
  | appendText x s => simpa [usableB, Usable] using hc
  | prependText x s => simpa [usableB, Usable] using hc
  | setHtml x s =>
    simp only [usableB, Bool.and_eq_true, decide_eq_true_iff] at hc
    obtain ⟨⟨⟨c1, c2⟩, c3⟩, c4⟩ := hc
    refine ⟨c1, fun _ => attachedB_sound c2, ?_, fun p hp hk => ?_⟩
    · cases h1 : e.parse h s with
      | ok r => exact ⟨r, rfl⟩
      | error x => rw [h1] at c3; cases c3
    · rw [hp] at c4
      simpa [hk] using c4
  | load s =>
    cases h1 : e.parse h s with
    | ok r => exact ⟨r, h1⟩
    | error x => simp [usableB, h1] at hc

theorem usedB_sound {U U' : List Nat} {op : Op} (hc : usedB e h U op = some U') :
    (fun x => Used e h (· ∈ U) x op) = (· ∈ U') := by
  funext x
  apply propext
  cases op with
  | insert pos t n =>
    simp only [usedB] at hc
    cases h1 : h.validate e t n with
    | error y => rw [h1] at hc; cases hc
    | ok b =>
      rw [h1] at hc
      have h2 := validate_sound h1
      simp only [Option.some.injEq] at hc
      subst hc
      simp only [Used, ← h2]
      by_cases hk : (h.node n).kind = .root <;> cases b <;> simp [hk]
      tauto
  | replace t n =>
    simp only [usedB, Option.some.injEq] at hc
    subst hc
    simp only [Used]
    by_cases hk : (h.node n).kind = .root <;> simp [hk]
    tauto
  | _ =>
    simp only [usedB, Option.some.injEq] at hc
    subst hc
    rfl

theorem histB_sound (ops : List Op) : ∀ (h : Heap) (U : List Nat), histB e h U ops = true → History e h (· ∈ U) ops := by
  induction ops with
  | nil => exact fun _ _ _ => trivial
  | cons op ops ih =>
    intro h U hc
    simp only [histB, Bool.and_eq_true] at hc
    obtain ⟨c1, c2⟩ := hc
    refine ⟨usableB_sound c1, fun h' hr => ?_⟩
    cases hu : usedB e h U op with
    | none => rw [hu] at c2; cases c2
    | some U' =>
      rw [hu] at c2
      simp only [hr] at c2
      rw [usedB_sound hu]
      exact ih h' U' c2

end

theorem noneUsed_eq : noneUsed = (· ∈ ([] : List Nat)) := by funext x; simp [noneUsed]

end Visdom
