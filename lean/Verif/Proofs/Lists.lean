import Verif.Proofs.Nav
import Verif.Spec.Matcher
/-!
# Element lists: panicking folds, sibling orders, sibling reduction
-/
namespace Visdom
open Spec

theorem flatMapR_ok {α β : Type} {f : α → R (List β)} {g : α → List β} {l : List α}
    (hf : ∀ x ∈ l, f x = .ok (g x)) : flatMapR f l = .ok (l.flatMap g) := by
  induction l with
  | nil => rfl
  | cons a l ih =>
    simp only [flatMapR, hf a List.mem_cons_self, ih fun x hx => hf x (List.mem_cons_of_mem _ hx), List.flatMap_cons]

theorem flatMapR_inv {α β : Type} {f : α → R (List β)} {g : α → List β} {l : List α} {res : List β}
    (hr : flatMapR f l = .ok res) (hf : ∀ x ∈ l, ∀ y, f x = .ok y → y = g x) : res = l.flatMap g := by
  induction l generalizing res with
  | nil => simp only [flatMapR, Except.ok.injEq] at hr; simp [← hr]
  | cons a l ih =>
    simp only [flatMapR] at hr
    split at hr
    · cases hr
    · rename_i x hx
      split at hr
      · cases hr
      · rename_i y hy
        simp only [Except.ok.injEq] at hr
        rw [← hr, List.flatMap_cons, hf a List.mem_cons_self _ hx,
          ih hy fun x hx => hf x (List.mem_cons_of_mem _ hx)]

theorem filterR_ok {α : Type} {f : α → R Bool} {P : α → Bool} {l : List α}
    (hf : ∀ x ∈ l, f x = .ok (P x)) : filterR f l = .ok (l.filter P) := by
  induction l with
  | nil => rfl
  | cons a l ih =>
    simp only [filterR, hf a List.mem_cons_self, ih fun x hx => hf x (List.mem_cons_of_mem _ hx), List.filter_cons]

theorem filterR_inv {α : Type} {f : α → R Bool} {P : α → Bool} {l : List α} {res : List α}
    (hr : filterR f l = .ok res) (hf : ∀ x ∈ l, ∀ b, f x = .ok b → b = P x) : res = l.filter P := by
  induction l generalizing res with
  | nil => simp only [filterR, Except.ok.injEq] at hr; simp [← hr]
  | cons a l ih =>
    simp only [filterR] at hr
    split at hr
    · cases hr
    · rename_i b hb
      split at hr
      · cases hr
      · rename_i y hy
        simp only [Except.ok.injEq] at hr
        rw [← hr, List.filter_cons, hf a List.mem_cons_self _ hb,
          ih hy fun x hx => hf x (List.mem_cons_of_mem _ hx)]

theorem filterR_mem {α : Type} {f : α → R Bool} {l : List α} {res : List α}
    (hr : filterR f l = .ok res) : ∀ x, x ∈ res ↔ x ∈ l ∧ f x = .ok true := by
  induction l generalizing res with
  | nil => simp only [filterR, Except.ok.injEq] at hr; simp [← hr]
  | cons a l ih =>
    simp only [filterR] at hr
    split at hr
    · cases hr
    · rename_i b hb
      split at hr
      · cases hr
      · rename_i y hy
        simp only [Except.ok.injEq] at hr
        intro x
        have := ih hy x
        cases b
        · subst hr
          simp only [Bool.false_eq_true, if_false, List.mem_cons]
          rw [this]
          constructor
          · rintro ⟨h1, h2⟩; exact ⟨Or.inr h1, h2⟩
          · rintro ⟨rfl | h1, h2⟩
            · rw [hb] at h2; cases h2
            · exact ⟨h1, h2⟩
        · subst hr
          simp only [if_true, List.mem_cons]
          rw [this]
          constructor
          · rintro (rfl | ⟨h1, h2⟩)
            · exact ⟨Or.inl rfl, hb⟩
            · exact ⟨Or.inr h1, h2⟩
          · rintro ⟨rfl | h1, h2⟩
            · exact Or.inl rfl
            · exact Or.inr ⟨h1, h2⟩

theorem anyR_ok {α : Type} {f : α → R Bool} {P : α → Bool} {l : List α}
    (hf : ∀ x ∈ l, f x = .ok (P x)) : anyR f l = .ok (l.any P) := by
  induction l with
  | nil => rfl
  | cons a l ih =>
    simp only [anyR, hf a List.mem_cons_self, List.any_cons]
    cases hP : P a with
    | true => rfl
    | false => simpa using ih fun x hx => hf x (List.mem_cons_of_mem _ hx)

theorem anyR_inv {α : Type} {f : α → R Bool} {P : α → Bool} {l : List α} {b : Bool}
    (hr : anyR f l = .ok b) (hf : ∀ x ∈ l, ∀ b, f x = .ok b → b = P x) : b = l.any P := by
  induction l with
  | nil => simp only [anyR, Except.ok.injEq] at hr; simp [← hr]
  | cons a l ih =>
    simp only [anyR] at hr
    split at hr
    · cases hr
    · rename_i hb
      have := hf a List.mem_cons_self _ hb
      simp only [Except.ok.injEq] at hr
      simp [← this, ← hr]
    · rename_i hb
      have := hf a List.mem_cons_self _ hb
      rw [List.any_cons, ← this, Bool.false_or]
      exact ih hr fun x hx => hf x (List.mem_cons_of_mem _ hx)

/-- Keep the first element for every key. -/
def firstBy {κ : Type} [DecidableEq κ] (key : Nat → κ) : List κ → List Nat → List Nat
  | _, [] => []
  | seen, x :: l => if key x ∈ seen then firstBy key seen l else x :: firstBy key (key x :: seen) l

section
variable {κ : Type} [DecidableEq κ] {key : Nat → κ}

theorem firstBy_sublist (seen : List κ) (l : List Nat) : (firstBy key seen l).Sublist l := by
  induction l generalizing seen with
  | nil => exact List.Sublist.refl _
  | cons x l ih =>
    simp only [firstBy]
    split
    · exact (ih _).cons _
    · exact (ih _).cons_cons _

theorem firstBy_not_seen {seen : List κ} {l : List Nat} {x : Nat} (hx : x ∈ firstBy key seen l) : key x ∉ seen := by
  induction l generalizing seen with
  | nil => cases hx
  | cons a l ih =>
    simp only [firstBy] at hx
    split at hx
    · exact ih hx
    · rename_i hna
      rcases List.mem_cons.1 hx with rfl | hx
      · exact hna
      · have := ih hx
        simp only [List.mem_cons, not_or] at this
        exact this.2

theorem firstBy_pairwise (seen : List κ) (l : List Nat) :
    (firstBy key seen l).Pairwise (fun a b => key a ≠ key b) := by
  induction l generalizing seen with
  | nil => exact .nil
  | cons x l ih =>
    simp only [firstBy]
    split
    · exact ih _
    · refine List.pairwise_cons.2 ⟨?_, ih _⟩
      intro b hb he
      have := firstBy_not_seen hb
      rw [he] at this
      exact this List.mem_cons_self

theorem firstBy_cover {seen : List κ} {l : List Nat} {y : Nat} (hy : y ∈ l) (hs : key y ∉ seen) :
    ∃ l1 z l2, l = l1 ++ z :: l2 ∧ z ∈ firstBy key seen l ∧ key z = key y ∧ ∀ w ∈ l1, key w ≠ key y := by
  induction l generalizing seen with
  | nil => cases hy
  | cons x l ih =>
    by_cases hk : key x = key y
    · refine ⟨[], x, l, rfl, ?_, hk, by simp⟩
      simp only [firstBy]
      rw [if_neg (by rw [hk]; exact hs)]
      exact List.mem_cons_self
    · have hyl : y ∈ l := by
        rcases List.mem_cons.1 hy with rfl | h1
        · exact absurd rfl hk
        · exact h1
      simp only [firstBy]
      by_cases hx : key x ∈ seen
      · obtain ⟨l1, z, l2, h1, h2, h3, h4⟩ := ih hyl hs
        refine ⟨x :: l1, z, l2, by rw [h1]; rfl, by rw [if_pos hx]; exact h2, h3, ?_⟩
        intro w hw
        rcases List.mem_cons.1 hw with rfl | hw
        · exact hk
        · exact h4 w hw
      · obtain ⟨l1, z, l2, h1, h2, h3, h4⟩ := ih (seen := key x :: seen) hyl
          (by simp only [List.mem_cons, not_or]; exact ⟨fun e => hk e.symm, hs⟩)
        refine ⟨x :: l1, z, l2, by rw [h1]; rfl, by rw [if_neg hx]; exact List.mem_cons_of_mem _ h2, h3, ?_⟩
        intro w hw
        rcases List.mem_cons.1 hw with rfl | hw
        · exact hk
        · exact h4 w hw

end

/-- First occurrences of siblings come in increasing position; `seen` holds what came before. -/
def FirstAsc (h : Heap) : List Nat → List Nat → Prop
  | _, [] => True
  | seen, x :: l => (∀ y ∈ l, h.parent y = h.parent x → h.index y < h.index x → y ∈ seen) ∧ FirstAsc h (x :: seen) l

variable {h : Heap} {r : Nat}

theorem Spec.SibAsc.sublist {l l' : List Nat} (hs : SibAsc h l) (hsub : l'.Sublist l) : SibAsc h l' :=
  List.Pairwise.sublist hsub hs

theorem Spec.SibAsc.nodup {l : List Nat} (hs : SibAsc h l) : l.Nodup := by
  refine List.Pairwise.imp ?_ hs
  rintro a b hab rfl
  exact absurd (hab rfl) (Nat.lt_irrefl _)

theorem Spec.SibAsc.singleton (x : Nat) : SibAsc h [x] := List.pairwise_singleton _ _

theorem FirstAsc.mono {s s' l : List Nat} (hs : FirstAsc h s l) (hsub : ∀ x ∈ s, x ∈ s') : FirstAsc h s' l := by
  induction l generalizing s s' with
  | nil => trivial
  | cons x l ih =>
    refine ⟨fun y hy h1 h2 => hsub _ (hs.1 y hy h1 h2), ih hs.2 ?_⟩
    intro z hz
    rcases List.mem_cons.1 hz with rfl | hz
    · exact List.mem_cons_self
    · exact List.mem_cons_of_mem _ (hsub z hz)

theorem FirstAsc.filter {s l : List Nat} (P : Nat → Bool) (hs : FirstAsc h s l) :
    FirstAsc h (s.filter P) (l.filter P) := by
  induction l generalizing s with
  | nil => trivial
  | cons x l ih =>
    rw [List.filter_cons]
    cases hP : P x with
    | false =>
      simp only [Bool.false_eq_true, if_false]
      have := ih hs.2
      rw [List.filter_cons, hP] at this
      exact this
    | true =>
      simp only [if_true]
      refine ⟨?_, ?_⟩
      · intro y hy h1 h2
        rw [List.mem_filter] at hy ⊢
        exact ⟨hs.1 y hy.1 h1 h2, hy.2⟩
      · have := ih hs.2
        rw [List.filter_cons, hP] at this
        exact this

theorem FirstAsc.filter' {l : List Nat} (P : Nat → Bool) (hs : FirstAsc h [] l) : FirstAsc h [] (l.filter P) :=
  FirstAsc.filter P hs

theorem Spec.SibAsc.firstAsc {l : List Nat} (hs : SibAsc h l) (s : List Nat) : FirstAsc h s l := by
  induction l generalizing s with
  | nil => trivial
  | cons x l ih =>
    obtain ⟨h1, h2⟩ := List.pairwise_cons.1 hs
    refine ⟨?_, ih h2 _⟩
    intro y hy hp hi
    have := h1 y hy hp.symm
    omega

/-- A list made of blocks, where a block that has one of several listed siblings has them all. -/
theorem firstAsc_blocks {G : Nat → List Nat} {L : List Nat} (hasc : ∀ a ∈ L, SibAsc h (G a))
    (hcl : ∀ a ∈ L, ∀ b ∈ L, ∀ x ∈ G a, ∀ y ∈ G b, h.parent y = h.parent x → y ∈ G a) (s : List Nat) :
    FirstAsc h s (L.flatMap G) := by
  induction L generalizing s with
  | nil => trivial
  | cons a L ih =>
    rw [List.flatMap_cons]
    have hB := hasc a List.mem_cons_self
    have hrest : ∀ y ∈ L.flatMap G, ∀ x ∈ G a, h.parent y = h.parent x → y ∈ G a := by
      intro y hy x hx hp
      obtain ⟨b, hb, hyb⟩ := List.mem_flatMap.1 hy
      exact hcl a List.mem_cons_self b (List.mem_cons_of_mem _ hb) x hx y hyb hp
    have ihs := fun s => ih (fun b hb => hasc b (List.mem_cons_of_mem _ hb))
      (fun b hb c hc => hcl b (List.mem_cons_of_mem _ hb) c (List.mem_cons_of_mem _ hc)) s
    generalize L.flatMap G = rest at *
    -- run through the block
    have key : ∀ B1 B2, G a = B1 ++ B2 → ∀ s, (∀ x ∈ B1, x ∈ s) → FirstAsc h s (B2 ++ rest) := by
      intro B1 B2
      induction B2 generalizing B1 with
      | nil => intro _ s _; exact ihs s
      | cons x B2 ih2 =>
        intro hG s hs
        refine ⟨?_, ?_⟩
        · intro y hy hp hi
          have hxG : x ∈ G a := by rw [hG]; simp
          have hyG : y ∈ G a := by
            rcases List.mem_append.1 hy with h1 | h1
            · rw [hG]; simp [h1]
            · exact hrest y h1 x hxG hp
          rw [hG] at hyG hB
          rcases List.mem_append.1 hyG with h1 | h1
          · exact hs y h1
          · exfalso
            rcases List.mem_cons.1 h1 with rfl | h1
            · omega
            · have h2 := (List.pairwise_append.1 hB).2.1
              have := (List.pairwise_cons.1 h2).1 y h1 hp.symm
              omega
        · refine ih2 (B1 ++ [x]) (by rw [hG]; simp) (x :: s) ?_
          intro z hz
          rcases List.mem_append.1 hz with h1 | h1
          · exact List.mem_cons_of_mem _ (hs z h1)
          · simp at h1; subst h1; exact List.mem_cons_self
    exact key [] (G a) rfl s (by simp)

/-- In a list with ascending first occurrences the first listed sibling is the earliest one. -/
theorem FirstAsc.head_min {s l1 l2 : List Nat} {z y : Nat} (hs : FirstAsc h s (l1 ++ z :: l2))
    (hy : y ∈ l1 ++ z :: l2) (hp : h.parent y = h.parent z) (h1 : ∀ w ∈ l1, h.parent w ≠ h.parent y)
    (h2 : ∀ w ∈ s, h.parent w ≠ h.parent y) : h.index z ≤ h.index y := by
  induction l1 generalizing s with
  | nil =>
    rcases List.mem_cons.1 hy with rfl | hy
    · exact Nat.le_refl _
    · by_contra hlt
      exact h2 y (hs.1 y hy hp (by omega)) rfl
  | cons a l1 ih =>
    refine ih hs.2 ?_ (fun w hw => h1 w (List.mem_cons_of_mem _ hw)) ?_
    · rcases List.mem_cons.1 hy with rfl | hy
      · exact absurd rfl (h1 _ List.mem_cons_self)
      · exact hy
    · intro w hw
      rcases List.mem_cons.1 hw with rfl | hw
      · exact h1 _ List.mem_cons_self
      · exact h2 w hw

section
variable (wf : TreeWF h r)
include wf

theorem treeIndexs_inj {x y : Nat} (hx : Within h r x) (hy : Within h r y) (he : h.treeIndexs x = h.treeIndexs y) :
    x = y := (compare_eq_iff wf hx hy).1 (compareIndexs_eq.2 he)

theorem docSorted_sibAsc {l : List Nat} (hl : ∀ x ∈ l, Within h r x) (hs : DocSorted h r l) : SibAsc h l := by
  refine List.Pairwise.imp_of_mem ?_ hs
  intro a b ha hb hab hp
  have hab' := hab
  have hna : a ≠ b := by rintro rfl; exact before_irrefl wf (hl a ha) hab
  cases hpa : h.parent a with
  | none =>
    exfalso
    have key : ∀ x, Within h r x → h.parent x = none → x = r := by
      intro x hx hx0
      by_contra hne
      obtain ⟨p, h1, _⟩ := parent_inv wf hx hne
      rw [hx0] at h1; cases h1
    exact hna ((key a (hl a ha) hpa).trans (key b (hl b hb) (hp ▸ hpa)).symm)
  | some p =>
    rw [hpa] at hp
    obtain ⟨hpw, hia⟩ := parent_some wf (hl a ha) hpa
    obtain ⟨_, hib⟩ := parent_some wf (hl b hb) hp.symm
    rcases Nat.lt_trichotomy (h.index a) (h.index b) with h1 | h1 | h1
    · exact h1
    · exfalso; rw [h1, hib] at hia; exact hna (by simpa using hia.symm)
    · exfalso
      refine before_asymm wf (hl a ha) (hl b hb) hab' ?_
      exact Or.inr ⟨p, _, _, b, a, hpw, h1, hib, hia, .self, .self⟩

theorem foldl_sibStep {l : List Nat} (hl : ∀ x ∈ l, Within h r x) (s : SibState) (ks : List (Option Nat))
    (h1 : ∀ p, Within h r p → (h.treeIndexs p ∈ s.seen ↔ some p ∈ ks))
    (h2 : s.hasRoot = true ↔ none ∈ ks) (h3 : ∀ p, s.prev = some p → some p ∈ ks) :
    (l.foldl (sibStep h) s).kept = s.kept ++ firstBy h.parent ks l := by
  induction l generalizing s ks with
  | nil => simp [firstBy]
  | cons x l ih =>
    have hx := hl x List.mem_cons_self
    have ih' := ih (fun y hy => hl y (List.mem_cons_of_mem _ hy))
    rw [List.foldl_cons]
    cases hp : h.parent x with
    | none =>
      simp only [firstBy, sibStep, hp]
      by_cases hr : s.hasRoot = true
      · rw [if_pos hr, if_pos (h2.1 hr)]
        exact ih' s ks h1 h2 h3
      · rw [if_neg hr, if_neg (fun e => hr (h2.2 e))]
        rw [ih' { s with hasRoot := true, kept := s.kept ++ [x] } (none :: ks) (by simpa using h1) (by simp)
          (fun p hp => List.mem_cons_of_mem _ (h3 p hp))]
        simp
    | some p =>
      obtain ⟨hpw, _⟩ := parent_some wf hx hp
      simp only [firstBy, sibStep, hp]
      by_cases hprev : s.prev = some p
      · rw [if_pos hprev, if_pos (h3 p hprev)]
        exact ih' s ks h1 h2 h3
      · rw [if_neg hprev]
        by_cases hin : h.treeIndexs p ∈ s.seen
        · rw [if_pos hin, if_pos ((h1 p hpw).1 hin)]
          refine ih' { s with prev := some p } ks h1 h2 ?_
          intro q hq
          have : p = q := by simpa using hq
          subst this
          exact (h1 p hpw).1 hin
        · rw [if_neg hin, if_neg (fun e => hin ((h1 p hpw).2 e))]
          rw [ih' { s with prev := some p, seen := h.treeIndexs p :: s.seen, kept := s.kept ++ [x] } (some p :: ks)]
          · simp
          · intro q hq
            simp only [List.mem_cons, Option.some.injEq, h1 q hq]
            constructor
            · rintro (he | he)
              · exact Or.inl (treeIndexs_inj wf hq hpw he)
              · exact Or.inr he
            · rintro (rfl | he)
              · exact Or.inl rfl
              · exact Or.inr he
          · simpa using h2
          · intro q hq
            have : p = q := by simpa using hq
            subst this
            exact List.mem_cons_self

theorem uniqueSiblingFirst_eq {l : List Nat} (hl : ∀ x ∈ l, Within h r x) :
    uniqueSiblingFirst h l = firstBy h.parent [] l := by
  unfold uniqueSiblingFirst
  rw [foldl_sibStep wf hl {} [] (by simp) (by simp) (by simp)]
  simp

theorem uniqueSiblingLast_eq {l : List Nat} (hl : ∀ x ∈ l, Within h r x) :
    uniqueSiblingLast h l = (firstBy h.parent [] l.reverse).reverse := by
  unfold uniqueSiblingLast
  rw [foldl_sibStep wf (fun x hx => hl x (List.mem_reverse.1 hx)) {} [] (by simp) (by simp) (by simp)]
  simp

end
end Visdom
