import Verif.Proofs.Ident
import Verif.Proofs.Mutate
import Verif.Spec.Samples
import Verif.Spec.ForestCheck
/-!
# C39: what the handles of the set refer to after `replace_with`
-/
namespace Visdom
open Spec

variable {e : Ext} {h h1 : Heap}

/-- One replacement by a fragment. -/
theorem replaceWith_fragment {t n k : Nat} (hf : h.isFragment e n = true) (ht : h.parent t ≠ some n) (he : h.replaceWith e t n = .ok (h1, k)) :
    k = (match h.kids n with | [c] => c | _ => t) ∧ h1.kids n = h.kids n ∧ ∀ y, h1.parent y = some n → h.parent y = some n := by
  unfold Heap.replaceWith at he
  have htk : h.takeNodes e n = .ok (h, h.kids n) := by rw [Heap.takeNodes, if_pos hf]
  dsimp only [Except.map] at he
  rw [if_pos hf] at he
  split at he
  · cases he
  rename_i heq
  rw [htk] at heq
  cases heq
  split at he
  · rename_i hk
    cases he
    rw [List.isEmpty_iff] at hk
    simp [hk]
  · split at he
    · cases he
    · rename_i g1 hres
      have hg := Prod.mk.inj (Except.ok.inj he)
      have hk : k = (match h.kids n with | [c] => c | _ => t) := by
        rw [← hg.2]
        split <;> simp_all
      obtain rfl := hg.1
      refine ⟨hk, ?_⟩
      clear he hg
      split at hres
      · cases hres; exact ⟨rfl, fun _ h => h⟩
      · rename_i p hp
        have hne : p ≠ n := fun hpn => ht (by rw [hp, hpn])
        repeat' split at hres
        all_goals cases hres
        · exact ⟨rfl, fun _ h => h⟩
        · refine ⟨?_, fun y hy => ?_⟩
          · rw [setChilds_kids, if_neg (Ne.symm hne), kids_of_childs ((setParent_fields _ _ _).2.1 n), kids_of_childs ((resetIndex_fields _ _ _).2.1 n),
              kids_of_childs ((resetIndex_fields _ _ _).2.1 n)]
          · rw [setChilds_parent, (setParent_fields _ _ _).2.2.1 y] at hy
            split at hy
            · exact absurd (Option.some.inj hy) hne
            · rwa [(resetIndex_fields _ _ _).2.2.1 y, (resetIndex_fields _ _ _).2.2.1 y] at hy

/-- C39: a fragment in the place of every element of a set, none of which is a child of the fragment: afterwards every member of the set refers to
the one node of the fragment, or still, if the fragment holds no or several nodes, to the element it referred to before; the order is that of the
set. -/
theorem C39_handles_fragment {n : Nat} (hd : ∀ g, e.isDoc g n = false) :
    ∀ {X l : List Nat} {h h1 : Heap}, (h.node n).kind = .root → (∀ t ∈ X, h.parent t ≠ some n) → replaceAll e [n] h X = .ok (h1, l) →
      l = X.map fun t => match h.kids n with | [c] => c | _ => t := by
  intro X
  induction X with
  | nil => intro l h h1 _ _ he; cases he; rfl
  | cons t X ih =>
    intro l h h1 hk hX he
    have hf : h.isFragment e n = true := by simp [Heap.isFragment, Heap.isRoot, hk, hd h]
    rw [replaceAll] at he
    simp only [List.reverse_cons, List.reverse_nil, List.nil_append, replaceLoop] at he
    cases hw : h.replaceWith e t n with
    | error x => rw [hw] at he; cases he
    | ok q =>
      obtain ⟨g, k⟩ := q
      rw [hw] at he
      dsimp only at he
      obtain ⟨h2, h3, h4⟩ := replaceWith_fragment hf (hX t (by simp)) hw
      cases ha : replaceAll e [n] g X with
      | error x => rw [ha] at he; cases he
      | ok q =>
        obtain ⟨g', l'⟩ := q
        rw [ha] at he
        cases he
        have := ih (((data_replaceWith hw).same n).1.trans hk) (fun t ht hc => hX t (by simp [ht]) (h4 t hc)) ha
        rw [this, h3, h2]
        rfl

/-- C39: an element in the place of every element of a set: afterwards all members of the set refer to this element. -/
theorem C39_handles_element {n : Nat} : ∀ {X l : List Nat} {h h1 : Heap}, (h.node n).kind ≠ .root → replaceAll e [n] h X = .ok (h1, l) →
      l = X.map fun _ => n := by
  intro X
  induction X with
  | nil => intro l h h1 _ he; cases he; rfl
  | cons t X ih =>
    intro l h h1 hk he
    have hf : ¬ h.isFragment e n = true := by simp [Heap.isFragment, Heap.isRoot, hk]
    rw [replaceAll] at he
    simp only [List.reverse_cons, List.reverse_nil, List.nil_append, replaceLoop] at he
    cases hw : h.replaceWith e t n with
    | error x => rw [hw] at he; cases he
    | ok q =>
      obtain ⟨g, k⟩ := q
      rw [hw] at he
      dsimp only at he
      have h2 : k = n := by
        have hw' := hw
        unfold Heap.replaceWith at hw'
        rw [if_neg hf] at hw'
        cases htk : h.takeNodes e n with
        | error x => rw [htk] at hw'; cases hw'
        | ok q =>
          obtain ⟨g2, N⟩ := q
          rw [htk] at hw'
          have hN : N = [n] := by
            rw [Heap.takeNodes, if_neg hf] at htk
            cases hdt : h.detach n with
            | error x => rw [hdt] at htk; cases htk
            | ok g3 => rw [hdt] at htk; cases htk; rfl
          subst hN
          dsimp only [Except.map] at hw'
          rw [if_neg (by simp)] at hw'
          split at hw'
          · cases hw'
          · exact ((Prod.mk.inj (Except.ok.inj hw')).2).symm
      cases ha : replaceAll e [n] g X with
      | error x => rw [ha] at he; cases he
      | ok q =>
        obtain ⟨g', l'⟩ := q
        rw [ha] at he
        cases he
        rw [ih (fun hc => hk (((data_replaceWith hw).same n).1.symm.trans hc)) ha, h2]
        rfl

/-- The hypotheses are met by the fragment 10, with two nodes, in the place of `span` and `li`. -/
example : (demo2.node 10).kind = .root ∧ (∀ g, ext0.isDoc g 10 = false) ∧ (∀ t ∈ [7, 9], demo2.parent t ≠ some 10) ∧
    ∃ h1, replaceAll ext0 [10] demo2 [7, 9] = .ok (h1, [7, 9]) ∧ (demo2.node 2).kind ≠ .root ∧
    ∃ h2, replaceAll ext0 [2] demo2 [7, 9] = .ok (h2, [2, 2]) :=
  ⟨rfl, fun _ => rfl, by decide, _, rfl, by decide, _, rfl⟩

end Visdom
