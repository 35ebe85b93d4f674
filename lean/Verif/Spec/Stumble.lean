import Verif.Spec.Tree
/-!
# Specification: sets from which descendants cannot be looked for

Going through a set from left to right, an element that is not below the last one that stood out stands out itself. Looking for
descendants of several elements is only possible when the next element is never equal to the last one that stood out, and never above it.
-/
namespace Visdom.Spec

/-- After the elements `A` the element `t` stands out: it is not below an element `a` of `A` below which everything since then lies. -/
def StandsOut (h : Heap) (A : List Nat) (t : Nat) : Prop :=
  ∀ A' a B, A = A' ++ a :: B → (∀ y ∈ B, Below h a y) → ¬ Below h a t

/-- Some element is equal to the last one that stood out, or above it. -/
def Stumbles (h : Heap) (l : List Nat) : Prop :=
  ∃ A t B x C, l = A ++ t :: (B ++ x :: C) ∧ StandsOut h A t ∧ (∀ y ∈ B, Below h t y) ∧ Within h x t

end Visdom.Spec
