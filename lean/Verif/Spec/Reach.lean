import Verif.Spec.Tree
/-!
# A set that reaches as far as another one
-/
namespace Visdom.Spec
variable (h : Heap) (r : Nat)

/-- `A` goes at least as far down the document as `B`. -/
def AsFar (A B : List Nat) : Prop := ∀ y ∈ B, ∃ x ∈ A, y = x ∨ Before h r y x

end Visdom.Spec
