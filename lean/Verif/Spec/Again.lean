import Verif.Spec.Side
import Verif.Spec.Mutate
/-!
# Searches before and after a change of the tree

Which nodes a call touches, and which simple selectors look at an element alone.
-/
namespace Visdom.Spec

/-- Simple selectors that look at the element alone: at its name, its classes and its attributes. -/
def Sim.own : Sim → Bool
  | .all | .name _ | .cls _ | .attr _ => true
  | .attrTest _ _ v => !v.isEmpty
  | _ => false

/-- A complex selector made of such simple selectors, joined by the combinators that the library knows. -/
def Own (cx : Complex) : Prop := cx ≠ [] ∧ ∀ s ∈ cx, Comb.down s.1 = true ∧ s.2 ≠ [] ∧ ∀ t ∈ s.2, t.own = true

/-- The selector goes down only, to descendants and to children. -/
def Downward (cx : Complex) : Prop := ∀ s ∈ cx, s.1 = .childrenAll ∨ s.1 = .children

/-- The node gets another place by the call, or loses its place. -/
def Touched (e : Ext) (h : Heap) (y : Nat) (op : Op) : Prop :=
  Lost e h y op ∨ match op with
    | .insert _ _ n | .replace _ n => y ∈ moved h n
    | _ => False

/-- The node gets another place by one of the calls, or loses its place. -/
def TouchedAny (e : Ext) : Heap → List Op → Nat → Prop
  | _, [], _ => False
  | h, op :: ops, y => Touched e h y op ∨ match op.run e h with
    | .ok h' => TouchedAny e h' ops y
    | .error _ => False

end Visdom.Spec
