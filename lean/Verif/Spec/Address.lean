import Mathlib.Data.Nat.Digits.Defs
import Verif.Spec.SelText
/-!
# Specification: the way down to an element
-/
namespace Visdom.Spec

/-- The element `x` is reached from `q` by going down: at every step to the child element with the given number, counted from 1 among the child
elements. -/
inductive WayDown (h : Heap) (q : Nat) : List Nat → Nat → Prop
  | here : WayDown h q [] q
  | down {l : List Nat} {p i x : Nat} : WayDown h q l p → ((h.kids p).filter fun y => h.isElem y)[i]? = some x → WayDown h q (l ++ [i + 1]) x

/-- The selector of the way: `> :nth-child(i) > :nth-child(j) …`. -/
def wayCx (l : List Nat) : Complex := l.map fun (i : Nat) => (Comb.children, [Sim.nthIdx false false (i : Int)])

/-- The decimal digits of a number. -/
def digitsOf (n : Nat) : List Char := ((Nat.digits 10 n).reverse.map fun d => Char.ofNat (48 + d))

/-- The text of the selector of the way. -/
def wayText (l : List Nat) : List Char := l.flatMap fun i => ">:nth-child(".toList ++ (digitsOf i ++ [')'])

end Visdom.Spec
