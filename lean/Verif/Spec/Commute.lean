import Verif.Model.Mutate
/-!
# Putting a node at a place, on lists
-/
namespace Visdom.Spec

/-- The children `l` of `q` after `n` has been put at `t`. -/
def put (pos : InsertPosition) (t n q : Nat) (l : List Nat) : List Nat :=
  match pos with
  | .beforeEnd => if q = t then l ++ [n] else l
  | .afterBegin => if q = t then n :: l else l
  | .afterEnd => l.flatMap fun x => if x = t then [t, n] else [x]
  | .beforeBegin => l.flatMap fun x => if x = t then [n, t] else [x]

end Visdom.Spec
