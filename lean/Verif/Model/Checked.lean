import Verif.Model.Nth
/-!
# `divide_isize` and `get_allowed_indexs` with machine integers

The same functions as in `Model/Utils.lean` and `Model/Nth.lean`, with every operation on `isize` checked as in a debug or test build (a
release build wraps around instead). `Props/Overflow.lean` shows where the two models differ.
-/
namespace Visdom

/-- The result of an operation on `isize` (64 bits): a panic if it does not fit. The operations are those of `utils.rs:78-111` and `pattern.rs:264-344`. -/
def chk (x : Int) : R Int :=
  if -9223372036854775808 ≤ x ∧ x < 9223372036854775808 then .ok x else .error .overflow

/-- `utils.rs:78-111 divide_isize`. Dividing by zero is an explicit panic; `%` panics exactly when `/` does. -/
def divideChecked (a b : Int) (r : RoundType) : R Int :=
  if b = 0 then .error .explicit
  else do
    let res ← chk (a.tdiv b)
    let rem := a.tmod b
    match r with
    | .floor => if res < 0 ∧ rem ≠ 0 then chk (res - 1) else .ok res
    | .ceil => if res > 0 ∧ rem ≠ 0 then chk (res + 1) else .ok res
    | .round =>
      if res ≠ 0 ∧ rem ≠ 0 then do
        let symbol : Int := if res < 0 then -1 else 1
        let twice ← chk (rem * 2)
        let sb ← chk (symbol * b)
        let total ← chk (twice - sb)
        if (total ≥ 0 ∧ a > 0) ∨ (total ≤ 0 ∧ a < 0) then chk (res + symbol) else .ok res
      else .ok res

/-- The loop of `pattern.rs:317-331` over the given counters. -/
def nthStepsChecked (n index : Int) : List Nat → R (List Nat)
  | [] => .ok []
  | i :: is => do
    let p ← chk ((i : Int) * n)
    let c ← chk (p + index)
    let rest ← nthStepsChecked n index is
    .ok (if asUsize c < 1 then rest else (asUsize c - 1) :: rest)

/-- `pattern.rs:307-331`: from the loop bounds on. `end - start + 1` cannot overflow (both are at most `isize::MAX`). -/
def nthRunChecked (n index startLoop endLoop : Int) : R (List Nat) :=
  let startLoop := if startLoop < 0 then 0 else startLoop
  if startLoop > endLoop then .ok []
  else do
    let l ← nthStepsChecked n index (List.range' startLoop.toNat (endLoop.toNat + 1 - startLoop.toNat) 1)
    .ok (if n < 0 then l.reverse else l)

/-- `pattern.rs:270-332`, the branch of `get_allowed_indexs` with an `n`; `total as isize` is exact below 2^63. -/
def allowedChecked (n index : Int) (total : Nat) : R (List Nat) :=
  if n = 0 then .ok (if index > 0 ∧ index ≤ total then [index.toNat - 1] else [])
  else if n < 0 then
    if index ≤ 0 then .ok []
    else do
      let m ← chk (-n)
      if index ≤ m then .ok (if index ≤ total then [index.toNat - 1] else [])
      else do
        let s ← (chk (index - total)).bind fun a => divideChecked a m .ceil
        let e ← (chk (index - 1)).bind fun a => divideChecked a m .floor
        nthRunChecked n index s e
  else do
    let s ← (chk (1 - index)).bind fun a => divideChecked a n .ceil
    let e ← (chk (total - index)).bind fun a => divideChecked a n .floor
    nthRunChecked n index s e

end Visdom
