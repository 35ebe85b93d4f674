import Verif.Model.Utils
/-!
# Model of `Nth::get_allowed_indexs` (`src/mesdoc/selector/pattern.rs`)
-/
namespace Visdom

/-- `x as usize` for an `isize` on a 64 bit target: reduction modulo 2^64. `pattern.rs:279`, `296`, `317-321`, `342`. -/
def asUsize (x : Int) : Nat := (x % (18446744073709551616 : Int)).toNat

/-- The loop of `pattern.rs:317-331`: positions for the loop counters `start..=end`, before the final
reversal. -/
def nthLoop (n index : Int) (start stop : Nat) : List Nat :=
  (List.range' start (stop + 1 - start) 1).filterMap fun (i : Nat) =>
    let cur := asUsize ((i : Int) * n + index)
    if cur < 1 then none else some (cur - 1)

/-- `pattern.rs:270-332`: the branch of `get_allowed_indexs` with an `n`. Simplified: intermediate
`isize` arithmetic is unbounded, only the final `as usize` cast wraps; the version with checked arithmetic
is `allowedChecked` (`Model/Checked.lean`). -/
def allowedWithN (n index : Int) (total : Nat) : List Nat :=
  if n = 0 then
    if index > 0 ∧ index ≤ total then [index.toNat - 1] else []
  else if n < 0 ∧ index ≤ 0 then []
  else if n < 0 ∧ index ≤ -n then
    if index ≤ total then [index.toNat - 1] else []
  else
    let startLoop := if n < 0 then divideIsize (index - total) (-n) .ceil else divideIsize (1 - index) n .ceil
    let endLoop := if n < 0 then divideIsize (index - 1) (-n) .floor else divideIsize (total - index) n .floor
    let startLoop := if startLoop < 0 then 0 else startLoop
    if startLoop > endLoop then []
    else
      let l := nthLoop n index startLoop.toNat endLoop.toNat
      if n < 0 then l.reverse else l

/-- `pattern.rs:264-343 Nth::get_allowed_indexs`, on already parsed numbers. Neither number present is
the `expect` panic of line 336. -/
def getAllowedIndexs (n index : Option Int) (total : Nat) : R (List Nat) :=
  match n with
  | some n => .ok (allowedWithN n (index.getD 0) total)
  | none =>
    match index with
    | none => .error .unwrapNone
    | some index =>
      if index ≤ 0 ∨ index > total then .ok [] else .ok [(index - 1).toNat]

end Visdom
