import Verif.Model.Utils
/-!
# `binary_search`

`rules/pseudo.rs:294` and `:455` call `slice::binary_search(..).is_ok()` of the standard library on the allowed positions; the model of the
rules has membership instead. The standard library promises that only for sorted slices, and the list of positions is not always sorted
(C01). Here are the two loops that implementations of the standard library have had, written down from its documentation and source
(outside /repo): the one up to Rust 1.81 and the one since. `Props/Search.lean` shows that both agree with membership on every list of
positions the library computes, for the numbers it looks up.
-/
namespace Visdom

/-- The loop up to Rust 1.81: the window `left..right`, the element in its middle compared, an early return. Of the standard library, called in `pseudo.rs:294` and `455`. -/
def searchLoop (l : List Nat) (x left right : Nat) : Bool :=
  if h : left < right then
    let mid := left + (right - left) / 2
    match l[mid]? with
    | none => false
    | some y =>
      if y = x then true
      else if y < x then searchLoop l x (mid + 1) right
      else searchLoop l x left mid
  else false
termination_by right - left

/-- `binary_search(&x).is_ok()` up to Rust 1.81. Called in `pseudo.rs:294` and `455`. -/
def search181 (l : List Nat) (x : Nat) : Bool := searchLoop l x 0 l.length

/-- The loop since Rust 1.82: the window begins at `base` and is halved without an early return. Of the standard library, called in `pseudo.rs:294` and `455`. -/
def searchBase (l : List Nat) (x base size : Nat) : Nat :=
  if h : 1 < size then
    let half := size / 2
    let mid := base + half
    let base' := match l[mid]? with
      | none => base
      | some y => if x < y then base else mid
    searchBase l x base' (size - half)
  else base
termination_by size

/-- `binary_search(&x).is_ok()` since Rust 1.82. Called in `pseudo.rs:294` and `455`. -/
def search182 (l : List Nat) (x : Nat) : Bool :=
  if l.isEmpty then false else l[searchBase l x 0 l.length]? == some x

end Visdom
