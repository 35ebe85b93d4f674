/-!
# Outcomes

Rust functions of `/repo` that can panic return `R α`. A panic is a value of `Panic`; nothing else is
abstracted: a panic aborts the whole call, as unwinding does.
-/
namespace Visdom

/-- The ways the modelled code can panic. Where they arise is said at the functions, with file and lines; for example `elements.rs:2594-2597` (a slice), `selector/mod.rs:101-102` (locks), `lib.rs:617` (`expect`). -/
inductive Panic where
  /-- slice/vector index out of range, `Vec::remove`, `split_off`, `splice` out of range -/
  | outOfBounds
  /-- arithmetic overflow or underflow (debug and test builds) -/
  | overflow
  /-- `unwrap`/`expect` on `None` or `Err` -/
  | unwrapNone
  /-- `unreachable!` -/
  | unreachableCode
  /-- explicit `panic!` -/
  | explicit
  /-- `RefCell` already borrowed -/
  | borrow
  /-- locking a poisoned mutex with `.unwrap()` -/
  | poisoned
  /-- the fuel of the model ran out (a cyclic structure: Rust would recurse for ever) -/
  | diverge
  deriving DecidableEq, Repr

/-- Result of a Rust function that can panic. No counterpart in `/repo`: in Rust every call can panic (see `Panic`); for example `utils.rs:78-115`, `selector/mod.rs:101-102`. -/
abbrev R (α : Type) := Except Panic α

/-- Equality of outcomes is decidable (used only to evaluate concrete counterexamples). -/
instance {α : Type} [DecidableEq α] : DecidableEq (R α) := fun a b =>
  match a, b with
  | .ok x, .ok y => if h : x = y then isTrue (by rw [h]) else isFalse (by simp [h])
  | .error x, .error y => if h : x = y then isTrue (by rw [h]) else isFalse (by simp [h])
  | .ok _, .error _ => isFalse (by simp)
  | .error _, .ok _ => isFalse (by simp)

end Visdom
