import Verif.Model.Rules
/-!
# Model of the form values: `value` and `val`
-/
namespace Visdom

/-- `mesdoc/interface/element.rs IFormValue`. `element.rs:50-53`. -/
inductive FormValue where
  | single (v : List Char)
  | multiple (vs : List (List Char))
deriving DecidableEq, Repr

/-- The two variables `collect_option_values` (`lib.rs:484-528`) writes to. -/
structure Collected where
  dflt : Option (List Char)
  values : List (List Char)
deriving DecidableEq, Repr

/-- A `for` loop (`lib.rs:493-526`): the step returns the new state and whether it breaks. -/
def breakLoop {α β : Type} (step : α → β → R (β × Bool)) : List α → β → R β
  | [], s => .ok s
  | a :: l, s =>
    match step a s with
    | .error e => .error e
    | .ok (s, true) => .ok s
    | .ok (s, false) => breakLoop step l s

variable (h : Heap)

/-- `lib.rs:470-473` and `499-503`: the value of the attribute, else "". -/
def attrValueOr (x : Nat) (key : List Char) : R (List Char) :=
  match getAttribute (h.node x).attrs key with
  | .error e => .error e
  | .ok (some (.value v _)) => .ok v
  | .ok _ => .ok []

/-- `lib.rs:484-528 collect_option_values`, with a step counter. `level` is a `u8`; adding beyond 255 panics. -/
def collectOptions (multiple : Bool) : Nat → Nat → Nat → Collected → R Collected
  | 0, _, _, _ => .error .diverge
  | k + 1, level, x, s =>
    breakLoop (fun c s =>
      if h.isElem c then
        if isEqualChars (tagNames h c) "option".toList then
          match hasAttr h c "selected".toList with
          | .error e => .error e
          | .ok sel =>
            if sel || (s.dflt.isNone && level == 0) then
              match attrValueOr h c "value".toList with
              | .error e => .error e
              | .ok v =>
                if sel then .ok ({ s with values := s.values ++ [v] }, !multiple)
                else .ok ({ s with dflt := some v }, false)
            else .ok (s, false)
        else if level + 1 < 256 then (collectOptions multiple k (level + 1) c s).map (·, false)
        else .error .overflow
      else .ok (s, false)) (h.kids x) s

/-- `lib.rs:476-546`: the branch of `value` for a `select`. -/
def selectValue (x : Nat) : R FormValue :=
  match hasAttr h x "multiple".toList with
  | .error e => .error e
  | .ok multiple =>
    match collectOptions h multiple h.fuel 0 x ⟨none, []⟩ with
    | .error e => .error e
    | .ok s =>
      if multiple then .ok (.multiple s.values)
      else
        match s.values with
        | v :: _ => .ok (.single v)
        | [] => .ok (.single (s.dflt.getD []))

/-- `lib.rs:462-555 value`. `text` is `text()`, which renders the node with rphtml. -/
def formValue (text : Nat → List Char) (x : Nat) : R FormValue :=
  if isEqualChars (tagNames h x) "input".toList || isEqualChars (tagNames h x) "option".toList then
    (attrValueOr h x "value".toList).map .single
  else if isEqualChars (tagNames h x) "select".toList then selectValue h x
  else if isEqualChars (tagNames h x) "textarea".toList then .ok (.single (text x))
  else .ok (.single [])

/-- `elements.rs:2857-2862 val`. -/
def valOf (text : Nat → List Char) : List Nat → R FormValue
  | [] => .ok (.single [])
  | x :: _ => formValue h text x

end Visdom
