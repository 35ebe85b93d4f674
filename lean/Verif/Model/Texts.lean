import Verif.Model.Mutate
import Verif.Model.Engine
/-!
# Model of the text API: `texts`, `texts_by`, `texts_by_rec` and `interface/texts.rs`

A text handle (`BoxDynText`) is the identifier of its node. `ct` is rphtml's `is_content_tag`.
-/
namespace Visdom

/-- `lib.rs:181-199 node_type = Text`. -/
def Heap.isText (h : Heap) (x : Nat) : Bool := (h.node x).kind == .text || (h.node x).kind == .spaces

/-- `lib.rs:1021 next_depth < limit_depth`; `none` is `usize::MAX` (no depth reaches it). -/
def belowLimit (limit : Option Nat) (d : Nat) : Bool :=
  match limit with
  | none => true
  | some l => decide (d < l)

variable (h : Heap) (ct : List Char → Bool)

/-- `lib.rs:1012-1056 loop_handle`, with a step counter. -/
def textsLoop (limit : Option Nat) (handle : Nat → Nat → Bool) (recH : Nat → Bool) : Nat → Nat → Nat → R (List Nat)
  | 0, _, _ => .error .diverge
  | k + 1, depth, x =>
    if (h.kids x).isEmpty then .ok (if ct (h.tagNames x) && handle depth x then [x] else [])
    else
      flatMapR (fun c =>
        if h.isText c then .ok (if handle depth c then [c] else [])
        else if h.isElem c then
          if ct (h.tagNames c) then .ok (if handle depth c then [c] else [])
          else if belowLimit limit (depth + 1) && recH c then
            textsLoop limit handle recH k (depth + 1) c
          else .ok []
        else .ok []) (h.kids x)

/-- `lib.rs:998-1064 texts_by_rec`. `None` is the empty list. -/
def textsByRec (limit : Nat) (handle : Nat → Nat → Bool) (recH : Nat → Bool) (x : Nat) : R (List Nat) :=
  textsLoop h ct (if limit = 0 then none else some limit) handle recH h.fuel 0 x

/-- `element.rs:329-335 texts_by`. -/
def textsBy (limit : Nat) (handle : Nat → Nat → Bool) (x : Nat) : R (List Nat) := textsByRec h ct limit handle (fun _ => true) x

/-- `element.rs:324-327 texts`. -/
def textsOf (limit : Nat) (x : Nat) : R (List Nat) := textsBy h ct limit (fun _ _ => true) x

/-- `elements.rs:3140-3153 texts_by_rec`. -/
def textsByRecAll (limit : Nat) (handle : Nat → Nat → Bool) (recH : Nat → Bool) (X : List Nat) : R (List Nat) :=
  flatMapR (textsByRec h ct limit handle recH) X

/-- `elements.rs:3130-3136 texts_by`. -/
def textsByAll (limit : Nat) (handle : Nat → Nat → Bool) (X : List Nat) : R (List Nat) :=
  textsByRecAll h ct limit handle (fun _ => true) X

/-- `elements.rs:3118-3126 texts`. -/
def textsAll (limit : Nat) (X : List Nat) : R (List Nat) := flatMapR (textsOf h ct limit) X

/-- The loop of `texts.rs:51-69 Texts::filter_by`: the handle of a node that is kept is made anew from its type, which panics for a content
tag. -/
def textsFilterLoop (handle : Nat → Nat → Bool) : Nat → List Nat → R (List Nat)
  | _, [] => .ok []
  | i, x :: xs =>
    if handle i x then
      if h.isText x then (textsFilterLoop handle (i + 1) xs).map (x :: ·) else .error .unwrapNone
    else textsFilterLoop handle (i + 1) xs

/-- `texts.rs:51-69 Texts::filter_by`. -/
def textsFilterBy (handle : Nat → Nat → Bool) (l : List Nat) : R (List Nat) := textsFilterLoop h handle 0 l

/-- `texts.rs:71-75 Texts::remove`. -/
def textsRemove (h : Heap) : List Nat → R Heap
  | [] => .ok h
  | x :: xs =>
    match h.removeText x with
    | .error e => .error e
    | .ok h => textsRemove h xs

end Visdom
