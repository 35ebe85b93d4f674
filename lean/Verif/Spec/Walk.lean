import Verif.Spec.Side
/-!
# Walks along one combinator, nearest ancestors

Used by the `*_until` methods (C45) and by `closest` (C27).
-/
namespace Visdom.Spec

/-- The elements reached from `x` by repeating one step of the combinator, as far as it goes. -/
inductive Walk (h : Heap) (r : Nat) (c : Comb) : Nat → List Nat → Prop
  | stop {x : Nat} : (∀ e, h.isElem e = true → ¬ Rel h r c x e) → Walk h r c x []
  | step {x y : Nat} {l : List Nat} : h.isElem y = true → Rel h r c x y → Walk h r c y l → Walk h r c x (y :: l)

/-- What is kept of a walk: everything up to the first stop element, which is included if asked for; of these, those
that pass the filter. -/
def upTo (stop keep : Nat → Bool) (including : Bool) (l : List Nat) : List Nat :=
  (l.takeWhile (fun x => !stop x) ++ if including then (l.find? stop).toList else []).filter keep

/-- `e` is the nearest element with the property among `x` and the elements above it. -/
def Nearest (h : Heap) (r : Nat) (P : Nat → Prop) (x e : Nat) : Prop :=
  Within h r e ∧ h.isElem e = true ∧ Within h e x ∧ P e ∧ ∀ a, Below h e a → Within h a x → ¬ P a

/-- `U` keeps of the members of `X` with the same parent the first one. -/
def FirstOfParent (h : Heap) (X U : List Nat) : Prop :=
  U.Sublist X ∧ (U.Pairwise fun x y => h.parent x ≠ h.parent y) ∧
    ∀ x ∈ X, ∃ l z l', X = l ++ z :: l' ∧ z ∈ U ∧ h.parent z = h.parent x ∧ ∀ w ∈ l, h.parent w ≠ h.parent x

/-- What `closest` and the until methods see of a selector: where the search of `find` would start in the middle, the part
before the middle is dropped; a combinator in front of what remains refers to the root of the document, in front of a
single compound it means nothing. -/
def remnant (cx : Complex) : Complex :=
  if looked cx = true then
    match cx.drop (heaviest cx) with
    | [s] => [(.childrenAll, s.2)]
    | l => l
  else cx

end Visdom.Spec
