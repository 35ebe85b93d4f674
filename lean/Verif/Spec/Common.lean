import Verif.Spec.Side
/-!
# Specification: common selectors

Conditions on the text of a selector alone under which the library is right. `Common` and `Steady` can be read off the selector without
looking at the document.
-/
namespace Visdom.Spec

/-- The `an+b` for which the arithmetic of the library is right for every number of children (`safeNth_iff`): `odd`, `even`, `n+b`,
`-n+b`, `an`, `an+1`, and those with a small step. -/
def SafeNth (a b : Int) : Prop :=
  a = 0 ∨ a = 1 ∨ a = -1 ∨ (1 < a ∧ 0 ≤ b ∧ b ≤ 1) ∨ (1 < a ∧ b < 0 ∧ a ≤ 1 - b) ∨ (a < -1 ∧ b ≤ -a)

instance (a b : Int) : Decidable (SafeNth a b) := by unfold SafeNth; infer_instance

/-- The type a simple selector asks for. -/
def Sim.typeName : Sim → Option (List Char)
  | .name n => some n
  | _ => none

/-- The type the last compound asks for. -/
def lastType (cx : List (Comb × List Sim)) : Option (List Char) := cx.getLast?.bind fun s => s.2.findSome? Sim.typeName

/-- The alternatives ask for different types, so that no element matches two of them. -/
def typesApart (sel : List (List (Comb × List Sim))) : Bool :=
  (sel.all fun c => (lastType c).isSome) && decide ((sel.filterMap lastType).Pairwise fun a b => ¬ SameIgnoringCase a b)

mutual
/-- Simple selectors that are right wherever siblings come in order, or with `d` wherever elements come in document order: all but
`[a=""]`, the bad `an+b` of `:nth-child` and `:nth-last-child`, and lists of alternatives. With `d` also the lists whose alternatives ask for different types, among them the
aliases. With `rt`: also ids, and several compounds inside `:not` and `:has`, which need the links to the root of the document. -/
def Sim.common (rt d : Bool) : Sim → Bool
  | .id _ => rt
  | .attrTest _ _ v => !v.isEmpty
  | .nth _ ofType a b => decide (SafeNth a b) || (ofType && decide (-9223372036854775808 ≤ b ∧ b < 9223372036854775808))
  | .not sel => (decide (sel.length ≤ 1) || (d && typesApart sel)) && altsCommon rt d sel
  | .has sel => altsCommon rt true sel
  | .alias sel => (decide (sel.length ≤ 1) || (d && typesApart sel)) && altsCommon rt d sel
  | _ => true
/-- The alternatives inside `:not`, `:has` and the aliases. -/
def altsCommon (rt d : Bool) : List (List (Comb × List Sim)) → Bool
  | [] => true
  | c :: cs => !c.isEmpty && (c.length != 1 || c.all fun s => s.1 == .childrenAll) && (rt || decide (c.length ≤ 1)) &&
      stepsCommon rt d c && altsCommon rt d cs
/-- The compounds before the last are checked upwards, where elements come in document order. -/
def stepsCommon (rt d : Bool) : List (Comb × List Sim) → Bool
  | [] => true
  | s :: l => stepCommon rt (d || !l.isEmpty) s && stepsCommon rt d l
def stepCommon (rt d : Bool) : Comb × List Sim → Bool
  | (c, ss) => Comb.down c && !ss.isEmpty && simsCommon rt d ss
def simsCommon (rt d : Bool) : List Sim → Bool
  | [] => true
  | s :: ss => s.common rt d && simsCommon rt d ss
end

/-- Ids. -/
def Sim.isId : Sim → Bool
  | .id _ => true
  | _ => false

/-- Only descendant combinators: every list met comes in document order. -/
def descOnly (cx : Complex) : Bool := cx.all fun s => s.1 == .childrenAll

/-- A complex selector of common simple selectors, without an id right after `>`. Lists of alternatives (with different types) are
allowed if there are only descendant combinators, and as the only rule of a compound after `>` or a space. -/
def Common (rt : Bool) (cx : Complex) : Prop :=
  cx ≠ [] ∧ ∀ s ∈ cx, Comb.down s.1 = true ∧ s.2 ≠ [] ∧ (∀ t ∈ s.2, t.common rt (descOnly cx || lonely s) = true) ∧
    (s.1 = .children → ∀ t ∈ s.2, t.isId = false)

/-- Fit to be tested on an element: a single compound has no combinator in front. With `d`: on a set in document order. -/
def CommonTest (rt d : Bool) (cx : Complex) : Prop := altsCommon rt d [cx] = true

/-- A list of alternatives fit to be tested on the elements of a set in document order: they ask for different types. -/
def CommonList (rt : Bool) (sel : List Complex) : Prop := (sel.length ≤ 1 ∨ typesApart sel = true) ∧ altsCommon rt true sel = true

/-- Rules that may panic when they are the first to be evaluated: positions counted from the end, and `an+b`. -/
def Sim.shaky : Sim → Bool
  | .nth _ _ _ _ => true
  | .nthIdx last _ _ => last
  | .edge last _ => last
  | _ => false

/-- Every compound with such a rule also has a type, a class or an id, which is evaluated before. -/
def Steady (cx : Complex) : Prop := ∀ s ∈ cx, (∃ t ∈ s.2, 100 ≤ t.prio) ∨ ∀ t ∈ s.2, t.shaky = false

/-- No node has 2^63 children. -/
def Small (h : Heap) (r : Nat) : Prop := ∀ p, Within h r p → ((h.children p).length : Int) < 9223372036854775808

end Visdom.Spec
