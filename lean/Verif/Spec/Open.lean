import Verif.Spec.SelText
/-!
# Specification: texts that break off inside a simple selector

What a text looks like that was typed up to a point inside a class, an id, a bracket or a parenthesis. Nothing here refers to the
parser.
-/
namespace Visdom.Spec

/-- What may stand in front of a simple selector, from left to right: a leading combinator, then simple selectors, each of them
perhaps followed by a combinator or a comma. `some s` if the text ends with the simple selector `s`, `none` if a compound
begins. `P` is the relation for nested selectors. -/
inductive Begun (P : List Complex → List Char → Prop) : Option Sim → List Char → Prop
  | head {c : Comb} {t : List Char} : HeadText c t → Begun P none t
  | sim {o : Option Sim} {s : Sim} {p t : List Char} : Begun P o p → SimText P s t →
      (∀ s', o = some s' → s.isName = true → s'.endsIdent = false) → Begun P (some s) (p ++ t)
  | comb {s : Sim} {c : Comb} {p t : List Char} : Begun P (some s) p → CombText c t → Begun P none (p ++ t)
  | comma {s : Sim} {p w w' : List Char} : Begun P (some s) p → Blank w → Blank w' → Begun P none (p ++ (w ++ ',' :: w'))

/-- `:not(` or `:has(`. -/
def openHead (not : Bool) : List Char := if not then [':', 'n', 'o', 't', '('] else [':', 'h', 'a', 's', '(']

/-- A simple selector that breaks off: a class or an id before its name, and everything with a bracket or a parenthesis after its
contents. `Q` holds of the contents of `:not` and `:has`. -/
inductive OpenSim (Q : List Char → Prop) : List Char → Prop
  | cls : OpenSim Q ['.']
  | id : OpenSim Q ['#']
  | attr {w k w' : List Char} : Blank w → KeyText k → Blank w' → OpenSim Q ('[' :: (w ++ k ++ w'))
  | attrTest {w k w' w'' v t w''' : List Char} {o : AttrTest} : Blank w → KeyText k → Blank w' → Blank w'' →
      ValueText ']' v t → Blank w''' → OpenSim Q ('[' :: (w ++ k ++ w' ++ (testText o ++ '=' :: (w'' ++ t)) ++ w'''))
  | nth {last ofType : Bool} {a b : Int} {w t w' : List Char} : Blank w → NthText a b t → Blank w' →
      OpenSim Q (nthHead last ofType ++ (w ++ t ++ w'))
  | nthIdx {last ofType : Bool} {b : Int} {w t w' : List Char} : Blank w → IdxText b t → Blank w' →
      OpenSim Q (nthHead last ofType ++ (w ++ t ++ w'))
  | contains {w v t w' : List Char} : Blank w → ValueText ')' v t → Blank w' →
      OpenSim Q ([':', 'c', 'o', 'n', 't', 'a', 'i', 'n', 's', '('] ++ (w ++ t ++ w'))
  | nest {not : Bool} {w u : List Char} : Blank w → Q u → OpenSim Q (openHead not ++ (w ++ u))

/-- The contents of a `:not` or `:has` that is not closed, nested to a depth below `d`: nothing, a selector, or something that
breaks off itself. -/
def OpenInner : Nat → List Char → Prop
  | 0, u => u = []
  | d + 1, u => u = [] ∨ (∃ sel t w, CoreD d sel t ∧ NestLast sel ∧ Blank w ∧ u = t ++ w) ∨
      ∃ o p v, Begun (fun _ _ => False) o p ∧ OpenSim (OpenInner d) v ∧ u = p ++ v

/-- A text that breaks off inside a simple selector. -/
def OpenText (text : List Char) : Prop :=
  ∃ d w o p v, Blank w ∧ Begun (fun sel t => CoreD d sel t ∧ NestLast sel) o p ∧ OpenSim (OpenInner d) v ∧ text = w ++ (p ++ v)

end Visdom.Spec
