import Verif.Model.Attr
/-!
# The attribute, class and name rules on one element

Model of the matchers made by `src/mesdoc/rules/attr.rs`, `class.rs` and `name.rs`. The recognition of the
selector text is in the parser model.
-/
namespace Visdom

/-- Group 1 of the regular expression of `attr.rs:11`: one of `* ^ $ ~ | !`, or nothing. -/
inductive AttrMode where
  | eq | prefix | suffix | contains | dash | word | ne
  deriving DecidableEq, Repr

/-- `str::contains` of the standard library (the operand is a substring at some offset). Called in `attr.rs:26-84`. -/
def strContains : List Char → List Char → Bool
  | [], p => p.isEmpty
  | c :: s, p => p.isPrefixOf (c :: s) || strContains s p

/-- `attr.rs:23-84`: the closure `handle`. `operand = none` is `[name]`. `split_ascii_whitespace` of the
standard library yields the maximal runs without ASCII white space, which `getClassList` computes (C03). -/
def attrHandle (mode : AttrMode) (operand : Option (List Char)) (val : Option AttrValue) : Bool :=
  match operand with
  | none => val.isSome
  | some w =>
    if w.isEmpty && !(mode == .eq || mode == .ne || mode == .dash) then false
    else match mode with
      | .prefix => match val with
        | some (.value v _) => w.isPrefixOf v
        | _ => false
      | .suffix => match val with
        | some (.value v _) => w.isSuffixOf v
        | _ => false
      | .contains => match val with
        | some (.value v _) => strContains v w
        | _ => false
      | .dash => match val with
        | some (.value v _) => if v == w then true else (w ++ ['-']).isPrefixOf v
        | _ => w.isEmpty
      | .word => match val with
        | some (.value v _) => (getClassList v).any fun u => u == w
        | _ => false
      | .ne => match val with
        | some (.value v _) => !(w == v)
        | _ => !w.isEmpty
      | .eq => match val with
        | some (.value v _) => v == w
        | _ => w.isEmpty

/-- `attr.rs:85-91`: the matcher on one element. -/
def attrRuleOne (key : List Char) (mode : AttrMode) (operand : Option (List Char)) (m : Meta) : R Bool :=
  (getAttribute m key).map (attrHandle mode operand)

/-- `class.rs:18-24`. -/
def classRuleOne (name : List Char) (m : Meta) : R Bool :=
  (getAttribute m classKey).map fun
    | some (.value names _) => (getClassList names).contains name
    | _ => false

/-- `name.rs:14-16`. -/
def nameRuleOne (name tagNames : List Char) : Bool := isEqualCharsIgnoreCase tagNames name

end Visdom
