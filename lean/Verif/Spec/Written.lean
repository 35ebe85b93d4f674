import Verif.Model.SetAttrs
import Verif.Spec.Attr
/-!
# Specification: the attributes that are written in the HTML

`get_attribute` and `get_attributes` go through the table of names; the HTML of a start tag is written from the list of attributes, each under the key
that it carries. The two agree when the table and the list are in step.
-/
namespace Visdom.Spec

/-- The attributes with a key, in order, with their names in lower case, and their values as a reader would see them. -/
def writtenAttrs (m : Meta) : List (List Char × AttrValue) :=
  m.attrs.filterMap fun a => a.key.map fun k =>
    (k.map fun c => Char.ofNat (lowerCode c), match a.value with | some s => .value s a.quote | none => .tru)

/-- The table of names and the list are in step: a name of the table leads to an attribute that carries the name, and every attribute with a key is found
under it. -/
structure InStep (m : Meta) : Prop where
  listed : ∀ k i, mapGet m.lcMap k = some i → ∃ a key, m.attrs[i]? = some a ∧ a.key = some key ∧ k = key.map fun c => Char.ofNat (lowerCode c)
  found : ∀ i a key, m.attrs[i]? = some a → a.key = some key → mapGet m.lcMap (key.map fun c => Char.ofNat (lowerCode c)) = some i

end Visdom.Spec
