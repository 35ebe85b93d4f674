import Verif.Spec.Tree
/-!
# Specification: the texts below an element
-/
namespace Visdom.Spec

/-- An element whose content is text (`textarea`, `title`, ...), `ct` telling which names. -/
def ContentTag (ct : List Char → Bool) (h : Heap) (x : Nat) : Prop := (h.node x).kind = .tag ∧ ct (lowerStr (h.node x).name) = true

/-- A text node, or an element whose content is text. -/
def Textual (ct : List Char → Bool) (h : Heap) (x : Nat) : Prop :=
  (h.node x).kind = .text ∨ (h.node x).kind = .spaces ∨ ContentTag ct h x

/-- `y` is a text below `x`, with `d` elements between them, all of which may be entered. -/
inductive TextAt (ct : List Char → Bool) (enter : Nat → Prop) (h : Heap) : Nat → Nat → Nat → Prop
  | here {x y : Nat} : y ∈ h.kids x → Textual ct h y → TextAt ct enter h x 0 y
  | deeper {x c d y : Nat} : c ∈ h.kids x → (h.node c).kind = .tag → ¬ ContentTag ct h c → enter c → TextAt ct enter h c d y →
      TextAt ct enter h x (d + 1) y

end Visdom.Spec
