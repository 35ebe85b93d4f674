import Verif.Model.Dom
/-!
# Specification: the text of a node
-/
namespace Visdom.Spec

mutual
/-- The text of a node: of a text node the content with the entities decoded, of an element the texts of its children one after
the other. Content tags (`textarea`, `title`, ...) are not covered, nor are other kinds of nodes. -/
inductive TextOf (dec : List Char → List Char) (h : Heap) : Nat → List Char → Prop
  | text {x : Nat} : (h.node x).kind = .text ∨ (h.node x).kind = .spaces → TextOf dec h x (dec ((h.node x).content.getD []))
  | elem {x : Nat} {s : List Char} : (h.node x).kind = .tag → TextsOf dec h (h.kids x) s → TextOf dec h x s

/-- The texts of several nodes one after the other. -/
inductive TextsOf (dec : List Char → List Char) (h : Heap) : List Nat → List Char → Prop
  | nil : TextsOf dec h [] []
  | cons {x : Nat} {xs : List Nat} {s t : List Char} : TextOf dec h x s → TextsOf dec h xs t → TextsOf dec h (x :: xs) (s ++ t)
end

/-- Nothing but the content of `x` changes, which becomes `c`. -/
structure Rewritten (h h' : Heap) (x : Nat) (c : Option (List Char)) : Prop where
  size : h'.size = h.size
  content : (h'.node x).content = c
  other : ∀ y, y ≠ x → h'.node y = h.node y
  rest : { h'.node x with content := (h.node x).content } = h.node x

end Visdom.Spec
