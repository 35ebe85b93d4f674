import Verif.Model.SetAttrs
/-!
# Model of the cloning of sets, and of `set_html` on sets
-/
namespace Visdom

/-- `Node::clone_node` of rphtml, called by `lib.rs:165-167 copy_node` (`element.rs:107-111 copied`), as a parameter: the heap with
the new nodes, and the copy. -/
abbrev Copier := Heap → Nat → Heap × Nat

/-- `elements.rs:3571-3576 Clone for Elements`: the heap with the copies, and the set of the copies. -/
def copyAll (cp : Copier) (h : Heap) : List Nat → Heap × List Nat
  | [] => (h, [])
  | x :: xs => ((copyAll cp (cp h x).1 xs).1, (cp h x).2 :: (copyAll cp (cp h x).1 xs).2)

/-- `elements.rs:3044-3049 set_html` of a set. -/
def setHtmlAll (e : Ext) (s : List Char) (h : Heap) : List Nat → R Heap
  | [] => .ok h
  | x :: xs =>
    match h.setHtml e x s with
    | .error err => .error err
    | .ok h => setHtmlAll e s h xs

end Visdom
