import Verif.Model.Html
/-!
# Specification: the HTML of a node
-/
namespace Visdom.Spec

/-- What is written for a node that is not an element. -/
def leafOf (rd : Render) (h : Heap) (ct : Bool) (x : Nat) : List Char :=
  rd.leaf ct (h.node x).kind (h.node x).name (h.node x).attrs (h.node x).content

/-- The start tag, the end tag, and the own content of a content tag. -/
def startOf (rd : Render) (h : Heap) (x : Nat) : List Char := rd.opening (h.node x).name (h.node x).attrs
def endOf (rd : Render) (h : Heap) (x : Nat) : List Char := rd.closing (h.node x).name (h.node x).attrs
def bodyOf (rd : Render) (e : Ext) (h : Heap) (x : Nat) : List Char :=
  if e.contentTag (h.node x).name then rd.body (h.node x).name (h.node x).content else []

mutual
/-- The HTML of a node with everything in it. The flag: the node stands in a content tag. -/
inductive HtmlOf (rd : Render) (e : Ext) (h : Heap) : Bool → Nat → List Char → Prop
  | leaf {ct : Bool} {x : Nat} : (h.node x).kind ≠ .root → (h.node x).kind ≠ .tag → HtmlOf rd e h ct x (leafOf rd h ct x)
  | root {ct : Bool} {x : Nat} {s : List Char} : (h.node x).kind = .root → HtmlsOf rd e h false (h.kids x) s → HtmlOf rd e h ct x s
  | elem {ct : Bool} {x : Nat} {s : List Char} : (h.node x).kind = .tag → HtmlsOf rd e h (e.contentTag (h.node x).name) (h.kids x) s →
      HtmlOf rd e h ct x (startOf rd h x ++ (bodyOf rd e h x ++ s) ++ endOf rd h x)

/-- The HTML of several nodes one after the other. -/
inductive HtmlsOf (rd : Render) (e : Ext) (h : Heap) : Bool → List Nat → List Char → Prop
  | nil {ct : Bool} : HtmlsOf rd e h ct [] []
  | cons {ct : Bool} {x : Nat} {xs : List Nat} {s t : List Char} : HtmlOf rd e h ct x s → HtmlsOf rd e h ct xs t → HtmlsOf rd e h ct (x :: xs) (s ++ t)
end

/-- The HTML in an element or in a document. -/
inductive InnerOf (rd : Render) (e : Ext) (h : Heap) : Nat → List Char → Prop
  | root {x : Nat} {s : List Char} : (h.node x).kind = .root → HtmlsOf rd e h false (h.kids x) s → InnerOf rd e h x s
  | elem {x : Nat} {s : List Char} : (h.node x).kind = .tag → HtmlsOf rd e h (e.contentTag (h.node x).name) (h.kids x) s →
      InnerOf rd e h x (bodyOf rd e h x ++ s)

end Visdom.Spec
