import Verif.Model.TextValue
import Verif.Spec.Texts
import Verif.Spec.Apart
/-!
# Specification: the text of an element
-/
namespace Visdom.Spec

mutual
/-- The text of a node: what a node that is not an element says; of an element what its children say one after the other, of a content tag first its own
content. The flag: the node stands in a content tag. -/
inductive Spoken (v : Voice) (e : Ext) (h : Heap) : Bool → Nat → List Char → Prop
  | leaf {ct : Bool} {x : Nat} : (h.node x).kind ≠ .root → (h.node x).kind ≠ .tag → Spoken v e h ct x (v.say ct (h.node x).kind (h.node x).content)
  | plain {ct : Bool} {x : Nat} {s : List Char} : (h.node x).kind = .tag → e.contentTag (h.node x).name = false → SpokenAll v e h false (h.kids x) s →
      Spoken v e h ct x s
  | content {ct : Bool} {x : Nat} {s : List Char} : (h.node x).kind = .tag → e.contentTag (h.node x).name = true → SpokenAll v e h true (h.kids x) s →
      Spoken v e h ct x (v.body (h.node x).name (h.node x).content ++ s)

/-- The texts of several nodes one after the other. -/
inductive SpokenAll (v : Voice) (e : Ext) (h : Heap) : Bool → List Nat → List Char → Prop
  | nil {ct : Bool} : SpokenAll v e h ct [] []
  | cons {ct : Bool} {x : Nat} {xs : List Nat} {s t : List Char} : Spoken v e h ct x s → SpokenAll v e h ct xs t → SpokenAll v e h ct (x :: xs) (s ++ t)
end

/-- What is required of rphtml: a text is the same text whether it is asked for as text or as markup, and whether a tag is a content tag does not depend
on capital letters. -/
structure VoiceOk (v : Voice) (e : Ext) : Prop where
  text : ∀ k n m c, k = .text ∨ k = .spaces → v.whole.leaf false k n m c = v.say false k c
  cased : ∀ n, e.contentTag (lowerStr n) = e.contentTag n

/-- In `x` there is nothing but elements, texts, and nodes that say nothing (comments); content tags have no child nodes. -/
def OnlyTexts (v : Voice) (e : Ext) (h : Heap) (x : Nat) : Prop :=
  ∀ y, Within h x y → (h.node y).kind ≠ .root ∧ (ContentTag e.contentTag h y → h.kids y = []) ∧
    ((h.node y).kind = .tag ∨ (h.node y).kind = .text ∨ (h.node y).kind = .spaces ∨ ∀ ct, v.say ct (h.node y).kind (h.node y).content = [])

/-- What a text says when its content is `c`. -/
def saysWith (v : Voice) (h : Heap) (x : Nat) (c : List Char) : List Char :=
  if (h.node x).kind = .tag then v.body (h.node x).name (some c) else v.say false (h.node x).kind (some c)

/-- The closure was called with every node of the list and the positions from `i` on, each time on what the call before left, and always answered that the
loop may go on. -/
inductive Visits (step : Heap → Nat → Nat → R (Heap × Bool)) : Nat → Heap → List Nat → Heap → Prop
  | none {i : Nat} {h : Heap} : Visits step i h [] h
  | next {i : Nat} {h h1 h' : Heap} {x : Nat} {xs : List Nat} : step h i x = .ok (h1, true) → Visits step (i + 1) h1 xs h' → Visits step i h (x :: xs) h'

end Visdom.Spec
