import Verif.Spec.Shape
import Verif.Spec.Speech
/-!
# Specification: texts replaced by other nodes
-/
namespace Visdom.Spec

/-- In the old nodes every text `t` of `L` is replaced, where it stands, by the nodes `N t`, which are new; nothing else of the old nodes
changes, and no new node is in two places. -/
structure TextsReplaced (h h' : Heap) (D : Nat → Prop) (L : List Nat) (N : Nat → List Nat) : Prop where
  kids : ∀ q < h.size, ¬ D q → h'.kids q = (h.kids q).flatMap fun c => if c ∈ L then N c else [c]
  new : ∀ t ∈ L, ∀ c ∈ N t, h.size ≤ c
  kind : ∀ y < h.size, (h'.node y).kind = (h.node y).kind
  name : ∀ y < h.size, (h'.node y).name = (h.node y).name
  attrs : ∀ y < h.size, (h'.node y).attrs = (h.node y).attrs
  content : ∀ y < h.size, (h'.node y).content = (h.node y).content

mutual
/-- What a subtree of the given shape says: see `Spoken`. -/
def Shape.says (v : Voice) (e : Ext) (ct : Bool) : Shape → List Char
  | .mk .tag n _ c l => (if e.contentTag n then v.body n c else []) ++ Shape.sayAll v e (e.contentTag n) l
  | .mk k _ _ c _ => v.say ct k c

def Shape.sayAll (v : Voice) (e : Ext) (ct : Bool) : List Shape → List Char
  | [] => []
  | s :: l => s.says v e ct ++ Shape.sayAll v e ct l
end

mutual
/-- The text of a node, as `Spoken`, but with `w t` in the place of what the texts `t` of `L` say. -/
inductive SpokenWith (v : Voice) (e : Ext) (h : Heap) (L : List Nat) (w : Nat → List Char) : Bool → Nat → List Char → Prop
  | new {ct : Bool} {x : Nat} : x ∈ L → SpokenWith v e h L w ct x (w x)
  | leaf {ct : Bool} {x : Nat} : x ∉ L → (h.node x).kind ≠ .root → (h.node x).kind ≠ .tag →
      SpokenWith v e h L w ct x (v.say ct (h.node x).kind (h.node x).content)
  | plain {ct : Bool} {x : Nat} {s : List Char} : x ∉ L → (h.node x).kind = .tag → e.contentTag (h.node x).name = false →
      SpokenWithAll v e h L w false (h.kids x) s → SpokenWith v e h L w ct x s
  | content {ct : Bool} {x : Nat} {s : List Char} : x ∉ L → (h.node x).kind = .tag → e.contentTag (h.node x).name = true →
      SpokenWithAll v e h L w true (h.kids x) s → SpokenWith v e h L w ct x (v.body (h.node x).name (h.node x).content ++ s)

inductive SpokenWithAll (v : Voice) (e : Ext) (h : Heap) (L : List Nat) (w : Nat → List Char) : Bool → List Nat → List Char → Prop
  | nil {ct : Bool} : SpokenWithAll v e h L w ct [] []
  | cons {ct : Bool} {x : Nat} {xs : List Nat} {s t : List Char} : SpokenWith v e h L w ct x s → SpokenWithAll v e h L w ct xs t →
      SpokenWithAll v e h L w ct (x :: xs) (s ++ t)
end

end Visdom.Spec
