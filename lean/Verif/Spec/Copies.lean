import Verif.Spec.Selector
/-!
# Specification: documents and their copies
-/
namespace Visdom.Spec

/-- The node is in one of the trees with these roots. -/
def Among (h : Heap) (T : Nat → Prop) (x : Nat) : Prop := ∃ r, T r ∧ Within h r x

/-- Some trees of one state and the same trees in another one, with other identities of the nodes: `f` takes a node to its copy. Children, kinds, names,
attributes, the links to a root (which may be a node of no tree) and what rphtml tells about ids, documents and texts are the same. Both sides are well formed. -/
structure Copies (h h' : Heap) (T : Nat → Prop) (f : Nat → Nat) (env env' : Env) : Prop where
  wf : ∀ r, T r → TreeWF h r
  wf' : ∀ r, T r → TreeWF h' (f r)
  kids : ∀ x, Among h T x → h'.kids (f x) = (h.kids x).map f
  data : ∀ x, Among h T x → (h'.node (f x)).kind = (h.node x).kind ∧ (h'.node (f x)).name = (h.node x).name ∧
    (h'.node (f x)).attrs = (h.node x).attrs
  top : ∀ r, T r → h'.index (f r) = h.index r
  root : ∀ x, Among h T x → (h'.node (f x)).root = ((h.node x).root).map f
  apart : ∀ x y, (Among h T x ∨ ∃ z, Among h T z ∧ (h.node z).root = some x) → (Among h T y ∨ ∃ z, Among h T z ∧ (h.node z).root = some y) →
    f x = f y → x = y
  byId : ∀ x q i, Among h T x → (h.node x).root = some q → env'.byId (f q) i = (env.byId q i).map f
  found : ∀ x q i e, Among h T x → (h.node x).root = some q → env.byId q i = some e → Among h T e
  isDoc : ∀ r, T r → env'.isDoc (f r) = env.isDoc r
  text : ∀ x, Among h T x → env'.text (f x) = env.text x

end Visdom.Spec
