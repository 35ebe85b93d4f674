import Verif.Spec.Selector
/-!
# Specification: two copies of one tree
-/
namespace Visdom.Spec

/-- The tree with root `r` in one state and the tree with root `r'` in another one are the same, up to the identities of the nodes: `f` takes
the nodes of the first tree to those of the second one, `g` takes them back. Parents, positions and links to a root are not mentioned. -/
structure Mirror (h : Heap) (r : Nat) (h' : Heap) (r' : Nat) (f g : Nat → Nat) : Prop where
  root : f r = r'
  kids : ∀ x, Within h r x → h'.kids (f x) = (h.kids x).map f
  data : ∀ x, Within h r x → (h'.node (f x)).kind = (h.node x).kind ∧ (h'.node (f x)).name = (h.node x).name ∧
    (h'.node (f x)).attrs = (h.node x).attrs
  back : ∀ x, Within h r x → g (f x) = x

/-- What is taken from rphtml is the same for both trees: ids lead to the same places, both are documents or both are not, and the texts of
the nodes are the same. -/
structure EnvMirror (h : Heap) (r : Nat) (env : Env) (r' : Nat) (env' : Env) (f : Nat → Nat) : Prop where
  byId : ∀ i x, Within h r x → (env'.byId r' i = some (f x) ↔ env.byId r i = some x)
  isDoc : env'.isDoc r' = env.isDoc r
  text : ∀ x, Within h r x → env'.text (f x) = env.text x

end Visdom.Spec
