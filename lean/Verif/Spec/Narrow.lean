import Verif.Spec.Same
/-!
# Specification: selectors that ask for more

When one selector asks for at least as much as another one, by its form alone; no document and no code occurs in it.
-/
namespace Visdom.Spec

/-- The compound selector `a` asks for at least as much as `b`. -/
inductive Narrow : List Sim → List Sim → Prop
  | alike {a b} : Alike a b → Narrow a b
  | trans {a b c} : Narrow a b → Narrow b c → Narrow a c
  /-- parts may be replaced -/
  | append {a b a' b'} : Narrow a b → Narrow a' b' → Narrow (a ++ a') (b ++ b')
  /-- a further condition -/
  | more (a b) : Narrow (a ++ b) a
  /-- every test but `!=` asks for the attribute -/
  | test {k t v} : t ≠ .differs → Narrow [.attrTest k t v] [.attr k]
  /-- `[a="v"]` asks for more than `[a^="v"]`, `[a$="v"]` and `[a|="v"]` -/
  | equalStart {k v} : v ≠ [] → Narrow [.attrTest k .equals v] [.attrTest k .startsWith v]
  | equalEnd {k v} : v ≠ [] → Narrow [.attrTest k .equals v] [.attrTest k .endsWith v]
  | equalDash (k v) : Narrow [.attrTest k .equals v] [.attrTest k .dashMatch v]
  /-- `[a|="v"]` asks for more than `[a^="v"]` -/
  | dashStart {k v} : v ≠ [] → Narrow [.attrTest k .dashMatch v] [.attrTest k .startsWith v]
  /-- `[a~="v"]` asks for more than `[a*="v"]` -/
  | wordIn (k v) : Narrow [.attrTest k .hasWord v] [.attrTest k .contains v]
  /-- a longer beginning, a longer end, a longer part -/
  | longStart {k v} (u) : v ≠ [] → Narrow [.attrTest k .startsWith (v ++ u)] [.attrTest k .startsWith v]
  | longEnd {k v} (u) : v ≠ [] → Narrow [.attrTest k .endsWith (u ++ v)] [.attrTest k .endsWith v]
  | longPart {k v} (u w) : v ≠ [] → Narrow [.attrTest k .contains (u ++ v ++ w)] [.attrTest k .contains v]
  /-- `:nth-child(4n+3)` asks for more than `:nth-child(2n+1)` -/
  | sparser (last ofType) (a b : Int) (k j : Nat) : Narrow [.nth last ofType (a * k) (a * j + b)] [.nth last ofType a b]
  /-- `:only-child` asks for more than `:only-of-type` -/
  | onlyType : Narrow [.only false] [.only true]
  /-- inside `:not` and `:has` -/
  | inNot {a b} : Narrow a b → Narrow [.not [[(.childrenAll, b)]]] [.not [[(.childrenAll, a)]]]
  | inHas {a b} : Narrow a b → Narrow [.has [[(.childrenAll, a)]]] [.has [[(.childrenAll, b)]]]
  /-- further alternatives in `:has` -/
  | hasMore {s s'} : (∀ c ∈ s, c ∈ s') → Narrow [.has s] [.has s']

/-- A child is a descendant, and the next sibling is a later one. -/
def Closer (c c' : Comb) : Prop := c = c' ∨ (c = .children ∧ c' = .childrenAll) ∨ (c = .next ∧ c' = .nextAll)

/-- A complex selector that asks for at least as much as another one. -/
inductive NarrowCx : Complex → Complex → Prop
  | nil : NarrowCx [] []
  | step {c c' a b l l'} : Closer c c' → Narrow a b → NarrowCx l l' → NarrowCx ((c, a) :: l) ((c', b) :: l')
  /-- `a b` asks for more than `b` -/
  | under {c a b l m} : c = .childrenAll ∨ c = .children → NarrowCx ((.childrenAll, b) :: l) m → NarrowCx ((c, a) :: (.childrenAll, b) :: l) m
  /-- `x a > b` asks for more than `x b` -/
  | child {c a b l m} : c = .childrenAll ∨ c = .children → NarrowCx ((.childrenAll, b) :: l) m → NarrowCx ((c, a) :: (.children, b) :: l) m
  /-- `x > a + b` asks for more than `x > b` -/
  | beside {c c' a b l m} : c = .childrenAll ∨ c = .children → c' = .nextAll ∨ c' = .next → NarrowCx ((c, b) :: l) m →
      NarrowCx ((c, a) :: (c', b) :: l) m

end Visdom.Spec
