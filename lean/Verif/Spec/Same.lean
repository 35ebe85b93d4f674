import Verif.Spec.Side
/-!
# Specification: selectors that mean the same

The equivalences between compound selectors that users of CSS and jQuery rely on, as a relation between selectors; no document and no code
occurs in it.
-/
namespace Visdom.Spec

/-- The compound selectors `a` and `b` mean the same. The empty compound stands for no condition; it occurs only as a part. -/
inductive Alike : List Sim → List Sim → Prop
  | refl (a) : Alike a a
  | symm {a b} : Alike a b → Alike b a
  | trans {a b c} : Alike a b → Alike b c → Alike a c
  /-- parts may be replaced -/
  | append {a b a' b'} : Alike a b → Alike a' b' → Alike (a ++ a') (b ++ b')
  /-- the order does not matter -/
  | perm {a b} : a.Perm b → Alike a b
  /-- nor do repetitions -/
  | twice (s) : Alike [s, s] [s]
  /-- `*` is no condition -/
  | star : Alike [.all] []
  /-- type names ignore letter case -/
  | name {n n'} : SameIgnoringCase n n' → Alike [.name n] [.name n']
  /-- `:first-child` is `:nth-child(1)`, and so on -/
  | edge (last ofType) : Alike [.edge last ofType] [.nthIdx last ofType 1]
  /-- `:nth-child(0n+b)` is `:nth-child(b)` -/
  | index (last ofType b) : Alike [.nth last ofType 0 b] [.nthIdx last ofType b]
  /-- `:only-child` is `:first-child:last-child` -/
  | only (ofType) : Alike [.only ofType] [.edge false ofType, .edge true ofType]
  /-- `:nth-child(n)` is no condition -/
  | every (last ofType) {b : Int} : b ≤ 1 → Alike [.nth last ofType 1 b] []
  /-- `:nth-child(even)` is `:not(:nth-child(odd))` -/
  | even (last ofType) : Alike [.nth last ofType 2 0] [.not (sel1 (.nth last ofType 2 1))]
  /-- `.c` is `[class~="c"]` -/
  | cls {c} : c ≠ [] → Alike [.cls c] [.attrTest "class".toList .hasWord c]
  /-- `[a!="v"]` is `:not([a="v"])` -/
  | differs (k v) : Alike [.attrTest k .differs v] [.not (sel1 (.attrTest k .equals v))]
  /-- `[a="v"]` is `[a="v"][a]` -/
  | has (k v) : Alike [.attrTest k .equals v, .attr k] [.attrTest k .equals v]
  /-- `[a^="v"]` is `[a^="v"][a*="v"]` -/
  | starts (k v) : Alike [.attrTest k .startsWith v, .attrTest k .contains v] [.attrTest k .startsWith v]
  /-- `[a$="v"]` is `[a$="v"][a*="v"]` -/
  | ends (k v) : Alike [.attrTest k .endsWith v, .attrTest k .contains v] [.attrTest k .endsWith v]
  /-- `:contains(utv)` is `:contains(utv):contains(t)` -/
  | part (u t v) : Alike [.contains (u ++ t ++ v), .contains t] [.contains (u ++ t ++ v)]
  /-- `:not(:not(a))` is `a` -/
  | notNot (a) : Alike [.not (sel1 (.not [[(.childrenAll, a)]]))] a
  /-- `:not(a, b)` is `:not(a):not(b)` -/
  | notList (c cs) : Alike [.not (c :: cs)] [.not [c], .not cs]
  /-- inside `:not` and `:has` -/
  | inNot {a b} : Alike a b → Alike [.not [[(.childrenAll, a)]]] [.not [[(.childrenAll, b)]]]
  | inHas {a b} : Alike a b → Alike [.has [[(.childrenAll, a)]]] [.has [[(.childrenAll, b)]]]

/-- Complex selectors with the same combinators and compounds that mean the same. -/
def AlikeCx : Complex → Complex → Prop
  | [], [] => True
  | (c, a) :: l, (c', b) :: l' => c = c' ∧ Alike a b ∧ AlikeCx l l'
  | _, _ => False

end Visdom.Spec
