import Verif.Spec.Speech
/-!
# Specification: texts as they are stored
-/
namespace Visdom.Spec

/-- What is stored in a text or a content tag. -/
def stored (h : Heap) (x : Nat) : List Char := (h.node x).content.getD []

/-- The same with the entities decoded; the content of a content tag has none. -/
def readOut (dec : List Char → List Char) (h : Heap) (x : Nat) : List Char := if (h.node x).kind = .tag then stored h x else dec (stored h x)

/-- What is required of rphtml without decoding: texts and the contents of content tags come out as they are stored. -/
structure Verbatim (raw : Voice) : Prop where
  text : ∀ ct k c, k = .text ∨ k = .spaces → raw.say ct k c = c.getD []
  body : ∀ n c, raw.body n c = c.getD []

/-- What is required of rphtml with decoding: `dec` is applied to the texts and to nothing else. -/
structure Decodes (dec : List Char → List Char) (v raw : Voice) : Prop where
  text : ∀ k c, k = .text ∨ k = .spaces → v.say false k c = dec (raw.say false k c)
  other : ∀ ct k c, k ≠ .text → k ≠ .spaces → v.say ct k c = raw.say ct k c
  body : v.body = raw.body

end Visdom.Spec
