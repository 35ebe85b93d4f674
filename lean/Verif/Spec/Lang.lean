import Verif.Spec.Digits
import Verif.Model.Parser
import Verif.Spec.SelText
/-!
# Specification: the languages of regular expressions and patterns, and texts that end too early

The language of a regular expression is defined as usual, without reference to the matcher.
-/
namespace Visdom.Spec

/-- The words of a regular expression. -/
inductive Lang : Re → List Char → Prop
  | one {p : Char → Bool} {x : Char} : p x = true → Lang (.one p) [x]
  | seq {a b : Re} {u v : List Char} : Lang a u → Lang b v → Lang (.seq a b) (u ++ v)
  | altL {a b : Re} {u : List Char} : Lang a u → Lang (.alt a b) u
  | altR {a b : Re} {u : List Char} : Lang b u → Lang (.alt a b) u
  | optN {a : Re} : Lang (.opt a) []
  | optS {a : Re} {u : List Char} : Lang a u → Lang (.opt a) u
  | manyN {a : Re} : Lang (.many a) []
  | manyS {a : Re} {u v : List Char} : Lang a u → Lang (.many a) v → Lang (.many a) (u ++ v)
  | lazyN {a : Re} : Lang (.lazy a) []
  | lazyS {a : Re} {u v : List Char} : Lang a u → Lang (.lazy a) v → Lang (.lazy a) (u ++ v)
  | grp {n : Nat} {a : Re} {u : List Char} : Lang a u → Lang (.grp n a) u

/-- `r` is the group number `n` of the expression. -/
def Group : Re → Nat → Re → Prop
  | .one _, _, _ => False
  | .seq a b, n, r => Group a n r ∨ Group b n r
  | .alt a b, n, r => Group a n r ∨ Group b n r
  | .opt a, n, r => Group a n r
  | .many a, n, r => Group a n r
  | .lazy a, n, r => Group a n r
  | .grp m a, n, r => (m = n ∧ a = r) ∨ Group a n r

/-- The regular expression of a text used in a rule. -/
def ReOf (ctx : List Char) (re : Re) : Prop :=
  (ctx = splitterCtx ∧ re = splitterRe) ∨ (ctx = attrCtx ∧ re = attrRe) ∨ (ctx = containsCtx ∧ re = containsRe)

/-- What a pattern takes from a text. -/
def PatLang : Pat → List Char → Prop
  | .chr c, t => t = [c]
  | .lit l, t => t = l
  | .identity, t => ∃ n u, IdText n u ∧ (t = u ∨ t = u ++ ['\\'])
  | .attrKey, t => KeyText t
  | .spaces, t => Blank t
  | .nth, t => Lang nthRe t ∨ t = ['e', 'v', 'e', 'n'] ∨ t = ['o', 'd', 'd']
  | .regexp ctx, t => ∃ re, ReOf ctx re ∧ Lang re t
  | .nested, _ => False

/-- What patterns, one after the other, take from a text. -/
inductive Pieces : List Pat → List Char → Prop
  | nil : Pieces [] []
  | cons {p : Pat} {ps : List Pat} {t u : List Char} : PatLang p t → Pieces ps u → Pieces (p :: ps) (t ++ u)

/-- A pattern that looks at a character without asking whether there is one. -/
def Needs (p : Pat) : Prop := p = .identity ∨ ∃ c, p = .chr c

/-- `t` satisfies some of the patterns and then ends where the next one needs a character. -/
def Cut (ps : List Pat) (t : List Char) : Prop := ∃ qs p rs, ps = qs ++ p :: rs ∧ Needs p ∧ Pieces qs t

/-- The inside of a nested selector: separators and simple selectors; a rule that is satisfied only in part may be
continued by another inside and the rest of the rule, and then ends the inside. -/
inductive Inside : List Char → Prop
  | nil : Inside []
  | sep {t u : List Char} : Lang splitterRe t → Inside u → Inside (t ++ u)
  | rule {r : ParseRule} {t u : List Char} : r ∈ ruleTable → Pieces r.queues t → Inside u → Inside (t ++ u)
  | nest {r : ParseRule} {ps qs : List Pat} {q : Pat} {t u v : List Char} : r ∈ ruleTable → r.queues = ps ++ q :: qs →
      Pieces ps t → Inside u → Pieces qs v → Inside (t ++ (u ++ v))

/-- An inside, to be followed by the patterns `untl`, that meets the end of the text. -/
inductive Hits : List Pat → List Char → Prop
  | done {untl : List Pat} {t : List Char} : Inside t → Hits untl t
  | cut {untl : List Pat} {t u : List Char} : Inside t → Cut untl u → Hits untl (t ++ u)
  | rule {untl : List Pat} {r : ParseRule} {t u : List Char} : Inside t → r ∈ ruleTable → Cut r.queues u → Hits untl (t ++ u)
  | nest {untl : List Pat} {r : ParseRule} {ps qs : List Pat} {q : Pat} {t u v : List Char} : Inside t → r ∈ ruleTable →
      r.queues = ps ++ q :: qs → Pieces ps u → Hits qs v → Hits untl (t ++ (u ++ v))

/-- A text that ends in the middle of a simple selector. -/
inductive Unfinished : List Char → Prop
  | rule {r : ParseRule} {t : List Char} : r ∈ ruleTable → t ≠ [] → Cut r.queues t → Unfinished t
  | nest {r : ParseRule} {ps qs : List Pat} {t u : List Char} : r ∈ ruleTable → r.queues = ps ++ .nested :: qs →
      Pieces ps t → Hits qs u → Unfinished (t ++ u)

/-- Every number in the text has at most 18 digits, all of them ASCII. -/
def SmallNumbers (text : List Char) : Prop :=
  ∀ w, w <:+: text → (∀ c ∈ w, Decimal c) → w.length ≤ 18 ∧ ∀ c ∈ w, Digit c

end Visdom.Spec
