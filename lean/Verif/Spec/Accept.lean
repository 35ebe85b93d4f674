import Verif.Spec.White
import Verif.Spec.Digits
import Verif.Model.Compile
import Verif.Model.Parser
import Verif.Spec.SelText
/-!
# Specification: what a text that is accepted as a selector must look like

The grammar is wider than that of `Spec/SelText.lean` where the parser is: white space of Unicode between compounds,
digits of Unicode in `an+b`, a backslash at the end of an identifier, any text inside `:not(…)` and `:has(…)`.
Every simple selector is tied to the part the parser makes of it. Nothing here refers to the parser.
-/
namespace Visdom.Spec

/-- White space of Unicode. -/
def White (t : List Char) : Prop := ∀ c ∈ t, WhiteSpace c

/-- An identifier; a backslash at the end of the text has no effect. -/
def WideId (n t : List Char) : Prop := IdText n t ∨ ∃ u, IdText n u ∧ t = u ++ ['\\']

/-- The value of an attribute test: between quotes, or bare. -/
inductive AttrBody : AttrMode → Option (List Char) → List Char → Prop
  | none : AttrBody .eq none []
  | quoted {o : AttrTest} {w v : List Char} {q : Char} : White w → q = '\'' ∨ q = '"' → '\n' ∉ v →
      AttrBody (testMode o) (some v) (testText o ++ '=' :: (w ++ q :: (v ++ [q])))
  | bare {o : AttrTest} {w v : List Char} : White w → v ≠ [] → BareValue ']' v →
      AttrBody (testMode o) (some v) (testText o ++ '=' :: (w ++ v))

/-- The text looked for by `:contains`, with its quotes. -/
inductive ContainsBody : List Char → Prop
  | quoted {v : List Char} {q : Char} : q = '\'' ∨ q = '"' → '\n' ∉ v → ContainsBody (q :: (v ++ [q]))
  | bare {v : List Char} : BareValue ')' v → ContainsBody v

/-- A number: one digit, or several without a leading zero (from the second on, digits of any script). -/
def WideNum (d : List Char) : Prop :=
  (∃ c, d = [c] ∧ Digit c) ∨ ∃ c l, d = c :: l ∧ Digit c ∧ c ≠ '0' ∧ l ≠ [] ∧ ∀ x ∈ l, Decimal x
/-- The number with its sign; a plus is dropped. -/
def withSign (s d : List Char) : List Char := if s = ['-'] then '-' :: d else d
/-- `+`, `-` or nothing. -/
def OptSign (s : List Char) : Prop := s = [] ∨ s = ['+'] ∨ s = ['-']

/-- `an+b`: the texts of `a` and `b` as kept, and the text. -/
inductive NthBody : Option (List Char) → Option (List Char) → List Char → Prop
  | an {s d : List Char} : OptSign s → d = [] ∨ WideNum d →
      NthBody (some (withSign s (if d = [] then ['1'] else d))) none (s ++ d ++ ['n'])
  | anb {s d w s' w' d' : List Char} : OptSign s → d = [] ∨ WideNum d → White w → s' = ['+'] ∨ s' = ['-'] → White w' →
      WideNum d' →
      NthBody (some (withSign s (if d = [] then ['1'] else d))) (some (withSign s' d')) (s ++ d ++ 'n' :: (w ++ s' ++ w' ++ d'))
  | b {s d : List Char} : OptSign s → WideNum d → NthBody none (some (withSign s d)) (s ++ d)
  | even : NthBody (some ['2']) (some ['0']) ['e', 'v', 'e', 'n']
  | odd : NthBody (some ['2']) (some ['1']) ['o', 'd', 'd']

/-- `name(…)` with white space inside the parentheses. -/
def CallText (head body t : List Char) : Prop := ∃ w w', Blank w ∧ Blank w' ∧ t = head ++ (w ++ body ++ w' ++ [')'])

/-- The part is what the text of a simple selector says. -/
def Fits : Part → List Char → Prop
  | .all, t => t = ['*']
  | .name n, t => WideId n t
  | .cls n, t => ∃ u, WideId n u ∧ t = '.' :: u
  | .id n, t => ∃ u, WideId n u ∧ t = '#' :: u
  | .attr k m v, t => KeyText k ∧ ∃ w w' b w'', Blank w ∧ Blank w' ∧ AttrBody m v b ∧ Blank w'' ∧
      t = '[' :: (w ++ k ++ w' ++ b ++ w'' ++ [']'])
  | .nth last ofType n index, t => ∃ b, NthBody n index b ∧ CallText (nthHead last ofType) b t
  | .edge last ofType, t => t = edgeText last ofType
  | .only ofType, t => t = onlyText ofType
  | .root, t => t = [':', 'r', 'o', 'o', 't']
  | .empty, t => t = [':', 'e', 'm', 'p', 't', 'y']
  | .contains b, t => ContainsBody b ∧ CallText [':', 'c', 'o', 'n', 't', 'a', 'i', 'n', 's', '('] b t
  | .checked, t => t = [':', 'c', 'h', 'e', 'c', 'k', 'e', 'd']
  | .not u, t => CallText [':', 'n', 'o', 't', '('] u t
  | .has u, t => CallText [':', 'h', 'a', 's', '('] u t
  | .header, t => t = [':', 'h', 'e', 'a', 'd', 'e', 'r']
  | .input, t => t = [':', 'i', 'n', 'p', 'u', 't']
  | .submit, t => t = [':', 's', 'u', 'b', 'm', 'i', 't']

/-- A combinator between compounds. -/
inductive WideComb : Comb → List Char → Prop
  | desc {w : List Char} : w ≠ [] → White w → WideComb .childrenAll w
  | sign {c : Comb} {x : Char} {w w' : List Char} : combChar c = some x → White w → White w' → WideComb c (w ++ x :: w')
/-- What may stand at the beginning: nothing, white space, or a combinator. -/
def Lead (c : Comb) (t : List Char) : Prop := (c = .childrenAll ∧ t = []) ∨ WideComb c t
/-- A comma. -/
def Comma (t : List Char) : Prop := ∃ w w', White w ∧ White w' ∧ t = w ++ ',' :: w'

/-- A compound with the combinator before it: the simple selectors one after the other. -/
inductive CmpdOf (c : Comb) : List (Part × Comb) → List Char → Prop
  | one {p : Part} {t : List Char} : Fits p t → CmpdOf c [(p, c)] t
  | more {l : List (Part × Comb)} {p : Part} {t u : List Char} : CmpdOf c l t → Fits p u →
      CmpdOf c (l ++ [(p, .chain)]) (t ++ u)
/-- A complex selector whose first compound has the combinator `c`. -/
inductive CplxOf (c : Comb) : List (List (Part × Comb)) → List Char → Prop
  | one {l : List (Part × Comb)} {t : List Char} : CmpdOf c l t → CplxOf c [l] t
  | more {g : List (List (Part × Comb))} {l : List (Part × Comb)} {c' : Comb} {t w u : List Char} : CplxOf c g t →
      WideComb c' w → CmpdOf c' l u → CplxOf c (g ++ [l]) (t ++ (w ++ u))
/-- A list of complex selectors; only the first one may begin with a combinator. -/
inductive ListOf (c : Comb) : PGroups → List Char → Prop
  | one {g : List (List (Part × Comb))} {t : List Char} : CplxOf c g t → ListOf c [g] t
  | more {gs : PGroups} {g : List (List (Part × Comb))} {t w u : List Char} : ListOf c gs t → Comma w →
      CplxOf .childrenAll g u → ListOf c (gs ++ [g]) (t ++ (w ++ u))

/-- The text is a selector list that says exactly what the groups are. -/
def Says (gs : PGroups) (text : List Char) : Prop :=
  ∃ c a t w, Lead c a ∧ ListOf c gs t ∧ White w ∧ text = a ++ (t ++ w)

end Visdom.Spec
