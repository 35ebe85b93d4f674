import Verif.Spec.Matcher
import Verif.Spec.Selector
import Verif.Props.Nth
/-!
# Specification: the selectors covered

The library does not evaluate every selector correctly: some rules fail under some combinators or on lists that are
not in document order (see DESIGN.md). `Sim.Ok` collects the conditions under which the theorems about whole selectors
hold. They speak about the selector and the numbers of children in the document, never about the answers of the code.
-/
namespace Visdom.Spec

/-- What is known of a list a rule is applied to. -/
inductive ListQ where
  /-- nothing -/
  | any
  /-- siblings in increasing position, each at most once -/
  | sib
  /-- document order -/
  | doc
  deriving DecidableEq, Repr

def ListQ.lists (h : Heap) (r : Nat) : ListQ → List Nat → Prop
  | .any, _ => True
  | .sib, l => SibAsc h l
  | .doc, l => DocSorted h r l ∧ SibAsc h l

/-- How a rule is evaluated: among the children of elements, among their descendants, or on a list. -/
inductive Via where
  | child | desc | list
  deriving DecidableEq, Repr

def Comb.via : Comb → Via
  | .children => .child
  | .childrenAll => .desc
  | _ => .list

/-- The numbers of children are such that the arithmetic of the library is right for `an+b` (`BadNth`, C01). Among elements of one
name every `an+b` with a machine word `b` will do: the numbers are at most too many, and those are not reached. -/
def NthOk (h : Heap) (r : Nat) (ofType : Bool) (a b : Int) : Prop :=
  (ofType = true ∧ -9223372036854775808 ≤ b ∧ b < 9223372036854775808 ∧
    ∀ p, Within h r p → h.children p ≠ [] → ((h.children p).length : Int) < 9223372036854775808) ∨
  ∀ p, Within h r p → h.children p ≠ [] →
    ¬ BadNth a b (h.children p).length ∧ ((h.children p).length : Int) < 9223372036854775808

/-- The machine words can hold the numbers. -/
def NthWords (h : Heap) (r : Nat) (b : Int) : Prop :=
  -9223372036854775808 ≤ b ∧ b < 9223372036854775808 ∧ ∀ p, Within h r p → ((h.children p).length : Int) < 9223372036854775808

/-- The priority of a rule (`Rule` definitions in `rules/*.rs`). The rule of greatest priority is evaluated first. -/
def Sim.prio : Sim → Nat
  | .all => 0
  | .name _ => 100
  | .cls _ => 1000
  | .id _ => 10000
  | _ => 10

section
variable (h : Heap) (r : Nat) (env : Env)

/-- No element matches two of the alternatives. -/
def Apart : List Complex → Prop
  | [] => True
  | c :: cs => (∀ x, Within h r x → h.isElem x = true → Sel h r (· = r) (steps h r env c) x → ¬ anySat h r env cs x) ∧
      Apart cs

/-- Among the elements of `M`: the last one in `U` is also in `c`, and `c` goes on behind it. -/
def Spills (M U c : Nat → Prop) : Prop :=
  ∃ e s, M e ∧ U e ∧ (∀ y, M y → U y → ¬ Before h r e y) ∧ c e ∧ M s ∧ c s ∧ Before h r e s

/-- None of the sets spills over the union of those before it. -/
def NoSpill (M : Nat → Prop) : (Nat → Prop) → List (Nat → Prop) → Prop
  | _, [] => True
  | U, c :: cs => ¬ Spills h r M U c ∧ NoSpill M (fun x => U x ∨ c x) cs

/-- On the list `X` the alternatives are put together as a union: the union of the library (C15) is right for a single alternative, and on
lists in document order for alternatives that do not spill over, among them those that exclude each other. -/
def UnionOn (q : ListQ) (X : List Nat) (sel : List Complex) : Prop :=
  sel.length ≤ 1 ∨ (q = .doc ∧ NoSpill h r (· ∈ X) (fun _ => False) (sel.map fun c x => Sel h r (· = r) (steps h r env c) x))

/-- The same for every list. -/
def UnionOk (q : ListQ) (sel : List Complex) : Prop := ∀ X, Elems h r X → UnionOn h r env q X sel

variable (tot : Bool)

mutual
/-- The rule is right when evaluated this way. With `tot` also: it does not panic. -/
def Sim.Ok : Sim → ListQ → Via → Prop
  | .id i, q, v => Roots h r ∧ IdOk h r env i ∧ (v = .desc ∨ (v = .list ∧ q ≠ .any))
  | .attrTest _ _ w, _, _ => w ≠ []
  | .nth _ ofType a b, q, v => (NthOk h r ofType a b ∨ (tot = false ∧ v ≠ .list ∧ NthWords h r b)) ∧ (v ≠ .list ∨ q ≠ .any) ∧ (tot = true → v = .child → ¬ BadNth a b 0)
  | .nthIdx last _ _, q, v => (v ≠ .list ∨ q ≠ .any) ∧ (tot = true → last = true → v = .list)
  | .edge last _, q, v => (v ≠ .list ∨ q ≠ .any) ∧ (tot = true → last = true → v = .list)
  | .only _, q, v => v ≠ .list ∨ q ≠ .any
  | .not sel, q, v => UnionOk h r env (if v = .list then q else .doc) sel ∧ innersOk (if v = .list then q else .doc) sel
  | .has sel, _, _ => innersOk .doc sel
  | .alias sel, q, v => UnionOk h r env (if v = .list then q else .doc) sel ∧ innersOk (if v = .list then q else .doc) sel
  | _, _, _ => True
/-- The alternatives of a selector that filters a list. -/
def innersOk (q : ListQ) : List (List (Comb × List Sim)) → Prop
  | [] => True
  | c :: cs => (c ≠ [] ∧ (∀ s ∈ c, Comb.down s.1 = true ∧ s.2 ≠ []) ∧ (∀ s, c = [s] → s.1 = .childrenAll) ∧
      (2 ≤ c.length → Roots h r)) ∧ innerOk q c ∧ innersOk q cs
/-- The last compound filters the list, those before it are checked upwards. -/
def innerOk (q : ListQ) : List (Comb × List Sim) → Prop
  | [] => True
  | s :: l => stepOk (if l.isEmpty then q else .doc) s ∧ innerOk q l
def stepOk (q : ListQ) : Comb × List Sim → Prop
  | (_, ss) => simsOk q ss
def simsOk (q : ListQ) : List Sim → Prop
  | [] => True
  | s :: ss => s.Ok q .list ∧ simsOk q ss
end

/-- A compound whose first rule, the one of greatest priority, is evaluated by `v`, the others on the resulting list. -/
def CmpdOk (q : ListQ) (v : Via) (ss : List Sim) : Prop :=
  ss ≠ [] ∧ ∀ s ∈ ss, ((∀ t ∈ ss, t.prio ≤ s.prio) → s.Ok h r env tot q v) ∧ (ss.length = 1 ∨ s.Ok h r env tot q .list)

/-- A compound evaluated as written: the first rule by `v`, the others on the resulting list. -/
def PlainOk (q : ListQ) (v : Via) : List Sim → Prop
  | [] => False
  | s :: ss => s.Ok h r env tot q v ∧ ∀ t ∈ ss, t.Ok h r env tot q .list

/-- What is known of the lists met in a phase. -/
def Phase.listQ : Phase → ListQ
  | .first => .any
  | .sib | .down => .sib
  | _ => .doc

/-- The compounds are right when evaluated from left to right; `C` is the condition on one compound. With `tot`:
descendants are only looked for from a tidy list (otherwise the library may panic). -/
def StepsOk (C : ListQ → Via → List Sim → Prop) : Phase → Complex → Prop
  | _, [] => True
  | ph, (c, ss) :: l => Comb.down c = true ∧ C (Phase.listQ (ph.next c)) (Comb.via c) ss ∧
      (tot = true → c = .childrenAll → ph.tidy = true) ∧ StepsOk C (ph.next c) l

/-- The position of the first compound with the greatest sum of priorities. -/
def heaviest (cx : Complex) : Nat :=
  let ws := cx.map fun s => (s.2.map Sim.prio).sum
  ws.idxOf (ws.foldr max 0)

/-- Does the search start in the middle: the heaviest compound is not the first one, and the selector begins with the
descendant or child combinator. -/
def looked (cx : Complex) : Bool :=
  decide (0 < heaviest cx) && match cx with
    | (c, _) :: _ => c == .children || c == .childrenAll
    | [] => false

/-- The complex selector is one for which `find` is right, started from a list in the given phase. -/
def FindOk (ph : Phase) (cx : Complex) : Prop :=
  cx ≠ [] ∧
  if looked cx = true then
    (∀ s ∈ cx.take (heaviest cx), Comb.down s.1 = true ∧ s.2 ≠ [] ∧ ∀ t ∈ s.2, t.Ok h r env tot .doc .list) ∧
    (tot = true → ph = .anti ∨ ph = .sorted) ∧
    ∃ c ss l, cx.drop (heaviest cx) = (c, ss) :: l ∧ Comb.down c = true ∧
      CmpdOk h r env tot (Phase.listQ (ph.next .childrenAll)) .desc ss ∧
      StepsOk tot (CmpdOk h r env tot) (ph.next .childrenAll) l
  else StepsOk tot (CmpdOk h r env tot) ph cx

end

/-- Rules that look at one element only and are always right: all but ids, positions, `:not`, `:has`, the aliases, and
attribute tests with an empty operand. -/
def Sim.basic : Sim → Bool
  | .all | .name _ | .cls _ | .attr _ | .root | .empty | .contains _ | .checked => true
  | .attrTest _ _ v => !v.isEmpty
  | _ => false

/-- A complex selector made of basic rules. -/
def Basic (cx : Complex) : Prop :=
  cx ≠ [] ∧ ∀ s ∈ cx, Comb.down s.1 = true ∧ s.2 ≠ [] ∧ ∀ t ∈ s.2, t.basic = true

/-- A complex selector made of basic rules and fit to be tested on an element: a single compound has no combinator in
front (the library ignores it). -/
def BasicTest (cx : Complex) : Prop := Basic cx ∧ ∀ s, cx = [s] → s.1 = .childrenAll

/-- The selector consisting of one simple selector. -/
def sel1 (s : Sim) : List Complex := [[(.childrenAll, [s])]]

/-- A single simple selector evaluated among children or descendants. -/
def lonely (s : Comb × List Sim) : Bool := decide (s.2.length = 1) && (s.1 == .children || s.1 == .childrenAll)

/-- Descendants are only looked for from a tidy list; on lists that may hold an element twice only basic rules are used, or one rule alone. -/
def calmSteps : Phase → Complex → Bool
  | _, [] => true
  | ph, (c, ss) :: l => (c != .childrenAll || ph.tidy) && (ph.next c != .first || ss.all Sim.basic || lonely (c, ss)) &&
      calmSteps (ph.next c) l

/-- As `calmSteps`, for the order in which the library evaluates the selector. -/
def calm (ph : Phase) (cx : Complex) : Bool :=
  if looked cx = true then (ph == .anti || ph == .sorted) && calmSteps (ph.next .childrenAll) (cx.drop (heaviest cx + 1))
  else calmSteps ph cx

/-- What is known of the order of the result. -/
def resultPhase (ph : Phase) (cx : Complex) : Phase :=
  if looked cx = true then (ph.next .childrenAll).after ((cx.drop (heaviest cx + 1)).map (·.1)) else ph.after (cx.map (·.1))

end Visdom.Spec
