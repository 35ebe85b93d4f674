import Verif.Model.Parser
import Verif.Spec.Conc
/-!
# The locks of the selector parser

`selector/mod.rs:14-17`, `rule.rs:10-12`, `pattern.rs:9-12`, `mesdoc/mod.rs:2`. A `Mutex` whose holder panics is
poisoned: `lock().unwrap()` panics from then on.
-/
namespace Visdom
open Spec

/-! ## Poisoning -/

/-- Which mutexes are poisoned. `PATTERNS` and `REGEXS` are only held around code that does not panic once the library is
initialised. `allSet`: `ALL_RULE` holds its rule. `selector/mod.rs:15-17`, `rule.rs:11`, `pattern.rs:10-11`. -/
structure Poison where
  splitter : Bool := false
  rules : Bool := false
  allRule : Bool := false
  allSet : Bool := false
  deriving DecidableEq, Repr

/-- `mod.rs:91-204 from_str`: both locks are taken (`101-102`) when the text is not empty, and held until the end. -/
def parseCall (p : Poison) (text : List Char) : R (Except ParseErr PGroups) × Poison :=
  if text.isEmpty then (parseGroups text, p)
  else if p.splitter then (.error .poisoned, p)
  else if p.rules then (.error .poisoned, { p with splitter := true })
  else match parseGroups text with
    | .error e => (.error e, { p with splitter := true, rules := true })
    | .ok r => (.ok r, p)

/-- `mod.rs:290-304 make_comb_all`: `ALL_RULE`, and `RULES` the first time. -/
def combAllCall (p : Poison) : R Unit × Poison :=
  if p.allRule then (.error .poisoned, p)
  else if p.allSet then (.ok (), p)
  else if p.rules then (.error .poisoned, { p with allRule := true })
  else (.ok (), { p with allSet := true })

/-- A call of the library that uses the locks, as far as the parser is concerned. `selector/mod.rs:91-204 from_str`, `290-304 make_comb_all`. -/
inductive LockCall where
  | parse (text : List Char)
  | combAll
  deriving DecidableEq, Repr

/-- The state after a call. `selector/mod.rs:91-204`, `290-304`. -/
def afterCall (p : Poison) : LockCall → Poison
  | .parse text => (parseCall p text).2
  | .combAll => (combAllCall p).2

/-- The state after a history of calls (the caller catches the panics, or they happen in threads that end). `selector/mod.rs:91-204`, `290-304`. -/
def afterCalls (p : Poison) (cs : List LockCall) : Poison := cs.foldl afterCall p

/-! ## Lock traces -/

/-- The locks, with `INIT_LIB` (a `Once`) and the initialisation of the `lazy_static` `SPLITTER` (which compiles a
template). The other `lazy_static`s are initialised by code that takes no lock and are left out. `mesdoc/mod.rs:2 INIT_LIB`, `selector/mod.rs:14-18`, `rule.rs:10-12`, `pattern.rs:9-12`. -/
inductive Lock where
  | initLib | splitterInit | splitter | allRule | rules | patterns | regexs
  deriving DecidableEq, Repr

/-- The same lock taken and released `n` times. `pattern.rs:387-401 get_rule`, `422-429 add_pattern`, `441-447 to_pattern`. -/
def touch (l : Lock) : Nat → List (Act Lock)
  | 0 => []
  | n + 1 => .acq l :: .rel l :: touch l n

/-- A call, with the choices that decide which locks it takes: they depend on the text and on which thread came first.
`regexs` counts the calls of `RegExp::get_rule`, `patterns` those of `add_pattern` or `to_pattern`. `mesdoc/mod.rs:17-21`, `selector/mod.rs:91-304`. -/
inductive ConcCall where
  /-- `mesdoc::init` (`mesdoc/mod.rs:17-21`) that runs `rules::init` (`rules/mod.rs:8-22`) -/
  | initRun (added patterns : Nat)
  /-- `mesdoc::init` that waits for another thread's, or finds it done -/
  | initWait
  /-- `from_str` with the empty text -/
  | parseEmpty
  /-- `from_str` (`mod.rs:91-204`); the first one compiles the splitter (`mod.rs:15`) -/
  | parse (first : Bool) (regexs : Nat)
  /-- `make_comb_all` (`mod.rs:290-304`) -/
  | combAll (first : Bool)
  deriving DecidableEq, Repr

/-- The locks a call takes and releases, in order. Guards are dropped in reverse order of their declaration. `mesdoc/mod.rs:17-21`, `rules/mod.rs:8-21`, `selector/mod.rs:91-204`, `290-304`. -/
def ConcCall.acts : ConcCall → List (Act Lock)
  | .initRun added patterns =>
    .acq .initLib :: (touch .patterns added ++ .acq .rules :: (touch .patterns patterns ++ [.rel .rules, .rel .initLib]))
  | .initWait => [.acq .initLib, .rel .initLib]
  | .parseEmpty => []
  | .parse first regexs =>
    .acq .splitterInit :: ((if first then touch .patterns 1 else []) ++ .rel .splitterInit :: .acq .splitter :: .acq .rules ::
      (touch .regexs regexs ++ [.rel .rules, .rel .splitter]))
  | .combAll first =>
    .acq .allRule :: ((if first then [.acq .rules, .rel .rules] else []) ++ [.rel .allRule])

/-- What a thread does that makes the calls one after the other. The calls are those of `ConcCall` (`mesdoc/mod.rs:17-21`, `selector/mod.rs:91-304`). -/
def callsActs (cs : List ConcCall) : List (Act Lock) := cs.flatMap ConcCall.acts

end Visdom
