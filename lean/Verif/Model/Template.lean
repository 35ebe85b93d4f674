import Verif.Model.Parser
/-!
# Model of `Rule::get_queues` (`selector/rule.rs:80-273`): from the text of a rule to its patterns
-/
namespace Visdom

/-- `pattern.rs:465-481 check_params_return`: parameters a pattern does not know are an error, on which `get_queues`
panics (`rule.rs:252`). -/
def checkParams (params : List (List Char)) (p : Pat) : R Pat :=
  if params.all (·.isEmpty) then .ok p else .error .explicit

/-- `pattern.rs:441-447 to_pattern` with the patterns registered by `pattern.rs:431-439 init`. -/
def toPattern (name s p : List Char) : R Pat :=
  if name = "identity".toList then checkParams [s, p] .identity
  else if name = "spaces".toList then checkParams [s, p] .spaces
  else if name = "attr_key".toList then checkParams [s, p] .attrKey
  else if name = "nth".toList then checkParams [s, p] .nth
  else if name = "regexp".toList then checkParams [s] (.regexp p)
  else if name = "selector".toList then checkParams [s, p] .nested
  else .error .explicit

/-- The local variables of `get_queues` (`rule.rs:134-139`) with `MatchedStore` (`rule.rs:80-87`). -/
structure TplState where
  prev : Char := '\x00'
  hashes : Nat := 0
  waitEnd : Bool := false
  inMatched : Bool := false
  raw : List Char := []
  suf : List Char := []
  names : List Char := []
  chars : List Char := []
  queues : List Pat := []
  finish : Bool := false
  deriving DecidableEq, Repr

/-- `rule.rs:249-255` with `rule.rs:103-111 MatchedStore::next`: the placeholder is complete. -/
def TplState.next (s : TplState) (ch : Char) : R TplState :=
  match toPattern s.names s.suf s.raw with
  | .error e => .error e
  | .ok p => .ok { prev := ch, chars := s.chars, queues := s.queues ++ [p], finish := true }

/-- `rule.rs:199-221`: a `#` in a raw parameter. `raw_len - leave_count` can underflow. -/
def TplState.rawHash (s : TplState) : R TplState :=
  if s.hashes = 0 then .error .overflow
  else
    let leave := s.hashes - 1
    if leave = 0 then .ok { s with waitEnd := true, prev := '#' }
    else if s.raw.length < leave then .error .overflow
    else
      let last := s.raw.length - leave
      if 0 < last ∧ ((s.raw.drop last).filter (· == '#')).length = leave then
        .ok { s with waitEnd := true, raw := s.raw.take last, prev := '#' }
      else .ok { s with raw := s.raw ++ ['#'], prev := '#' }

/-- One round of the loop, `rule.rs:140-257`. -/
def TplState.step (s : TplState) (ch : Char) : R TplState :=
  let was := s.finish
  let s := { s with finish := false }
  if s.waitEnd then
    if isAsciiWs ch then .ok s
    else if ch = '}' then s.next ch
    else .error .explicit
  else if !s.inMatched then
    if s.prev = '{' then
      if ch = '{' then .ok { s with prev := '\x00' }
      else .ok { s with
        names := s.names ++ [ch], inMatched := true, chars := [], prev := ch,
        queues := s.queues ++ (if s.chars.dropLast.isEmpty then [] else [.lit s.chars.dropLast]) }
    else if s.prev = '}' then
      if was then .ok { s with chars := s.chars ++ [ch], prev := ch }
      else if ch = '}' then .ok { s with prev := '\x00' }
      else .error .explicit
    else .ok { s with chars := s.chars ++ [ch], prev := ch }
  else if !s.raw.isEmpty then
    if ch = '#' then s.rawHash
    else .ok { s with raw := s.raw ++ [ch], prev := ch }
  else if ch = '}' then
    if s.hashes > 0 then .error .explicit else s.next ch
  else if ch = '#' then .ok { s with hashes := s.hashes + 1, prev := ch }
  else if s.prev = '#' then .ok { s with raw := s.raw ++ [ch], prev := ch }
  else if !s.suf.isEmpty || !(isAsciiAlnum ch || ch == '_') then .ok { s with suf := s.suf ++ [ch], prev := ch }
  else .ok { s with names := s.names ++ [ch], prev := ch }

/-- The whole loop. `rule.rs:140-256`. -/
def TplState.run (s : TplState) : List Char → R TplState
  | [] => .ok s
  | c :: cs =>
    match s.step c with
    | .error e => .error e
    | .ok s' => s'.run cs

/-- `rule.rs:258-273`: after the loop. -/
def TplState.close (s : TplState) : R (List Pat) :=
  if s.waitEnd || s.inMatched then .error .explicit
  else if s.prev = '{' ∨ (s.prev = '}' ∧ s.finish = false) then .error .explicit
  else match s.chars with
    | [] => .ok s.queues
    | [c] => .ok (s.queues ++ [.chr c])
    | l => .ok (s.queues ++ [.lit l])

/-- `rule.rs:130-273 get_queues`. -/
def getQueues (text : List Char) : R (List Pat) :=
  match ({} : TplState).run text with
  | .error e => .error e
  | .ok s => s.close

/-- The texts of the rules, in the order in which they are added: `class.rs:11`, `id.rs:11`, `name.rs:9`, `attr.rs:11`,
`pseudo.rs` (`1054-1088` for the order), `all.rs`. -/
def templates : List (RuleId × List Char) :=
  [ (.cls, ".{identity}".toList), (.id, "#{identity}".toList), (.name, "{identity}".toList),
    (.attr, "[{spaces}{attr_key}{spaces}{regexp#(?:([*^$~|!]?)=\\s*(?:'((?:\\\\?+.)*?)'|([^\\s\\]'\"<>/=`]+)|\"((?:\\\\?+.)*?)\"))?#}{spaces}]".toList),
    (.root, ":root".toList), (.empty, ":empty".toList), (.firstChild, ":first-child".toList),
    (.lastChild, ":last-child".toList), (.onlyChild, ":only-child".toList),
    (.nthChild, ":nth-child({spaces}{nth}{spaces})".toList), (.nthLastChild, ":nth-last-child({spaces}{nth}{spaces})".toList),
    (.firstOfType, ":first-of-type".toList), (.lastOfType, ":last-of-type".toList),
    (.nthOfType, ":nth-of-type({spaces}{nth}{spaces})".toList),
    (.nthLastOfType, ":nth-last-of-type({spaces}{nth}{spaces})".toList), (.onlyOfType, ":only-of-type".toList),
    (.not, ":not({spaces}{selector}{spaces})".toList),
    (.contains, ":contains({spaces}{regexp#(?:'((?:\\\\?+.)*?)'|\"((?:\\\\?+.)*?)\"|([^)\\s'\"<>/=`]*))#}{spaces})".toList),
    (.has, ":has({spaces}{selector}{spaces})".toList), (.checked, ":checked".toList), (.header, ":header".toList),
    (.input, ":input".toList), (.submit, ":submit".toList), (.all, "*".toList) ]

/-- The text of the splitter, `selector/mod.rs:15`. -/
def splitterTemplate : List Char := "{regexp#(\\s*[>,~+]\\s*|\\s+)#}".toList

end Visdom
