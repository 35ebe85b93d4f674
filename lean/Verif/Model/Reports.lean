import Verif.Model.Mutate
/-!
# Model of the error reports of mutations, and of loading

The functions of `Model/Mutate.lean` once more, where they call `Dom::halt`, with the reports made. The texts of the messages are left out,
the names of the methods are kept. Handlers are numbers.
-/
namespace Visdom

/-- For the root of a document that is alive: the handler bound to it (`lib.rs:1103-1105 bind_error`, `1133-1139 onerror`). -/
abbrev Handlers := Nat → Option Nat

/-- What a handler is called with: `IError::InvalidTraitMethodCall` with its method (`error.rs:9-10`), or the error of the HTML parser. -/
inductive Fault where
  | method (m : String)
  | parse (msg : List Char)
  deriving DecidableEq, Repr

/-- One call of a handler. `document.rs:52-56 trigger_error`, `lib.rs:1251`. -/
structure Report where
  handler : Nat
  fault : Fault
  deriving DecidableEq, Repr

/-- `element.rs:86-94 action`. -/
def InsertPosition.action : InsertPosition → String
  | .beforeBegin => "insert before"
  | .afterBegin => "prepend"
  | .beforeEnd => "append"
  | .afterEnd => "insert after"

namespace Heap

/-- `lib.rs:212-225 owner_document` followed by `document.rs:52-56 trigger_error`; `lib.rs:67-74 halt`. -/
def halt (h : Heap) (H : Handlers) (x : Nat) (m : String) : List Report :=
  match (h.node x).root with
  | none => []
  | some r =>
    match H r with
    | none => []
    | some k => [⟨k, .method m⟩]

/-- `lib.rs:77-117 validate_dom_change`. -/
def validateR (h : Heap) (H : Handlers) (e : Ext) (t n : Nat) (m : String) : R (Bool × List Report) :=
  if !h.isElem t then .ok (false, h.halt H t m)
  else if h.isRoot n && e.isDoc h n then .ok (false, h.halt H t m)
  else if t = n then .ok (false, h.halt H t m)
  else
    match h.hasAncestor (h.size + 1) t n with
    | .error x => .error x
    | .ok true => .ok (false, h.halt H t m)
    | .ok false => .ok (true, [])

/-- `lib.rs:806-925 insert_adjacent`; the call of `tag_names` on the element `t` reports nothing. -/
def insertAdjacentR (h : Heap) (H : Handlers) (e : Ext) (pos : InsertPosition) (t n : Nat) : R (Heap × List Report) :=
  match h.validateR H e t n pos.action with
  | .error x => .error x
  | .ok (false, l) => .ok (h, l)
  | .ok (true, l) =>
    match h.takeNodes e n with
    | .error x => .error x
    | .ok (h, nodes) => (h.placeNodes e pos t nodes).map (·, l)

/-- `lib.rs:251-297 set_text`; the call of `tag_names` is on an element. -/
def setTextR (h : Heap) (H : Handlers) (e : Ext) (x : Nat) (s : List Char) : Heap × List Report :=
  match (h.node x).kind with
  | .text | .spaces | .comment => if s.isEmpty then (h, h.halt H x "set_text") else (h.setText e x s, [])
  | _ => (h.setText e x s, [])

end Heap

/-- The inner loop of `elements.rs:3663-3669 insert`, over the reversed list. -/
def insertLoopR (H : Handlers) (e : Ext) (pos : InsertPosition) (t : Nat) (h : Heap) : List Nat → R (Heap × List Report)
  | [] => .ok (h, [])
  | n :: ns =>
    match h.insertAdjacentR H e pos t n with
    | .error x => .error x
    | .ok (h, l) => (insertLoopR H e pos t h ns).map fun p => (p.1, l ++ p.2)

/-- `elements.rs:3663-3669 insert`. -/
def insertAllR (H : Handlers) (e : Ext) (pos : InsertPosition) (dest : List Nat) (h : Heap) : List Nat → R (Heap × List Report)
  | [] => .ok (h, [])
  | t :: ts =>
    match insertLoopR H e pos t h dest.reverse with
    | .error x => .error x
    | .ok (h, l) => (insertAllR H e pos dest h ts).map fun p => (p.1, l ++ p.2)

/-- `elements.rs:3722-3725 append_to`. -/
def appendTo (e : Ext) (X targets : List Nat) (h : Heap) : R Heap := insertAll e .beforeEnd X h targets
/-- `elements.rs:3732-3735 prepend_to`. -/
def prependTo (e : Ext) (X targets : List Nat) (h : Heap) : R Heap := insertAll e .afterBegin X h targets
/-- `elements.rs:3777-3780 insert_before`. -/
def insertBefore (e : Ext) (X targets : List Nat) (h : Heap) : R Heap := insertAll e .beforeBegin X h targets
/-- `elements.rs:3788-3791 insert_after`. -/
def insertAfter (e : Ext) (X targets : List Nat) (h : Heap) : R Heap := insertAll e .afterEnd X h targets

/-- `rphtml Doc::parse` with some options: the heap with the nodes of the document and its root, or an error. Called in `lib.rs:1229`. -/
abbrev DocParser := Heap → List Char → Except (List Char) (Heap × Nat)

/-- `lib.rs:1233-1239 load_options` (`1223-1231 parse_doc_with_options`, `1107-1110 elements`); `load` (`1256-1258`) is this with the
default options. -/
def loadOptions (p : DocParser) (h : Heap) (s : List Char) : Except (List Char) (Heap × List Nat) := (p h s).map fun q => (q.1, [q.2])

/-- What loading with a handler gives: the heap, the handlers, the set, and the reports made. `lib.rs:1241-1254`. -/
structure Loaded where
  heap : Heap
  handlers : Handlers
  set : List Nat
  reports : List Report

/-- `lib.rs:1241-1254 load_options_catch`; `load_catch` (`1260-1265`) is this with the default options. -/
def loadOptionsCatch (p : DocParser) (h : Heap) (H : Handlers) (s : List Char) (k : Nat) : Loaded :=
  match p h s with
  | .ok (h, r) => { heap := h, handlers := fun x => if x = r then some k else H x, set := [r], reports := [] }
  | .error msg => { heap := h, handlers := H, set := [], reports := [⟨k, .parse msg⟩] }

end Visdom
