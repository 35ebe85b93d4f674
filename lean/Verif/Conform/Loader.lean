import Verif.Model.Methods
import Verif.Model.Document
import Verif.Model.Copy
import Verif.Model.Values
import Verif.Model.Value
import Verif.Model.TextValue
import Verif.Model.SetAttrs
import Verif.Model.Reports
/-!
# A loader for the tests of the repository

The files under `Conform` are tests, not proofs: they run the model on the documents and calls of `/repo/tests` and compare with what these tests
assert. This file reads the HTML of the tests (well formed, lower case entities only) in place of rphtml, which is not modelled. No theorem depends
on it.
-/
namespace Visdom.Conform
open Visdom Spec

/-- Elements without an end tag. -/
def voids : List (List Char) := ["meta", "input", "img", "br", "hr", "link"].map String.toList
/-- Elements whose text is kept as content. -/
def contents : List (List Char) := ["title", "textarea", "script", "style"].map String.toList

def isSp (c : Char) : Bool := c == ' ' || c == '\n' || c == '\t' || c == '\r'

/-- Named entities that the tests use. -/
def entities : List (String × Char) := [("&amp;", '&'), ("&lt;", '<'), ("&gt;", '>'), ("&quot;", '"'), ("&apos;", '\''), ("&nbsp;", ' ')]

/-- The last argument counts the characters of an entity that are left out. -/
def decodeFrom : List Char → Nat → List Char
  | [], _ => []
  | _ :: cs, k + 1 => decodeFrom cs k
  | c :: cs, 0 =>
    match entities.find? fun e => e.1.toList.isPrefixOf (c :: cs) with
    | some e => e.2 :: decodeFrom cs (e.1.length - 1)
    | none => c :: decodeFrom cs 0

def decode (s : List Char) : List Char := decodeFrom s 0

def encode (s : List Char) : List Char :=
  s.flatMap fun c => if c == '&' then "&amp;".toList else if c == '<' then "&lt;".toList else if c == '>' then "&gt;".toList else [c]

/-- The attributes of a tag; what is left begins with `>` or `/>`. -/
def readAttrs : Nat → List Char → List Attr → List Attr × List Char
  | 0, s, acc => (acc, s)
  | k + 1, s, acc =>
  match s.dropWhile isSp with
  | [] => (acc, [])
  | '>' :: cs => (acc, '>' :: cs)
  | '/' :: '>' :: cs => (acc, '/' :: '>' :: cs)
  | c :: cs =>
    let key := c :: cs.takeWhile fun d => !(isSp d || d == '=' || d == '>' || d == '/')
    let rest := (c :: cs).drop key.length
    match rest with
    | '=' :: q :: more =>
      if q == '"' || q == '\'' then
        let v := more.takeWhile (· != q)
        readAttrs k (more.drop (v.length + 1)) (acc ++ [{ key := some key, value := some v, quote := some q }])
      else
        let v := (q :: more).takeWhile fun d => !(isSp d || d == '>')
        readAttrs k ((q :: more).drop v.length) (acc ++ [{ key := some key, value := some v }])
    | _ => readAttrs k rest (acc ++ [{ key := some key }])

/-- The table of an element: the first attribute of a name counts. -/
def metaOf (l : List Attr) : Meta :=
  { attrs := l
    lcMap := (l.zipIdx.foldl (fun (m : List (List Char × Nat)) p =>
      let k := lowerStr (p.1.key.getD [])
      if (mapGet m k).isSome then m else mapInsert m k p.2) []) }

structure Loading where
  nodes : Array Node
  base : Nat
  opened : List Nat

def Loading.add (s : Loading) (n : Node) : Loading :=
  let p := s.opened.headD s.base
  let pn := s.nodes.getD (p - s.base) {}
  let kids := pn.childs.getD []
  let upper : Node := { pn with childs := some (kids ++ [s.base + s.nodes.size]) }
  let new : Node := { n with parent := some p, index := kids.length, root := some s.base }
  { s with nodes := (s.nodes.set! (p - s.base) upper).push new }

/-- Up to a text; the rest begins with it. -/
def upTo (stop : List Char) : List Char → List Char → List Char × List Char
  | [], acc => (acc.reverse, [])
  | c :: cs, acc => if stop.isPrefixOf (lowerStr ((c :: cs).take stop.length)) then (acc.reverse, c :: cs) else upTo stop cs (c :: acc)

def read : Nat → Loading → List Char → Loading
  | 0, s, _ => s
  | k + 1, s, t =>
  match t with
  | [] => s
  | '<' :: '!' :: '-' :: '-' :: cs =>
    let (c, rest) := upTo "-->".toList cs []
    read k (s.add { kind := .comment, content := some c }) (rest.drop 3)
  | '<' :: '!' :: cs =>
    let (c, rest) := upTo ">".toList cs []
    read k (s.add { kind := .other, content := some c }) (rest.drop 1)
  | '<' :: '/' :: cs =>
    let (_, rest) := upTo ">".toList cs []
    read k { s with opened := s.opened.tail } (rest.drop 1)
  | '<' :: cs =>
    let name := cs.takeWhile fun d => !(isSp d || d == '>' || d == '/')
    let (attrs, rest) := readAttrs cs.length (cs.drop name.length) []
    let node : Node := { kind := .tag, name := name, attrs := metaOf attrs }
    let id := s.base + s.nodes.size
    if contents.contains (lowerStr name) then
      let (c, rest) := upTo ("</".toList ++ lowerStr name) (rest.drop 1) []
      read k (s.add { node with content := some c }) ((upTo ">".toList rest []).2.drop 1)
    else if rest.headD ' ' == '/' then read k (s.add node) (rest.drop 2)
    else if voids.contains (lowerStr name) then read k (s.add node) (rest.drop 1)
    else
      let s := s.add node
      read k { s with opened := id :: s.opened } (rest.drop 1)
  | c :: cs =>
    let (x, rest) := upTo "<".toList (c :: cs) []
    read k (s.add { kind := if x.all isSp then .spaces else .text, content := some x }) rest

/-- The document put into a heap. -/
def loadInto (h : Heap) (t : List Char) : Heap × Nat :=
  let s := read (t.length + 1) { nodes := #[{ kind := .root, root := some h.size }], base := h.size, opened := [] } t
  let a := s.nodes
  let n := h.size
  let old := h.node
  ({ size := n + a.size, node := fun x => if x < n then old x else a.getD (x - n) {} }, n)

/-- rphtml's `is_document`: there is an `html` element at the top. -/
def isDocument (h : Heap) (r : Nat) : Bool := h.isRoot r && (h.children r).any fun x => lowerStr (h.node x).name == "html".toList

def ext : Ext where
  isDoc := isDocument
  allow := fun name _ => !voids.contains (lowerStr name)
  contentTag := fun n => contents.contains (lowerStr n)
  encode := encode
  parse := fun h s => .ok (loadInto h s)

/-- With rphtml's rule that a content tag takes in texts only. -/
def extOf (h : Heap) : Ext :=
  { ext with allow := fun name x => !voids.contains (lowerStr name) && (!contents.contains (lowerStr name) || (h.node x).kind == .text || (h.node x).kind == .spaces) }

/-- How rphtml writes a start tag, with the quotes of the source. -/
def opening (n : List Char) (m : Meta) : List Char :=
  '<' :: n ++ (m.attrs.flatMap fun a =>
    match a.key with
    | none => []
    | some k => ' ' :: k ++ (match a.value with
      | none => []
      | some v => '=' :: (a.quote.getD '"' :: v ++ [a.quote.getD '"']))) ++ ['>']

def render : Render where
  opening := opening
  closing := fun n _ => if voids.contains (lowerStr n) then [] else '<' :: '/' :: n ++ ['>']
  body := fun _ c => c.getD []
  leaf := fun _ k _ _ c => if k == .comment then "<!--".toList ++ c.getD [] ++ "-->".toList else c.getD []

def voice : Voice where
  say := fun ct k c => if k == .text || k == .spaces then (if ct then c.getD [] else decode (c.getD [])) else []
  body := fun _ c => c.getD []
  whole := { render with leaf := fun ct k n m c => if k == .comment || ct then render.leaf ct k n m c else decode (c.getD []) }

def quotes : AttrExt := ⟨fun c => if c == '"' then some "&quot;".toList else if c == '\'' then some "&apos;".toList else none, fun c => isSp c || c == '>'⟩

/-- The parameters of the model, computed from the heap. The ids are looked up in the heap as it is. -/
def env (h : Heap) : Env where
  byId := fun r i => (List.range h.size).find? fun x => h.isElem x && (h.node x).root == some r &&
    (match getAttribute (h.node x).attrs "id".toList with | .ok (some (.value v _)) => v == i | _ => false)
  isDoc := isDocument h
  text := fun x => match textContents voice ext h x with | .ok s => s | .error _ => "panic".toList

/-- The result of a call; a panic gives something that no test expects. -/
def got {α : Type} (d : α) (r : R α) : α := match r with | .ok a => a | .error _ => d
def bad : List Nat := List.replicate 77 0

section
variable (h : Heap) (X : List Nat)
def find (s : String) : List Nat := (got (bad, 0) (findText h (env h) (fun _ => true) X s.toList)).1
def filter (s : String) : List Nat := (got (bad, 0) (filterText h (env h) (fun _ => true) X s.toList)).1
def not (s : String) : List Nat := (got (bad, 0) (notText h (env h) (fun _ => true) X s.toList)).1
def is (s : String) : Option Bool := ((isText h (env h) (fun _ => true) X s.toList).toOption).map (·.1)
def isAll (s : String) : Option Bool := ((isAllText h (env h) (fun _ => true) X s.toList).toOption).map (·.1)
def has (s : String) : List Nat := (got (bad, 0) (hasText h (env h) (fun _ => true) X s.toList)).1
def children (s : String) : List Nat := (got (bad, 0) (childrenText h (env h) (fun _ => true) X s.toList)).1
def prev (s : String) : List Nat := (got (bad, 0) (prevText h (env h) (fun _ => true) X s.toList)).1
def next (s : String) : List Nat := (got (bad, 0) (nextText h (env h) (fun _ => true) X s.toList)).1
def prevAll (s : String) : List Nat := (got (bad, 0) (prevAllText h (env h) (fun _ => true) X s.toList)).1
def nextAll (s : String) : List Nat := (got (bad, 0) (nextAllText h (env h) (fun _ => true) X s.toList)).1
def parent (s : String) : List Nat := (got (bad, 0) (parentText h (env h) (fun _ => true) X s.toList)).1
def parents (s : String) : List Nat := (got (bad, 0) (parentsText h (env h) (fun _ => true) X s.toList)).1
def siblings (s : String) : List Nat := (got (bad, 0) (siblingsText h (env h) (fun _ => true) X s.toList)).1
def closest (s : String) : List Nat := (got (bad, 0) (closestText h (env h) (fun _ => true) X s.toList)).1
def prevUntil (s f : String) (b : Bool) : List Nat := (got (bad, 0) (prevUntilText h (env h) (fun _ => true) X s.toList f.toList b)).1
def nextUntil (s f : String) (b : Bool) : List Nat := (got (bad, 0) (nextUntilText h (env h) (fun _ => true) X s.toList f.toList b)).1
def parentsUntil (s f : String) (b : Bool) : List Nat := (got (bad, 0) (parentsUntilText h (env h) (fun _ => true) X s.toList f.toList b)).1
def hasIn (S : List Nat) : List Nat := got bad (Visdom.hasIn h X S)
def text : String := String.ofList (got "panic".toList (textJoin voice ext h X))
def html : String := String.ofList (got "panic".toList (htmlS render ext h X))
def htmls : String := String.ofList (got "panic".toList (htmlsS render ext h X))
def outerHtml : String := String.ofList (got "panic".toList (outerHtmlS render ext h X))
def outerHtmls : String := String.ofList (got "panic".toList (outerHtmlsS render ext h X))
def val : String := match valOf h (env h).text X with | .ok v => String.ofList v.text | .error _ => "panic"
def attr (n : String) : Option AttrValue := got none (h.attr X n.toList)
def isStr (n v : String) : Bool := match attr h X n with | some a => a.isStr v.toList | none => false
def hasClass (n : String) : Option Bool := (h.hasClass X n.toList).toOption
def tag (x : Nat) : String := String.ofList ((h.node x).name.map Char.toUpper)
end

def load (s : String) : Heap := (loadInto ⟨0, fun _ => {}⟩ s.toList).1

end Visdom.Conform
