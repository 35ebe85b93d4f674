import Verif.Model.Methods
import Verif.Model.Sets
/-!
# Model of the accessors of a document (`mesdoc/interface/document.rs`)

`r` is the root node of the document. `get_root_node().root_element()` (`node.rs:59-65`) is that node again, because the
document is alive (`lib.rs:212-225`).
-/
namespace Visdom
open Spec

variable (h : Heap) (env : Env) (own : Nat → Bool)

/-- `root.find(name).get(0)`. `document.rs:13-19`, `32-46`. -/
def docFirst (r : Nat) (name : List Char) : R (Option Nat) := (findText h env own [r] name).map fun p => p.1.head?

/-- `document.rs:13-19 document_element`. -/
def documentElement (r : Nat) : R (Option Nat) := docFirst h env own r "html".toList
/-- `document.rs:32-38 head`. -/
def docHead (r : Nat) : R (Option Nat) := docFirst h env own r "head".toList
/-- `document.rs:40-46 body`. -/
def docBody (r : Nat) : R (Option Nat) := docFirst h env own r "body".toList

/-- `elements.rs:2897-2903 text`: the rendered texts one after the other. -/
def textOfAll (X : List Nat) : List Char := X.flatMap env.text

/-- `document.rs:21-30 title`. -/
def docTitle (r : Nat) : R (Option (List Char)) :=
  match findText h env own [r] "head".toList with
  | .error e => .error e
  | .ok heads =>
    match findText h env own (eqAt heads.1 0) "title".toList with
    | .error e => .error e
    | .ok titles => .ok (if titles.1.isEmpty then none else some (textOfAll env titles.1))

end Visdom
