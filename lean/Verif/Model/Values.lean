import Verif.Model.Attr
import Verif.Model.Value
/-!
# Model of the helpers of `IAttrValue` and `IFormValue` (`src/mesdoc/interface/element.rs`)
-/
namespace Visdom

/-- `str::split(is_ascii_whitespace)` (std). Called in `element.rs:32`. -/
def cutWs : List Char → List (List Char)
  | [] => [[]]
  | c :: s =>
    if isAsciiWs c then [] :: cutWs s
    else
      match cutWs s with
      | [] => [[c]]
      | p :: ps => (c :: p) :: ps

/-- `str::split_ascii_whitespace` (std). Called in `element.rs:32`. -/
def splitAsciiWs (s : List Char) : List (List Char) := (cutWs s).filter fun p => !p.isEmpty

namespace AttrValue

/-- `element.rs:18-20 is_true`. -/
def isTrue : AttrValue → Bool
  | tru => true
  | value _ _ => false

/-- `element.rs:22-27 is_str`. -/
def isStr : AttrValue → List Char → Bool
  | value v _, s => v == s
  | tru, s => s.isEmpty

/-- `element.rs:29-34 to_list`. -/
def toList : AttrValue → List (List Char)
  | value v _ => splitAsciiWs (trim v)
  | tru => []

/-- `element.rs:38-45 to_string`. -/
def text : AttrValue → List Char
  | value v _ => v
  | tru => []

end AttrValue

/-- `[String]::join(sep)` (std). Called in `element.rs:59`. -/
def joinWith (sep : List Char) : List (List Char) → List Char
  | [] => []
  | [v] => v
  | v :: vs => v ++ sep ++ joinWith sep vs

namespace FormValue

/-- `element.rs:54-61 to_string`. -/
def text : FormValue → List Char
  | single v => v
  | multiple vs => joinWith [','] vs

/-- `element.rs:64-73 into_iter`, collected. -/
def items : FormValue → List (List Char)
  | multiple vs => vs
  | single _ => []

end FormValue

end Visdom
