import Verif.Model.Mutate
/-!
# Model of the attribute methods of sets (`elements.rs:3191-3525`)

Only elements have a `meta` (rphtml, trusted): reading an attribute of another node of a set, that is of the root,
panics in `expect` (`lib.rs:617`, `640`), writing does nothing (`lib.rs:669`, `735`).
-/
namespace Visdom
namespace Heap

/-- `lib.rs:611-633 get_attribute` on a node of the heap. -/
def getAttr (h : Heap) (x : Nat) (name : List Char) : R (Option AttrValue) :=
  if h.isElem x then getAttribute (h.node x).attrs name else .error .unwrapNone

/-- A method that changes the `meta` of one node. `reads`: it begins with `get_attribute`. `lib.rs:666-750`, `elements.rs:3260-3540`. -/
def changeAttrs (h : Heap) (reads : Bool) (f : Meta → R Meta) (x : Nat) : R Heap :=
  if h.isElem x then
    match f (h.node x).attrs with
    | .error e => .error e
    | .ok m => .ok (h.upd x fun n => { n with attrs := m })
  else if reads then .error .unwrapNone
  else .ok h

/-- The loop over the elements of the set. `elements.rs:3260-3540`. -/
def changeAll (reads : Bool) (f : Meta → R Meta) (h : Heap) : List Nat → R Heap
  | [] => .ok h
  | x :: xs =>
    match h.changeAttrs reads f x with
    | .error e => .error e
    | .ok h => changeAll reads f h xs

/-- `elements.rs:3191-3196 attr`. -/
def attr (h : Heap) (X : List Nat) (name : List Char) : R (Option AttrValue) :=
  match X with
  | [] => .ok none
  | x :: _ => h.getAttr x name

/-- `elements.rs:3223-3230 has_attr`. -/
def hasAttr (h : Heap) (name : List Char) : List Nat → R Bool
  | [] => .ok false
  | x :: xs =>
    match h.getAttr x name with
    | .error e => .error e
    | .ok (some _) => .ok true
    | .ok none => hasAttr h name xs

/-- `elements.rs:3260-3265 set_attr`. -/
def setAttr (e : AttrExt) (h : Heap) (X : List Nat) (name : List Char) (value : Option (List Char)) : R Heap :=
  changeAll false (fun m => setAttribute e m name value) h X

/-- `elements.rs:3296-3301 remove_attr`. -/
def removeAttr (h : Heap) (X : List Nat) (name : List Char) : R Heap :=
  changeAll false (fun m => removeAttribute m name) h X

/-- `elements.rs:3381-3403 add_class`. -/
def addClass (e : AttrExt) (h : Heap) (X : List Nat) (s : List Char) : R Heap :=
  if (getClassList s).isEmpty then .ok h else changeAll true (fun m => addClassOne e m s) h X

/-- `elements.rs:3432-3457 remove_class`. -/
def removeClass (e : AttrExt) (h : Heap) (X : List Nat) (s : List Char) : R Heap :=
  if (trim s).isEmpty then .ok h else changeAll true (fun m => Visdom.removeClass e m s) h X

/-- `elements.rs:3486-3525 toggle_class`. -/
def toggleClass (e : AttrExt) (h : Heap) (X : List Nat) (s : List Char) : R Heap :=
  if (trim s).isEmpty then .ok h else changeAll true (fun m => Visdom.toggleClass e m s) h X

/-- `elements.rs:3328-3353 has_class`, the loop over the elements. -/
def hasClassLoop (h : Heap) (cl : List (List Char)) : List Nat → R Bool
  | [] => .ok false
  | x :: xs =>
    if h.isElem x then
      match hasClassOne (h.node x).attrs cl with
      | .error e => .error e
      | .ok true => .ok true
      | .ok false => hasClassLoop h cl xs
    else .error .unwrapNone

/-- `elements.rs:3328-3353 has_class`. -/
def hasClass (h : Heap) (X : List Nat) (s : List Char) : R Bool :=
  if (trim s).isEmpty then .ok false else h.hasClassLoop (getClassList (trim s)) X

end Heap

/-- The entries of the map (`HashMap::iter`); an entry hidden by an earlier one for the same name is none. `lib.rs:642-647`. -/
def mapEntries (m : List (List Char × Nat)) : List (List Char × Nat) := m.filter fun p => mapGet m p.1 == some p.2

/-- `lib.rs:651-659`: the value of one attribute. -/
def attrValueOf (a : Attr) : AttrValue :=
  match a.value with
  | some v => .value v a.quote
  | none => .tru

/-- `lib.rs:635-663 get_attributes`: the map from positions to names, in the order of the positions, with the values found
there. Simplified: the `BTreeMap` is a search for the name at each position; two names at one position do not occur
(`MetaWF`), so which of them survives is not modelled. A position outside `attrs` panics. -/
def getAttributes (m : Meta) : R (List (List Char × AttrValue)) :=
  if (mapEntries m.lcMap).all (fun p => decide (p.2 < m.attrs.length)) then
    .ok ((List.range m.attrs.length).filterMap fun i =>
      match (mapEntries m.lcMap).find? (fun p => p.2 == i), m.attrs[i]? with
      | some p, some a => some (p.1, attrValueOf a)
      | _, _ => none)
  else .error .outOfBounds

end Visdom
