import Verif.Model.Utils
/-!
# Attributes and classes

Model of the attribute methods of `src/lib.rs:611-750` and of the class methods of
`src/mesdoc/interface/elements.rs:3328-3525`.
-/
namespace Visdom

/-- rphtml's `Attr` as used in `src/lib.rs:722-729`. -/
structure Attr where
  key : Option (List Char) := none
  value : Option (List Char) := none
  quote : Option Char := none
  needQuote : Bool := false
  deriving DecidableEq, Repr

/-- rphtml's tag `meta`: the attribute list and the map from lower-case names to positions
(`lc_name_map: HashMap<String, usize>`, here an association list whose first entry for a key counts). Used in `lib.rs:611-750`. -/
structure Meta where
  attrs : List Attr := []
  lcMap : List (List Char × Nat) := []
  deriving DecidableEq, Repr

/-- `HashMap::get`. on `lc_name_map`: `lib.rs:621`, `706`, `739`. -/
def mapGet (m : List (List Char × Nat)) (k : List Char) : Option Nat :=
  (m.find? (fun p => p.1 == k)).map (·.2)
/-- `HashMap::remove`. on `lc_name_map`: `lib.rs:747`. -/
def mapRemove (m : List (List Char × Nat)) (k : List Char) : List (List Char × Nat) :=
  m.filter (fun p => !(p.1 == k))
/-- `HashMap::insert`. on `lc_name_map`: `lib.rs:719`. -/
def mapInsert (m : List (List Char × Nat)) (k : List Char) (v : Nat) : List (List Char × Nat) :=
  (k, v) :: mapRemove m k

/-- `str::to_ascii_lowercase`. `lib.rs:621`, `705`, `738`. -/
def lowerStr (s : List Char) : List Char := s.map asciiLower

/-- `element.rs:12-15 IAttrValue`. -/
inductive AttrValue where
  | value (s : List Char) (quote : Option Char)
  | tru
  deriving DecidableEq, Repr

/-- External functions used by `set_attribute`: `htmlentity::encode_char(.., Named)` and
`rphtml::Attr::need_quoted_char`. They are parameters of the model. Called in `lib.rs:676`, `682`. -/
structure AttrExt where
  enc : Char → Option (List Char)
  needQuoted : Char → Bool

/-- `lib.rs:611-633 get_attribute`: look up the lower-cased name. An index outside `attrs` would panic. -/
def getAttribute (m : Meta) (name : List Char) : R (Option AttrValue) :=
  match mapGet m.lcMap (lowerStr name) with
  | none => .ok none
  | some index =>
    match m.attrs[index]? with
    | none => .error .outOfBounds
    | some a =>
      match a.value with
      | some v => .ok (some (.value v a.quote))
      | none => .ok (some .tru)

/-- `element.rs:302-304 has_attribute`. -/
def hasAttribute (m : Meta) (name : List Char) : R Bool :=
  (getAttribute m name).map Option.isSome

/-- Loop state of the value scan in `lib.rs:670-703`. -/
structure QuoteLoop where
  needQuote : Bool := false
  quote : Char := '"'
  findQuote : Bool := false
  content : List Char := []

/-- One iteration of the value scan, `lib.rs:674-701`. -/
def quoteStep (x : AttrExt) (s : QuoteLoop) (ch : Char) : QuoteLoop :=
  let s := if s.needQuote then s else { s with needQuote := x.needQuoted ch }
  if ch == '"' || ch == '\'' then
    if s.findQuote then
      if s.quote == ch then
        match x.enc ch with
        | some entity => { s with content := s.content ++ entity }
        | none => { s with content := s.content ++ [ch] }
      else { s with content := s.content ++ [ch] }
    else
      { s with findQuote := true, quote := if ch == '"' then '\'' else s.quote, content := s.content ++ [ch] }
  else { s with content := s.content ++ [ch] }

/-- The whole value scan. `lib.rs:670-703`. -/
def quoteScan (x : AttrExt) (v : List Char) : QuoteLoop := v.foldl (quoteStep x) {}

/-- `lib.rs:666-731 set_attribute`. An existing attribute keeps its key, quote and `need_quote`; a new
one is appended. -/
def setAttribute (x : AttrExt) (m : Meta) (name : List Char) (value : Option (List Char)) : R Meta :=
  let scan := value.map (quoteScan x)
  let content := scan.map (·.content)
  match mapGet m.lcMap (lowerStr name) with
  | some index =>
    match m.attrs[index]? with
    | none => .error .outOfBounds
    | some a => .ok { m with attrs := m.attrs.set index { a with value := content } }
  | none =>
    .ok { lcMap := mapInsert m.lcMap (lowerStr name) m.attrs.length
          attrs := m.attrs ++ [{ key := some name, value := content, quote := scan.map (·.quote),
                                 needQuote := (scan.map (·.needQuote)).getD false }] }

/-- `lib.rs:734-750 remove_attribute`. Note line 747: the map entry is removed under `name`, not under
the lower-cased name that found it. -/
def removeAttribute (m : Meta) (name : List Char) : R Meta :=
  match mapGet m.lcMap (lowerStr name) with
  | none => .ok m
  | some index =>
    if index < m.attrs.length then
      .ok { attrs := m.attrs.set index {}, lcMap := mapRemove m.lcMap name }
    else .error .outOfBounds

/-- `char::is_whitespace` (Unicode `White_Space`), used by `str::trim`. `elements.rs:1522`, `3329`, `3433`, `3487`. -/
def isUnicodeWs (c : Char) : Bool :=
  let n := c.toNat
  (9 ≤ n && n ≤ 13) || n == 0x20 || n == 0x85 || n == 0xA0 || n == 0x1680 || (0x2000 ≤ n && n ≤ 0x200A)
    || n == 0x2028 || n == 0x2029 || n == 0x202F || n == 0x205F || n == 0x3000

/-- `str::trim`. `elements.rs:1522`, `3329`, `3433`, `3487`. -/
def trim (s : List Char) : List Char :=
  ((s.dropWhile isUnicodeWs).reverse.dropWhile isUnicodeWs).reverse

/-- `constants.rs:2 ATTR_CLASS`. -/
def classKey : List Char := ['c', 'l', 'a', 's', 's']

/-- The value read as `Some(IAttrValue::Value(cls, _))` in the class methods. `elements.rs:3334`, `3386`, `3438`, `3493`. -/
def classValue (m : Meta) : R (Option (List Char)) :=
  (getAttribute m classKey).map fun
    | some (.value cls _) => some cls
    | _ => none

/-- `elements.rs:3328-3353 has_class`, for one element of the set (the set method is "any of"). -/
def hasClassOne (m : Meta) (classList : List (List Char)) : R Bool :=
  (classValue m).map fun
    | some cls => classList.all fun c => (getClassList cls).contains c
    | none => false

/-- `elements.rs:3328-3353 has_class`. -/
def hasClass : List Meta → List Char → R Bool
  | ms, name =>
    let name := trim name
    if name.isEmpty then .ok false
    else go ms (getClassList name)
where
  /-- the loop over the elements -/
  go : List Meta → List (List Char) → R Bool
    | [], _ => .ok false
    | m :: rest, cl =>
      match hasClassOne m cl with
      | .error e => .error e
      | .ok true => .ok true
      | .ok false => go rest cl

/-- The inner loop of `add_class`, `elements.rs:3388-3392`. -/
def pushMissing (orig : List (List Char)) (names : List (List Char)) : List (List Char) :=
  names.foldl (fun acc c => if acc.contains c then acc else acc ++ [c]) orig

/-- `elements.rs:3381-3403 add_class`, the body for one element (the class list is not empty). -/
def addClassOne (x : AttrExt) (m : Meta) (className : List Char) : R Meta := do
  match ← classValue m with
  | some cls =>
    setAttribute x m classKey (some (classListToString (pushMissing (getClassList cls) (getClassList className))))
  | none => setAttribute x m classKey (some className)

/-- `elements.rs:3381-3403 add_class`, one element. -/
def addClass (x : AttrExt) (m : Meta) (className : List Char) : R Meta :=
  if (getClassList className).isEmpty then .ok m else addClassOne x m className

/-- `removed_indexs` of `remove_class`, `elements.rs:3441-3445`: for every given name, in the order
given, the position of its first occurrence. -/
def removedIndexs (orig names : List (List Char)) : List Nat :=
  names.filterMap fun c => orig.findIdx? (· == c)

/-- `elements.rs:3432-3457 remove_class`, one element. -/
def removeClass (x : AttrExt) (m : Meta) (className : List Char) : R Meta :=
  let className := trim className
  if className.isEmpty then .ok m
  else do
    match ← classValue m with
    | none => pure m
    | some cls =>
      let orig := getClassList cls
      let removed := removedIndexs orig (getClassList className)
      if removed.isEmpty then pure m
      else do
        let left ← retainByIndex orig removed
        setAttribute x m classKey (some (classListToString left))

/-- The removal step of `toggle_class`, `elements.rs:3486-3525`: only if some name was found. -/
def dropFound (orig : List (List Char)) (removed : List Nat) : R (List (List Char)) :=
  if removed.isEmpty then .ok orig else retainByIndex orig removed

/-- `elements.rs:3486-3525 toggle_class`, one element. -/
def toggleClass (x : AttrExt) (m : Meta) (className : List Char) : R Meta :=
  let className := trim className
  if className.isEmpty then .ok m
  else do
    match ← classValue m with
    | none => setAttribute x m classKey (some className)
    | some cls =>
      let orig := getClassList cls
      let names := getClassList className
      let removed := removedIndexs orig names
      let added := names.filter fun c => (orig.findIdx? (· == c)).isNone
      let left ← dropFound orig removed
      if removed.isEmpty && added.isEmpty then pure m
      else setAttribute x m classKey (some (classListToString (left ++ added)))

end Visdom
