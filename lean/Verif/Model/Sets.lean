import Verif.Model.Order
/-!
# Set operations on element lists

Model of `src/mesdoc/interface/elements.rs:2634-2809` (`add`, `includes`, `index_of`), `1006-1063`
(`filter_in_handle`) and of the callback and position methods. The closures given by a caller are functions of
index and element; side effects of a callback are modelled only for `for_each` (a state passed along).
-/
namespace Visdom

/-- Two elements compared by their index paths (`compare_indexs` of `get_tree_indexs`). `elements.rs:31-62`. -/
def cmpE (h : Heap) (a b : Nat) : Ordering := compareIndexs (h.treeIndexs a) (h.treeIndexs b)

/-- The binary search `elements.rs:2692-2715`; the result is `(mid, find_equal)`. The counter bounds the number of
rounds; running out of it would be the loop not ending. -/
def bsearch (h : Heap) (F : List Nat) (x : Nat) : Nat → Nat → Nat → R (Nat × Bool)
  | 0, _, _ => .error .diverge
  | n + 1, l, r =>
    let mid := (l + r) / 2
    if mid = l then .ok (mid, false)
    else
      match F[mid]? with
      | none => .error .outOfBounds
      | some y =>
        match cmpE h x y with
        | .gt => bsearch h F x n mid r
        | .lt => bsearch h F x n l mid
        | .eq => .ok (mid, true)

/-- The loop `elements.rs:2664-2761`. The third argument is what remains of the second list, `fl` is
`fir_left_index`, `sn` is `second_count`; the produced pairs hold the element itself instead of its position in
the second list. -/
def addMids (h : Heap) (F : List Nat) (sn : Nat) : List Nat → Nat → R (List (Nat × Nat))
  | [], _ => .ok []
  | x :: xs, fl =>
    match F[fl]? with
    | none => .ok []
    | some f =>
      match cmpE h x f with
      | .eq => addMids h F sn xs (fl + 1)
      | .gt =>
        match F.getLast? with
        | none => .error .outOfBounds
        | some e =>
          match cmpE h x e with
          | .gt => .ok ((x :: xs).map (·, F.length))
          | .lt =>
            match bsearch h F x F.length fl (F.length - 1) with
            | .error p => .error p
            | .ok (mid, true) => addMids h F sn xs mid
            | .ok (mid, false) => (addMids h F sn xs mid).map ((x, mid + 1) :: ·)
          | .eq => .ok (xs.map (·, sn))
      | .lt =>
        match cmpE h ((x :: xs).getLast (by simp)) f with
        | .lt => .ok ((x :: xs).map (·, fl))
        | .gt => (addMids h F sn xs fl).map ((x, fl) :: ·)
        | .eq => .ok ((x :: xs).dropLast.map (·, fl))

/-- The final loop `elements.rs:2766-2788`, from position `i` of the first list on. -/
def assemble : List Nat → Nat → List (Nat × Nat) → List Nat
  | [], _, mids => mids.map (·.1)
  | f :: fs, i, mids =>
    (mids.takeWhile (·.2 == i)).map (·.1) ++ f :: assemble fs (i + 1) (mids.dropWhile (·.2 == i))

/-- `elements.rs:2634-2790 add`. -/
def addElems (h : Heap) (F S : List Nat) : R (List Nat) :=
  if F.isEmpty then .ok S
  else if S.isEmpty then .ok F
  else (addMids h F S.length S 0).map (assemble F 0)

/-- `elements.rs:2798-2809 index_of`. -/
def indexOf (l : List Nat) (x start : Nat) : Option Nat :=
  ((l.drop start).idxOf? x).map (start + ·)

/-- `elements.rs:1012-1025`, the `Filter` branch, from a start index on. -/
def filterInFrom (S : List Nat) : List Nat → Nat → List Nat
  | [], _ => []
  | x :: xs, start =>
    match indexOf S x start with
    | some i => x :: (if S.length ≤ i + 1 then [] else filterInFrom S xs (i + 1))
    | none => filterInFrom S xs start

/-- `elements.rs:1026-1036`, the `Not` branch. -/
def notInFrom (S : List Nat) : List Nat → Nat → List Nat
  | [], _ => []
  | x :: xs, start =>
    match indexOf S x start with
    | some i => notInFrom S xs (i + 1)
    | none => x :: notInFrom S xs start

/-- `elements.rs:1045-1060`, the loop of the `IsAll` branch. -/
def allInFrom (S : List Nat) : List Nat → Nat → Bool
  | [], _ => true
  | x :: xs, start =>
    match indexOf S x start with
    | some i => allInFrom S xs (i + 1)
    | none => false

/-- `elements.rs:1220 filter_in`. -/
def filterIn (X S : List Nat) : List Nat := filterInFrom S X 0
/-- `elements.rs:2314 not_in`. -/
def notIn (X S : List Nat) : List Nat := notInFrom S X 0
/-- `elements.rs:2075 is_in` (`1037-1044`). -/
def isIn (X S : List Nat) : Bool := X.any fun x => S.any fun n => x == n
/-- `elements.rs:2200 is_all_in` (`1045-1060`). -/
def isAllIn (X S : List Nat) : Bool := if X.length ≤ S.length then allInFrom S X 0 else false

/-- `elements.rs:2453 eq`. -/
def eqAt (X : List Nat) (i : Nat) : List Nat :=
  match X[i]? with
  | some x => [x]
  | none => []
/-- `elements.rs:2490 first`. -/
def firstE (X : List Nat) : List Nat := eqAt X 0
/-- `elements.rs:2523 last`; `length - 1` underflows on the empty set. -/
def lastE (X : List Nat) : R (List Nat) := if X.length = 0 then .error .overflow else .ok (eqAt X (X.length - 1))

/-- `std::ops::Bound`. `elements.rs:2558-2592`. -/
inductive Bnd where
  | unbounded | included (n : Nat) | excluded (n : Nat)
  deriving DecidableEq, Repr

/-- `usize::MAX` on a 64-bit target. The `+ 1` of `elements.rs:2587` overflows there. -/
def usizeMax : Nat := 2 ^ 64 - 1

/-- `elements.rs:2561-2576`: the start, or `none` for an early empty result. An excluded start is ignored. -/
def sliceStart (len : Nat) : Bnd → Option Nat
  | .unbounded => some 0
  | .included s => if s < len then some s else none
  | .excluded _ => some 0

/-- `elements.rs:2577-2592`; `cur_end + 1` overflows on `usize::MAX`. -/
def sliceEnd (len : Nat) : Bnd → R Nat
  | .unbounded => .ok len
  | .excluded e => .ok (if e < len then e else len)
  | .included e => if usizeMax ≤ e then .error .overflow else .ok (if e + 1 < len then e + 1 else len)

/-- `elements.rs:2558-2599 slice`; `end - start` underflows when the end lies before the start. -/
def sliceE (X : List Nat) (lo hi : Bnd) : R (List Nat) :=
  match sliceStart X.length lo with
  | none => .ok []
  | some s =>
    match sliceEnd X.length hi with
    | .error p => .error p
    | .ok e => if e < s then .error .overflow else .ok ((X.take e).drop s)

/-- `elements.rs:1172 filter_by`. -/
def filterBy (p : Nat → Nat → Bool) : List Nat → Nat → List Nat
  | [], _ => []
  | x :: xs, i => if p i x then x :: filterBy p xs (i + 1) else filterBy p xs (i + 1)
/-- `elements.rs:2271 not_by`. -/
def notBy (p : Nat → Nat → Bool) : List Nat → Nat → List Nat
  | [], _ => []
  | x :: xs, i => if !p i x then x :: notBy p xs (i + 1) else notBy p xs (i + 1)
/-- `elements.rs:2030 is_by`. -/
def isBy (p : Nat → Nat → Bool) : List Nat → Nat → Bool
  | [], _ => false
  | x :: xs, i => if p i x then true else isBy p xs (i + 1)
/-- `elements.rs:2153 is_all_by`. -/
def isAllBy (p : Nat → Nat → Bool) : List Nat → Nat → Bool
  | [], _ => true
  | x :: xs, i => if !p i x then false else isAllBy p xs (i + 1)
/-- `elements.rs:266 map`. -/
def mapE {β : Type} (f : Nat → Nat → β) : List Nat → Nat → List β
  | [], _ => []
  | x :: xs, i => f i x :: mapE f xs (i + 1)
/-- `elements.rs:222 for_each`: the callback may change a state and says whether to go on. -/
def forEach {σ : Type} (f : σ → Nat → Nat → σ × Bool) : List Nat → Nat → σ → σ
  | [], _, s => s
  | x :: xs, i, s => if (f s i x).2 then forEach f xs (i + 1) (f s i x).1 else (f s i x).1

/-- `elements.rs:266-276 map` with a callback that keeps a state (`FnMut`): the values and the state afterwards. -/
def mapS {σ β : Type} (f : σ → Nat → Nat → σ × β) : List Nat → Nat → σ → List β × σ
  | [], _, s => ([], s)
  | x :: xs, i, s => ((f s i x).2 :: (mapS f xs (i + 1) (f s i x).1).1, (mapS f xs (i + 1) (f s i x).1).2)
/-- `elements.rs:222-240 for_each`, `each`, and `texts.rs:29-47` in the same words for texts: the callback gets its element by `&mut` and may put another one
in its place. The result is the set afterwards and the state; the callback answers the state, the element and whether to go on. -/
def forEachMut {σ : Type} (f : σ → Nat → Nat → σ × Nat × Bool) : List Nat → Nat → σ → List Nat × σ
  | [], _, s => ([], s)
  | x :: xs, i, s =>
    if (f s i x).2.2 then ((f s i x).2.1 :: (forEachMut f xs (i + 1) (f s i x).1).1, (forEachMut f xs (i + 1) (f s i x).1).2)
    else ((f s i x).2.1 :: xs, (f s i x).1)

end Visdom
