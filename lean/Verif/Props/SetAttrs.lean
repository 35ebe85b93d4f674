import Verif.Proofs.SetAttrs
import Verif.Props.Classes
import Verif.Props.Filter
import Verif.Props.Find
/-!
# C55 (attribute and class methods of sets), C56 (selectors see the new attributes)
-/
namespace Visdom
open Spec

section
variable {h : Heap} {X : List Nat}

/-- The members of the set are elements with consistent attribute tables. -/
def Tagged (h : Heap) (X : List Nat) : Prop := ∀ x ∈ X, h.isElem x = true ∧ MetaWF (h.node x).attrs

theorem view_set_trans {n : List Char} {v : Option (List Char)} (a b c : Meta)
    (hab : ∀ k, viewOf b k = if SameIgnoringCase k n then some v else viewOf a k)
    (hbc : ∀ k, viewOf c k = if SameIgnoringCase k n then some v else viewOf b k) :
    ∀ k, viewOf c k = if SameIgnoringCase k n then some v else viewOf a k := by
  intro k
  rw [hbc k, hab k]
  split <;> rfl

theorem classList_exists (m : Meta) : ∃ l, ClassList (viewOf m) l := by
  unfold ClassList
  split
  · exact tokens_exists _
  · exact ⟨[], rfl⟩

theorem classList_unique {m : Meta} {l l' : List (List Char)} (h1 : ClassList (viewOf m) l) (h2 : ClassList (viewOf m) l') : l = l' := by
  unfold ClassList at h1 h2
  split at h1
  · rename_i v hv
    rw [hv] at h2
    rw [← tokens_unique h1, ← tokens_unique h2]
  · rename_i hv
    split at h2
    · rename_i v hv'
      exact absurd hv' (hv v)
    · rw [h1, h2]

theorem attr_of_view {h : Heap} {y : Nat} (Y : List Nat) {n v : List Char} (he : h.isElem y = true) (wf : MetaWF (h.node y).attrs)
    (hv : viewOf (h.node y).attrs n = some (some v)) : ∃ q, h.attr (y :: Y) n = .ok (some (.value v q)) := by
  simp only [Heap.attr, Heap.getAttr, if_pos he]
  obtain ⟨w, hw⟩ := getAttribute_ok wf n
  rw [viewOf, hw] at hv
  rw [hw]
  cases w with
  | none => cases hv
  | some w =>
    cases w with
    | tru => cases hv
    | value s q =>
      obtain rfl : s = v := by simpa [seen] using hv
      exact ⟨q, rfl⟩

/-- C55, the part that holds for values with at most one kind of quote (see C07): `set_attr` writes the value to every element of the
set, and `attr` reads it from each of them; nothing else changes, and there is no panic. Missing: values with both kinds of quote. -/
theorem C55_set_attr_partial (e : AttrExt) (hX : Tagged h X) (n : List Char) (v : Option (List Char))
    (hv : ∀ s, v = some s → OneQuoteKind s) :
    ∃ h', Heap.setAttr e h X n v = .ok h' ∧ OnlyAttrs h h' ∧ (∀ x, x ∉ X → h'.node x = h.node x) ∧
      (∀ x ∈ X, MetaWF (h'.node x).attrs ∧
        ∀ k, viewOf (h'.node x).attrs k = if SameIgnoringCase k n then some v else viewOf (h.node x).attrs k) ∧
      ∀ y ∈ X, ∀ Y s, v = some s → ∃ q, h'.attr (y :: Y) n = .ok (some (.value s q)) := by
  have hv' : (v.map fun s => (quoteScan e s).content) = v := by
    cases v with
    | none => rfl
    | some s => rw [Option.map_some, scan_content_of_one_quote e s (hv s rfl)]
  obtain ⟨h', h1, h2, h3, h4⟩ := changeAll_spec (reads := false) (f := fun m => setAttribute e m n v) (Q := fun _ => True)
    (P := fun a b => ∀ k, viewOf b k = if SameIgnoringCase k n then some v else viewOf a k) (fun m wf _ => by
      have := setAttribute_spec e wf n v
      rwa [hv'] at this) X h (fun x hx => ⟨(hX x hx).1, (hX x hx).2, trivial⟩) (.inr ⟨fun _ _ _ _ => trivial, view_set_trans⟩)
  refine ⟨h', h1, h2, h3, h4, fun y hy Y s hs => ?_⟩
  subst hs
  refine attr_of_view Y (by rw [h2.isElem]; exact (hX y hy).1) (h4 y hy).1 ?_
  have hk : SameIgnoringCase n n := rfl
  rw [(h4 y hy).2, if_pos hk]

/-- C55: `remove_attr` with a name without capital letters removes the attribute from every element of the set and changes nothing
else. -/
theorem C55_remove_attr_partial (hX : Tagged h X) (n : List Char) (hn : NoCapital n) :
    ∃ h', Heap.removeAttr h X n = .ok h' ∧ OnlyAttrs h h' ∧ (∀ x, x ∉ X → h'.node x = h.node x) ∧
      (∀ x ∈ X, MetaWF (h'.node x).attrs ∧
        ∀ k, viewOf (h'.node x).attrs k = if SameIgnoringCase k n then none else viewOf (h.node x).attrs k) := by
  refine changeAll_spec (reads := false) (f := fun m => removeAttribute m n) (Q := fun _ => True)
    (P := fun a b => ∀ k, viewOf b k = if SameIgnoringCase k n then none else viewOf a k) (fun m wf _ => ?_) X h
    (fun x hx => ⟨(hX x hx).1, (hX x hx).2, trivial⟩) (.inr ⟨fun _ _ _ _ => trivial, fun a b c hab hbc k => ?_⟩)
  · obtain ⟨m', h1, h2, h3, h4⟩ := C08_remove_exact m wf n
    refine ⟨m', h1, h2, fun k => ?_⟩
    split
    · rename_i hk; exact (h3 k hk).2 (.inl hn)
    · rename_i hk; exact h4 k hk
  · rw [hbc k, hab k]
    split <;> rfl

/-- C55: `has_attr` is true exactly when some element of the set has the attribute. -/
theorem C55_has_attr (hX : Tagged h X) (n : List Char) :
    ∃ b, h.hasAttr n X = .ok b ∧ (b = true ↔ ∃ x ∈ X, viewOf (h.node x).attrs n ≠ none) := by
  induction X with
  | nil => exact ⟨false, rfl, by simp⟩
  | cons x X ih =>
    obtain ⟨b, hb, hiff⟩ := ih (fun y hy => hX y (by simp [hy]))
    obtain ⟨he, wf⟩ := hX x (by simp)
    obtain ⟨w, hw⟩ := getAttribute_ok wf n
    have hv : viewOf (h.node x).attrs n = seen w := by rw [viewOf, hw]
    cases w with
    | none =>
      refine ⟨b, by simp only [Heap.hasAttr, Heap.getAttr, if_pos he, hw]; exact hb, ?_⟩
      simp only [List.mem_cons, exists_eq_or_imp, hv, seen, ne_eq, not_true_eq_false, false_or]
      exact hiff
    | some w =>
      refine ⟨true, by simp only [Heap.hasAttr, Heap.getAttr, if_pos he, hw], ?_⟩
      simp only [List.mem_cons, exists_eq_or_imp, hv, true_iff]
      exact .inl (by cases w <;> simp [seen])

/-- C55: `add_class`: every element of the set gets all the names after its old classes, in the order given. Conditions as in C04. -/
theorem C55_add_class_partial (e : AttrExt) (hX : Tagged h X) (s : List Char) (names : List (List Char))
    (hnames : Tokens s names) (hq : ∀ x ∈ X, Clean (viewOf (h.node x).attrs) s) :
    ∃ h', Heap.addClass e h X s = .ok h' ∧ OnlyAttrs h h' ∧ (∀ x, x ∉ X → h'.node x = h.node x) ∧
      ∀ x ∈ X, MetaWF (h'.node x).attrs ∧ OthersSame (h.node x).attrs (h'.node x).attrs ∧
        ∀ old, ClassList (viewOf (h.node x).attrs) old → ∃ new, ClassList (viewOf (h'.node x).attrs) new ∧ (∃ added, new = old ++ added ∧ added.Sublist names ∧ ∀ t ∈ added, t ∉ old) ∧
          ∀ t, t ∈ new ↔ t ∈ old ∨ t ∈ names := by
  unfold Heap.addClass
  have hn := tokens_unique hnames
  split
  · rename_i hem
    rw [hn, List.isEmpty_iff] at hem
    refine ⟨h, rfl, .refl h, fun _ _ => rfl, fun x hx => ⟨(hX x hx).2, fun _ _ => rfl, fun old ho => ⟨old, ho, ⟨[], by simp⟩, ?_⟩⟩⟩
    simp [hem]
  · rename_i hem
    obtain ⟨h', h1, h2, h3, h4⟩ := changeAll_spec (reads := true) (f := fun m => addClassOne e m s) (Q := fun m => Clean (viewOf m) s)
      (P := fun a b => Clean (viewOf b) s ∧ OthersSame a b ∧ ∀ old, ClassList (viewOf a) old → ∃ new, ClassList (viewOf b) new ∧
          (∃ added, new = old ++ added ∧ added.Sublist names ∧ ∀ t ∈ added, t ∉ old) ∧ ∀ t, t ∈ new ↔ t ∈ old ∨ t ∈ names) (fun m wf q => by
        obtain ⟨old, hold⟩ := classList_exists m
        obtain ⟨m', new, a1, a2, a3, a4, a5, a6, -, a7, -⟩ := C04_add_class_partial e m wf s old names hold hnames q
        unfold addClass at a1
        rw [if_neg hem] at a1
        refine ⟨m', a1, a2, a7, a4, fun old' ho => ?_⟩
        obtain rfl : old = old' := classList_unique hold ho
        exact ⟨new, a3, a5, a6⟩) X h (fun x hx => ⟨(hX x hx).1, (hX x hx).2, hq x hx⟩)
      (.inr ⟨fun a b _ p => p.1, fun a b c hab hbc => ⟨hbc.1, fun k hk => (hbc.2.1 k hk).trans (hab.2.1 k hk), fun old ho => by
        obtain ⟨new, n1, ⟨ad, rfl, n2, n3⟩, n4⟩ := hab.2.2 old ho
        obtain ⟨new', n1', ⟨ad', rfl, n2', n3'⟩, n4'⟩ := hbc.2.2 _ n1
        obtain rfl : ad' = [] := by
          rw [List.eq_nil_iff_forall_not_mem]
          exact fun t ht => n3' t ht ((n4 t).2 (.inr (n2'.subset ht)))
        exact ⟨_, n1', ⟨ad, by simp, n2, n3⟩, fun t => by rw [n4', n4]; tauto⟩⟩⟩)
    exact ⟨h', h1, h2, h3, fun x hx => ⟨(h4 x hx).1, (h4 x hx).2.2⟩⟩

theorem inOrder_gone (names old : List (List Char)) : InOrder names (old.filter fun t => decide (t ∉ names)) := by
  unfold InOrder
  have : names.filter (fun t => decide (t ∈ old.filter fun t => decide (t ∉ names))) = [] := by
    rw [List.filter_eq_nil_iff]
    intro t ht
    simp [ht]
  rw [this]
  exact List.nil_sublist _

/-- C55: `remove_class`: every element of the set loses exactly the classes named. Conditions as in C05. -/
theorem C55_remove_class_partial (e : AttrExt) (hX : Tagged h X) (s : List Char) (names : List (List Char))
    (hnames : Tokens s names) (hex : ∀ c ∈ s, ¬ ExoticSpace c) (hq : ∀ x ∈ X, Clean (viewOf (h.node x).attrs) s ∧
      ∃ old, ClassList (viewOf (h.node x).attrs) old ∧ old.Nodup ∧ InOrder names old) :
    ∃ h', Heap.removeClass e h X s = .ok h' ∧ OnlyAttrs h h' ∧ (∀ x, x ∉ X → h'.node x = h.node x) ∧
      ∀ x ∈ X, MetaWF (h'.node x).attrs ∧ OthersSame (h.node x).attrs (h'.node x).attrs ∧
        ∀ old, ClassList (viewOf (h.node x).attrs) old → ClassList (viewOf (h'.node x).attrs) (old.filter fun t => decide (t ∉ names)) := by
  have hn := tokens_unique hnames
  unfold Heap.removeClass
  split
  · rename_i hem
    have : names = [] := by
      rw [← hn, ← trim_ok hex, List.isEmpty_iff.1 hem]; rfl
    refine ⟨h, rfl, .refl h, fun _ _ => rfl, fun x hx => ⟨(hX x hx).2, fun _ _ => rfl, fun old ho => ?_⟩⟩
    simpa [this] using ho
  · obtain ⟨h', h1, h2, h3, h4⟩ := changeAll_spec (reads := true) (f := fun m => removeClass e m s)
      (Q := fun m => Clean (viewOf m) s ∧ ∃ old, ClassList (viewOf m) old ∧ old.Nodup ∧ InOrder names old)
      (P := fun a b => (Clean (viewOf b) s ∧ ∃ old, ClassList (viewOf b) old ∧ old.Nodup ∧ InOrder names old) ∧ OthersSame a b ∧
        ∀ old, ClassList (viewOf a) old → ClassList (viewOf b) (old.filter fun t => decide (t ∉ names)))
      (fun m wf q => by
        obtain ⟨hcl, old, hold, hnd, hio⟩ := q
        obtain ⟨m', a1, a2, a3, a4, a5⟩ := C05_remove_class_partial e m wf s old names hold hnames hcl hex hnd hio
        refine ⟨m', a1, a2, ⟨a5, _, a4, hnd.filter _, inOrder_gone names old⟩, a3, fun old' ho => ?_⟩
        obtain rfl : old = old' := classList_unique hold ho
        exact a4) X h (fun x hx => ⟨(hX x hx).1, (hX x hx).2, hq x hx⟩)
      (.inr ⟨fun a b _ p => p.1, fun a b c hab hbc => ⟨hbc.1, fun k hk => (hbc.2.1 k hk).trans (hab.2.1 k hk), fun old ho => by
        have := hbc.2.2 _ (hab.2.2 old ho)
        rw [List.filter_filter] at this
        simpa using this⟩⟩)
    exact ⟨h', h1, h2, h3, fun x hx => ⟨(h4 x hx).1, (h4 x hx).2.2⟩⟩

/-- C55: `toggle_class` on a set without repetitions. Conditions as in C06. -/
theorem C55_toggle_class_partial (e : AttrExt) (hX : Tagged h X) (hnd : X.Nodup) (s : List Char) (names : List (List Char))
    (hnames : Tokens s names) (hndn : names.Nodup) (hex : ∀ c ∈ s, ¬ ExoticSpace c) (hq : ∀ x ∈ X, Clean (viewOf (h.node x).attrs) s ∧
      ∃ old, ClassList (viewOf (h.node x).attrs) old ∧ old.Nodup ∧ InOrder names old) :
    ∃ h', Heap.toggleClass e h X s = .ok h' ∧ OnlyAttrs h h' ∧ (∀ x, x ∉ X → h'.node x = h.node x) ∧
      ∀ x ∈ X, MetaWF (h'.node x).attrs ∧ OthersSame (h.node x).attrs (h'.node x).attrs ∧
        ∀ old, ClassList (viewOf (h.node x).attrs) old → ∃ new, ClassList (viewOf (h'.node x).attrs) new ∧ new.Nodup ∧
          ∀ t, t ∈ new ↔ (t ∈ old ∧ t ∉ names) ∨ (t ∈ names ∧ t ∉ old) := by
  have hn := tokens_unique hnames
  unfold Heap.toggleClass
  split
  · rename_i hem
    have : names = [] := by
      rw [← hn, ← trim_ok hex, List.isEmpty_iff.1 hem]; rfl
    refine ⟨h, rfl, .refl h, fun _ _ => rfl, fun x hx => ⟨(hX x hx).2, fun _ _ => rfl, fun old ho => ⟨old, ho, ?_, ?_⟩⟩⟩
    · obtain ⟨-, old', ho', hnd', -⟩ := hq x hx
      rwa [classList_unique ho ho']
    · simp [this]
  · exact changeAll_spec (reads := true) (f := fun m => toggleClass e m s)
      (Q := fun m => Clean (viewOf m) s ∧ ∃ old, ClassList (viewOf m) old ∧ old.Nodup ∧ InOrder names old)
      (P := fun a b => OthersSame a b ∧ ∀ old, ClassList (viewOf a) old → ∃ new, ClassList (viewOf b) new ∧ new.Nodup ∧
          ∀ t, t ∈ new ↔ (t ∈ old ∧ t ∉ names) ∨ (t ∈ names ∧ t ∉ old))
      (fun m wf q => by
        obtain ⟨hcl, old, hold, hnd, hio⟩ := q
        obtain ⟨m', new, a1, a2, a3, a4, a5, a6, -⟩ := C06_toggle_class_partial e m wf s old names hold hnames hcl hex hnd hndn hio
        refine ⟨m', a1, a2, a3, fun old' ho => ?_⟩
        obtain rfl : old = old' := classList_unique hold ho
        exact ⟨new, a4, a5, a6⟩) X h (fun x hx => ⟨(hX x hx).1, (hX x hx).2, hq x hx⟩) (.inl hnd)

theorem hasClass_metas (hX : ∀ x ∈ X, h.isElem x = true) (s : List Char) :
    h.hasClass X s = hasClass (X.map fun x => (h.node x).attrs) s := by
  unfold Heap.hasClass hasClass
  dsimp only
  split
  · rfl
  · clear * - hX
    induction X with
    | nil => rfl
    | cons x X ih =>
      have ih := ih (fun y hy => hX y (by simp [hy]))
      simp only [Heap.hasClassLoop, if_pos (hX x (by simp)), List.map_cons, hasClass.go, bind, Except.bind]
      cases hasClassOne (h.node x).attrs (getClassList (trim s)) with
      | error e => rfl
      | ok b => cases b <;> simp [ih, pure, Except.pure]

/-- C55: `has_class` is true exactly when a name is given and one element of the set has all of the names. -/
theorem C55_has_class (hX : Tagged h X) (s : List Char) (names : List (List Char)) (hnames : Tokens s names)
    (hex : ∀ c ∈ s, ¬ ExoticSpace c) :
    ∃ b, h.hasClass X s = .ok b ∧
      (b = true ↔ names ≠ [] ∧ ∃ x ∈ X, ∃ l, ClassList (viewOf (h.node x).attrs) l ∧ ∀ t ∈ names, t ∈ l) := by
  rw [hasClass_metas (fun x hx => (hX x hx).1)]
  obtain ⟨b, h1, h2⟩ := C04_has_class_exact (X.map fun x => (h.node x).attrs) (by
    intro m hm
    obtain ⟨x, hx, rfl⟩ := List.mem_map.1 hm
    exact (hX x hx).2) s names hnames hex
  refine ⟨b, h1, h2.trans ?_⟩
  simp only [List.mem_map, exists_exists_and_eq_and]

/-- C55 is false when the set contains the document root: reading an attribute or a class and changing a class panic (`expect` on
the missing `meta`), while `set_attr` and `remove_attr` pass over the root. -/
theorem C55_fails_root (n : List Char) (v : Option (List Char)) : demo.attr [0] n = .error .unwrapNone ∧
    demo.hasAttr n [0] = .error .unwrapNone ∧ demo.hasClass [0] "a".toList = .error .unwrapNone ∧
    Heap.addClass quoteEnc demo [0] "a".toList = .error .unwrapNone ∧ Heap.removeClass quoteEnc demo [0] "a".toList = .error .unwrapNone ∧
    Heap.setAttr quoteEnc demo [0] n v = .ok demo ∧ Heap.removeAttr demo [0] n = .ok demo := ⟨rfl, rfl, rfl, rfl, rfl, rfl, rfl⟩

/-- C55 is false for `toggle_class` on a set that lists an element twice: the class is put on and taken off again. -/
theorem C55_fails_toggle_twice : ∃ h h', Heap.toggleClass quoteEnc demo [2, 2] "zz".toList = .ok h ∧
    Heap.toggleClass quoteEnc demo [2] "zz".toList = .ok h' ∧ h.hasClass [2] "zz".toList = .ok false ∧ h'.hasClass [2] "zz".toList = .ok true :=
  ⟨_, _, rfl, rfl, by decide, by decide⟩

/-! ## C56 -/

theorem Spec.OnlyAttrs.elems {h h' : Heap} {r : Nat} (o : OnlyAttrs h h') {Y : List Nat} (hY : Elems h r Y) : Elems h' r Y :=
  fun y hy => ⟨o.within.2 (hY y hy).1, by rw [o.isElem]; exact (hY y hy).2⟩

theorem metas_after {h h' : Heap} {r : Nat} {X : List Nat} (ev : Metas h r) (o : OnlyAttrs h h') (hout : ∀ x, x ∉ X → h'.node x = h.node x)
    (hin : ∀ x ∈ X, MetaWF (h'.node x).attrs) : Metas h' r := by
  intro x hx he
  by_cases hm : x ∈ X
  · exact hin x hm
  · rw [hout x hm]; exact ev x (o.within.1 hx) (by rwa [o.isElem] at he)

open Classical in
theorem filter_sel1 {h : Heap} {r : Nat} {env : Env} (wf : TreeWF h r) (ev : Metas h r) {s : Sim} (hb : s.basic = true) {Y : List Nat}
    (hY : Elems h r Y) : ∃ res, filterQ h env Y (sel1 s) = .ok res ∧ res.Sublist Y ∧ ∀ y ∈ Y, y ∈ res ↔ s.Sat h r env y := by
  have hbt : BasicTest [(.childrenAll, [s])] := ⟨⟨by simp, by simp [Comb.down, hb]⟩, by simp⟩
  have := C22_filter_basic (env := env) wf ev hbt (by simp) hY
  refine ⟨_, this, List.filter_sublist, fun y hy => ?_⟩
  rw [List.mem_filter, decide_eq_true_eq]
  have h1 := sel1_sat (env := env) wf (hY y hy).1 (hY y hy).2 (s := s)
  rw [sel1, anySat, anySat, or_false] at h1
  rw [h1]
  exact ⟨fun a => a.2, fun a => ⟨hy, a⟩⟩

theorem find_sel1 {h : Heap} {r : Nat} {env : Env} (wf : TreeWF h r) (ev : Metas h r) {s : Sim} (hb : s.basic = true) :
    ∃ res, find h env [r] (sel1 s) = .ok res ∧ ∀ y, y ∈ res ↔ (Within h r y ∧ h.isElem y = true) ∧ s.Sat h r env y := by
  have hbt : Basic [(.childrenAll, [s])] := ⟨by simp, by simp [Comb.down, hb]⟩
  have hcalm : calm .sorted [(.childrenAll, [s])] = true := by
    unfold calm
    split
    · simp [calmSteps]
    · rfl
  have hf := find_all (env := env) (tot := true) (ph := .sorted) (S := [r]) wf ev (basic_findOk hbt fun _ => hcalm) (nodes_root wf) (docSorted_single r)
  obtain ⟨res, hres⟩ := hf.2 rfl
  obtain ⟨h1, -, h3⟩ := hf.1 res hres
  refine ⟨res, hres, fun y => ?_⟩
  have hs : ∀ y, Within h r y → h.isElem y = true → (Sel h r (· ∈ [r]) (steps h r env [(.childrenAll, [s])]) y ↔ s.Sat h r env y) := by
    intro y hy he
    have h1 := sel1_sat (env := env) wf hy he (s := s)
    rw [sel1, anySat, anySat, or_false] at h1
    simpa using h1
  constructor
  · intro hy
    exact ⟨h1 y hy, (hs y (h1 y hy).1 (h1 y hy).2).1 ((h3 y).1 hy)⟩
  · rintro ⟨⟨a, b⟩, c⟩
    exact (h3 y).2 ((hs y a b).2 c)

/-- `find` and `filter` answer by this condition in the changed document: `filter` keeps, in order, the elements of any set that
satisfy it, `find` from the root the elements of the document that do. -/
def Answers (h h' : Heap) (r : Nat) (env : Env) (s : Sim) (C : Nat → Prop) : Prop :=
  (∀ Y, Elems h r Y → ∃ res, filterQ h' env Y (sel1 s) = .ok res ∧ res.Sublist Y ∧ ∀ y ∈ Y, y ∈ res ↔ C y) ∧
  ∃ res, find h' env [r] (sel1 s) = .ok res ∧ ∀ y, y ∈ res ↔ (Within h r y ∧ h.isElem y = true) ∧ C y

theorem answers {h h' : Heap} {r : Nat} {env : Env} (wf : TreeWF h r) (ev : Metas h r) (o : OnlyAttrs h h') {X : List Nat}
    (hout : ∀ x, x ∉ X → h'.node x = h.node x) (hin : ∀ x ∈ X, MetaWF (h'.node x).attrs) {s : Sim} (hb : s.basic = true) {C : Nat → Prop}
    (hC : ∀ y, s.Sat h' r env y ↔ C y) : Answers h h' r env s C := by
  have wf' := o.tree wf
  have ev' := metas_after ev o hout hin
  constructor
  · intro Y hY
    obtain ⟨res, h1, h2, h3⟩ := filter_sel1 (env := env) wf' ev' hb (o.elems hY)
    exact ⟨res, h1, h2, fun y hy => (h3 y hy).trans (hC y)⟩
  · obtain ⟨res, h1, h2⟩ := find_sel1 (env := env) wf' ev' hb
    refine ⟨res, h1, fun y => ?_⟩
    rw [h2, o.within, o.isElem, hC]

/-- C56 for `set_attr(n, v)`: `[n=v]` selects the elements of the set and, outside it, what it selected before; `[n]` the
elements of the set and those that already had the attribute. -/
theorem C56_set_attr_partial {h : Heap} {r : Nat} (env : Env) (wf : TreeWF h r) (ev : Metas h r) {X : List Nat} (hX : Elems h r X) (e : AttrExt)
    (n v : List Char) (hv : OneQuoteKind v) (hv0 : v ≠ []) :
    ∃ h', Heap.setAttr e h X n (some v) = .ok h' ∧ TreeWF h' r ∧ Metas h' r ∧
      Answers h h' r env (.attrTest n .equals v) (fun y => y ∈ X ∨ (Sim.attrTest n .equals v).Sat h r env y) ∧
      Answers h h' r env (.attr n) (fun y => y ∈ X ∨ (Sim.attr n).Sat h r env y) := by
  obtain ⟨h', h1, o, hout, hin, -⟩ := C55_set_attr_partial e (X := X) (h := h) (fun x hx => ⟨(hX x hx).2, ev x (hX x hx).1 (hX x hx).2⟩) n (some v)
    (fun s hs => by cases hs; exact hv)
  have hk : SameIgnoringCase n n := rfl
  have hb : (Sim.attrTest n .equals v).basic = true := by simp [Sim.basic, hv0]
  refine ⟨h', h1, o.tree wf, metas_after ev o hout fun x hx => (hin x hx).1,
    answers wf ev o hout (fun x hx => (hin x hx).1) hb fun y => ?_, answers wf ev o hout (fun x hx => (hin x hx).1) rfl fun y => ?_⟩
  · rw [Sim.Sat, Sim.Sat]
    by_cases hy : y ∈ X
    · rw [(hin y hy).2, if_pos hk]
      simp [hy, AttrTest.Holds, textOf]
    · rw [hout y hy]
      simp [hy]
  · rw [Sim.Sat, Sim.Sat, HasAttr, HasAttr]
    by_cases hy : y ∈ X
    · rw [(hin y hy).2, if_pos hk]
      simp [hy]
    · rw [hout y hy]
      simp [hy]

/-- C56 for `remove_attr(n)`: `[n]` no longer selects the elements of the set. -/
theorem C56_remove_attr_partial {h : Heap} {r : Nat} (env : Env) (wf : TreeWF h r) (ev : Metas h r) {X : List Nat} (hX : Elems h r X)
    (n : List Char) (hn : NoCapital n) :
    ∃ h', Heap.removeAttr h X n = .ok h' ∧ TreeWF h' r ∧ Metas h' r ∧
      Answers h h' r env (.attr n) (fun y => y ∉ X ∧ (Sim.attr n).Sat h r env y) := by
  obtain ⟨h', h1, o, hout, hin⟩ := C55_remove_attr_partial (X := X) (h := h) (fun x hx => ⟨(hX x hx).2, ev x (hX x hx).1 (hX x hx).2⟩) n hn
  have hk : SameIgnoringCase n n := rfl
  refine ⟨h', h1, o.tree wf, metas_after ev o hout fun x hx => (hin x hx).1, answers wf ev o hout (fun x hx => (hin x hx).1) rfl fun y => ?_⟩
  rw [Sim.Sat, Sim.Sat, HasAttr, HasAttr]
  by_cases hy : y ∈ X
  · rw [(hin y hy).2, if_pos hk]
    simp [hy]
  · rw [hout y hy]
    simp [hy]

/-- C56 for `add_class`: `.c` selects the elements of the set for every name `c` that was given, and what it selected before. -/
theorem C56_add_class_partial {h : Heap} {r : Nat} (env : Env) (wf : TreeWF h r) (ev : Metas h r) {X : List Nat} (hX : Elems h r X)
    (e : AttrExt) (s : List Char) (names : List (List Char)) (hnames : Tokens s names) (hq : ∀ x ∈ X, Clean (viewOf (h.node x).attrs) s) :
    ∃ h', Heap.addClass e h X s = .ok h' ∧ TreeWF h' r ∧ Metas h' r ∧
      ∀ c, Answers h h' r env (.cls c) (fun y => (y ∈ X ∧ c ∈ names) ∨ (Sim.cls c).Sat h r env y) := by
  obtain ⟨h', h1, o, hout, hin⟩ := C55_add_class_partial e (X := X) (h := h) (fun x hx => ⟨(hX x hx).2, ev x (hX x hx).1 (hX x hx).2⟩) s names hnames hq
  refine ⟨h', h1, o.tree wf, metas_after ev o hout fun x hx => (hin x hx).1, fun c =>
    answers wf ev o hout (fun x hx => (hin x hx).1) rfl fun y => ?_⟩
  rw [Sim.Sat, Sim.Sat]
  by_cases hy : y ∈ X
  · obtain ⟨old, hold⟩ := classList_exists (h.node y).attrs
    obtain ⟨new, hnew, -, hmem⟩ := (hin y hy).2.2 old hold
    constructor
    · rintro ⟨l, hl, hc⟩
      rw [classList_unique hl hnew, hmem] at hc
      rcases hc with hc | hc
      · exact .inr ⟨old, hold, hc⟩
      · exact .inl ⟨hy, hc⟩
    · rintro (⟨-, hc⟩ | ⟨l, hl, hc⟩)
      · exact ⟨new, hnew, (hmem c).2 (.inr hc)⟩
      · rw [classList_unique hl hold] at hc
        exact ⟨new, hnew, (hmem c).2 (.inl hc)⟩
  · rw [hout y hy]
    simp [hy]

/-- C56 for `remove_class` with the conditions of C05: `.c` no longer selects the elements of the set for a name that was given. -/
theorem C56_remove_class_partial {h : Heap} {r : Nat} (env : Env) (wf : TreeWF h r) (ev : Metas h r) {X : List Nat} (hX : Elems h r X)
    (e : AttrExt) (s : List Char) (names : List (List Char)) (hnames : Tokens s names) (hex : ∀ c ∈ s, ¬ ExoticSpace c)
    (hq : ∀ x ∈ X, Clean (viewOf (h.node x).attrs) s ∧ ∃ old, ClassList (viewOf (h.node x).attrs) old ∧ old.Nodup ∧ InOrder names old) :
    ∃ h', Heap.removeClass e h X s = .ok h' ∧ TreeWF h' r ∧ Metas h' r ∧
      ∀ c, Answers h h' r env (.cls c) (fun y => ¬ (y ∈ X ∧ c ∈ names) ∧ (Sim.cls c).Sat h r env y) := by
  obtain ⟨h', h1, o, hout, hin⟩ := C55_remove_class_partial e (X := X) (h := h) (fun x hx => ⟨(hX x hx).2, ev x (hX x hx).1 (hX x hx).2⟩) s names
    hnames hex hq
  refine ⟨h', h1, o.tree wf, metas_after ev o hout fun x hx => (hin x hx).1, fun c =>
    answers wf ev o hout (fun x hx => (hin x hx).1) rfl fun y => ?_⟩
  rw [Sim.Sat, Sim.Sat]
  by_cases hy : y ∈ X
  · obtain ⟨old, hold⟩ := classList_exists (h.node y).attrs
    have hnew := (hin y hy).2.2 old hold
    constructor
    · rintro ⟨l, hl, hc⟩
      rw [classList_unique hl hnew, List.mem_filter, decide_eq_true_eq] at hc
      exact ⟨fun a => hc.2 a.2, old, hold, hc.1⟩
    · rintro ⟨hn, l, hl, hc⟩
      rw [classList_unique hl hold] at hc
      exact ⟨_, hnew, List.mem_filter.2 ⟨hc, decide_eq_true fun a => hn ⟨hy, a⟩⟩⟩
  · rw [hout y hy]
    simp [hy]

/-- C56 for `toggle_class` with the conditions of C06, on a set without repetitions: for a name that was given `.c` selects the elements of the set that it
did not select before, and no longer those that it did; nothing changes outside the set or for other names. -/
theorem C56_toggle_class_partial {h : Heap} {r : Nat} (env : Env) (wf : TreeWF h r) (ev : Metas h r) {X : List Nat} (hX : Elems h r X) (hnd : X.Nodup)
    (e : AttrExt) (s : List Char) (names : List (List Char)) (hnames : Tokens s names) (hndn : names.Nodup) (hex : ∀ c ∈ s, ¬ ExoticSpace c)
    (hq : ∀ x ∈ X, Clean (viewOf (h.node x).attrs) s ∧ ∃ old, ClassList (viewOf (h.node x).attrs) old ∧ old.Nodup ∧ InOrder names old) :
    ∃ h', Heap.toggleClass e h X s = .ok h' ∧ TreeWF h' r ∧ Metas h' r ∧
      ∀ c, Answers h h' r env (.cls c) (fun y => if y ∈ X ∧ c ∈ names then ¬ (Sim.cls c).Sat h r env y else (Sim.cls c).Sat h r env y) := by
  obtain ⟨h', h1, o, hout, hin⟩ := C55_toggle_class_partial e (X := X) (h := h) (fun x hx => ⟨(hX x hx).2, ev x (hX x hx).1 (hX x hx).2⟩) hnd s names
    hnames hndn hex hq
  refine ⟨h', h1, o.tree wf, metas_after ev o hout fun x hx => (hin x hx).1, fun c =>
    answers wf ev o hout (fun x hx => (hin x hx).1) rfl fun y => ?_⟩
  rw [Sim.Sat, Sim.Sat]
  by_cases hy : y ∈ X
  · obtain ⟨old, hold⟩ := classList_exists (h.node y).attrs
    obtain ⟨new, hnew, -, hmem⟩ := (hin y hy).2.2 old hold
    have e1 : (∃ l, ClassList (viewOf (h'.node y).attrs) l ∧ c ∈ l) ↔ c ∈ new :=
      ⟨fun ⟨l, hl, hc⟩ => classList_unique hl hnew ▸ hc, fun hc => ⟨new, hnew, hc⟩⟩
    have e2 : (∃ l, ClassList (viewOf (h.node y).attrs) l ∧ c ∈ l) ↔ c ∈ old :=
      ⟨fun ⟨l, hl, hc⟩ => classList_unique hl hold ▸ hc, fun hc => ⟨old, hold, hc⟩⟩
    rw [e1, e2, hmem]
    by_cases hc : c ∈ names
    · simp [hy, hc]
    · simp [hc]
  · rw [hout y hy]
    simp [hy]

end

/-! ## Cases meeting the hypotheses -/

/-- `<ul><li class="a b"/><li/><li class="c"/></ul>` -/
def listed : Heap := heapOf [rootN [1], el "ul" 0 0 [2, 3, 4], el "li" 1 0 [] (classMeta "a b"), el "li" 1 1 [], el "li" 1 2 [] (classMeta "c")]

theorem listed_wf : TreeWF listed 0 := wfCheck_sound (by decide)
theorem listed_elems {l : List Nat} (hl : ∀ x ∈ l, x ∈ [1, 2, 3, 4]) : Elems listed 0 l := by
  intro x hx
  have := hl x hx
  simp only [List.mem_cons, List.not_mem_nil, or_false] at this
  rcases this with rfl | rfl | rfl | rfl
  · exact ⟨wfCheck_within [0] (by decide) rfl, by decide⟩
  · exact ⟨wfCheck_within [0, 1] (by decide) rfl, by decide⟩
  · exact ⟨wfCheck_within [0, 1] (by decide) rfl, by decide⟩
  · exact ⟨wfCheck_within [0, 1] (by decide) rfl, by decide⟩
theorem listed_metas : Metas listed 0 := by
  have : ∀ x, x < 5 → metaCheck (listed.node x).attrs = true := by decide
  exact fun x hx _ => metaCheck_sound (this x (listed_wf.bound x hx))

/-- What a call leaves, for the examples. -/
def leaves (r : R Heap) : Heap :=
  match r with
  | .ok h => h
  | .error _ => listed

/-- `set_attr("id", "x")` on the first two items, one of them twice. -/
example : OneQuoteKind "x".toList ∧ Elems listed 0 [2, 3, 2] ∧
    filterQ (leaves (Heap.setAttr quoteEnc listed [2, 3, 2] "Id".toList (some "x".toList))) env0 [4, 3, 2] (sel1 (.attrTest "id".toList .equals "x".toList)) = .ok [3, 2] ∧
    find (leaves (Heap.setAttr quoteEnc listed [2, 3, 2] "Id".toList (some "x".toList))) env0 [0] (sel1 (.attr "id".toList)) = .ok [2, 3] :=
  ⟨by decide, listed_elems (by decide), by decide, by decide⟩

/-- A set that lists an element twice. -/
example : find (leaves (Heap.addClass quoteEnc listed [2, 3, 2] "c d".toList)) env0 [0] (sel1 (.cls "d".toList)) = .ok [2, 3] ∧
    find (leaves (Heap.removeClass quoteEnc listed [2, 3, 2] "a".toList)) env0 [0] (sel1 (.cls "a".toList)) = .ok [] := ⟨by decide, by decide⟩

/-- `add_class("c d")`, `remove_class("a")` and `toggle_class("a c")` on all items. -/
example : (∀ x ∈ [2, 3, 4], Clean (viewOf (listed.node x).attrs) "c d".toList) ∧ Tokens "c d".toList ["c".toList, "d".toList] ∧
    find (leaves (Heap.addClass quoteEnc listed [2, 3, 4] "c d".toList)) env0 [0] (sel1 (.cls "d".toList)) = .ok [2, 3, 4] ∧
    find (leaves (Heap.removeClass quoteEnc listed [2, 3, 4] "a".toList)) env0 [0] (sel1 (.cls "a".toList)) = .ok [] ∧
    find (leaves (Heap.removeClass quoteEnc listed [2, 3, 4] "a".toList)) env0 [0] (sel1 (.cls "b".toList)) = .ok [2] ∧
    find (leaves (Heap.toggleClass quoteEnc listed [2, 3, 4] "a c".toList)) env0 [0] (sel1 (.cls "c".toList)) = .ok [2, 3] := by
  refine ⟨fun x hx => ?_, tokens_iff.2 (by decide), by decide, by decide, by decide, by decide⟩
  simp only [List.mem_cons, List.not_mem_nil, or_false] at hx
  rcases hx with rfl | rfl | rfl
  · show OneQuoteKind ("a b".toList ++ "c d".toList); decide
  · show OneQuoteKind ("c d".toList); decide
  · show OneQuoteKind ("c".toList ++ "c d".toList); decide

example : ∀ x ∈ [2, 3, 4], ∃ old, ClassList (viewOf (listed.node x).attrs) old ∧ old.Nodup ∧ InOrder ["a".toList] old := by
  intro x hx
  simp only [List.mem_cons, List.not_mem_nil, or_false] at hx
  rcases hx with rfl | rfl | rfl
  · exact ⟨["a".toList, "b".toList], (classList_view (v := "a b".toList) (by decide)).2 (by decide), by decide, by decide⟩
  · exact ⟨[], rfl, by decide, by decide⟩
  · exact ⟨["c".toList], (classList_view (v := "c".toList) (by decide)).2 (by decide), by decide, by decide⟩

/-- C56 does not hold for ids: the rule `#x` asks rphtml's table of ids (`byId`), and nothing in the library tells rphtml about a changed attribute. The `b` of `nest` is
given the id `x`, which in the table belongs to a `div`: `#x` still finds the `div`, and `[id=x]` the `b`. -/
theorem C56_fails_id : ∃ h', Heap.setAttr ⟨fun _ => none, fun _ => false⟩ nest [5] "id".toList (some "x".toList) = .ok h' ∧
    find h' env6 [0] [[(.childrenAll, [.id "x".toList])]] = .ok [6] ∧
    find h' env6 [0] [[(.childrenAll, [.attrTest "id".toList .equals "x".toList])]] = .ok [5] :=
  ⟨_, rfl, by decide, by decide⟩

end Visdom
