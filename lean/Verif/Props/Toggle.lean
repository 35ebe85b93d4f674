import Verif.Props.SetAttrs
/-!
# C55: `toggle_class` on sets that list an element several times
-/
namespace Visdom
open Spec

section
variable {h : Heap} {X : List Nat}

/-- The loop over a set, with how often an element occurs in it. -/
theorem changeAll_count {reads : Bool} {f : Meta → R Meta} {Q : Meta → Prop} {P : Nat → Meta → Meta → Prop}
    (hf : ∀ m, MetaWF m → Q m → ∃ m', f m = .ok m' ∧ MetaWF m' ∧ Q m' ∧ ∀ n m'', Q m → P n m' m'' → P (n + 1) m m'')
    (h0 : ∀ m, Q m → P 0 m m) : ∀ (X : List Nat) (h : Heap),
    (∀ x ∈ X, h.isElem x = true ∧ MetaWF (h.node x).attrs ∧ Q (h.node x).attrs) →
    ∃ h', Heap.changeAll reads f h X = .ok h' ∧ OnlyAttrs h h' ∧ (∀ x, x ∉ X → h'.node x = h.node x) ∧
      ∀ x ∈ X, MetaWF (h'.node x).attrs ∧ P (X.count x) (h.node x).attrs (h'.node x).attrs := by
  intro X
  induction X with
  | nil => intro h _; exact ⟨h, rfl, .refl h, fun _ _ => rfl, by simp⟩
  | cons x X ih =>
    intro h hX
    obtain ⟨he, wf, q⟩ := hX x (by simp)
    obtain ⟨m', hm, wf', q', hp⟩ := hf _ wf q
    have hc : h.changeAttrs reads f x = .ok (h.upd x fun n => { n with attrs := m' }) := by
      unfold Heap.changeAttrs
      rw [if_pos he, hm]
    generalize hg : h.upd x (fun n => { n with attrs := m' }) = g at hc
    have og : OnlyAttrs h g := hg ▸ onlyAttrs_upd x m'
    have hgx : (g.node x).attrs = m' := by rw [← hg, upd_node, if_pos rfl]
    have hgy : ∀ y, y ≠ x → g.node y = h.node y := fun y hy => by rw [← hg, upd_node, if_neg hy]
    obtain ⟨h', r1, r2, r3, r4⟩ := ih g (fun y hy => by
      by_cases e : y = x
      · subst e
        rw [og.isElem, hgx]; exact ⟨he, wf', q'⟩
      · rw [hgy y e, og.isElem]; exact hX y (by simp [hy]))
    refine ⟨h', by simp only [Heap.changeAll, hc]; exact r1, og.trans r2, fun y hy => ?_, fun y hy => ?_⟩
    · simp only [List.mem_cons, not_or] at hy
      rw [r3 y hy.2, hgy y hy.1]
    · by_cases e : y = x
      · subst e
        rw [List.count_cons_self]
        by_cases hin : y ∈ X
        · have := r4 y hin
          rw [hgx] at this
          exact ⟨this.1, hp _ _ q this.2⟩
        · rw [r3 y hin, hgx, List.count_eq_zero_of_not_mem hin]
          exact ⟨wf', hp _ _ q (h0 _ q')⟩
      · have hin : y ∈ X := by simpa [e] using hy
        have := r4 y hin
        rw [hgy y e] at this
        rwa [List.count_cons_of_ne (fun e' => e e'.symm)]

/-- The classes after `n` toggles: with an odd `n` exactly one of the element and the names has each class,
with an even one the classes are those the element had. -/
def Toggled (names : List (List Char)) (n : Nat) (old new : List (List Char)) : Prop :=
  ∀ t, t ∈ new ↔ if n % 2 = 1 then (t ∈ old ∧ t ∉ names) ∨ (t ∈ names ∧ t ∉ old) else t ∈ old

/-- **C55** (partial: the conditions of C06): `toggle_class` on any set of elements. An element listed an odd number of times ends with the
classes toggled, one listed an even number of times with the classes it had; the order of the classes that are
not named is kept, every other attribute and every other node is as before. -/
theorem C55_toggle_parity_partial (e : AttrExt) (hX : Tagged h X) (s : List Char) (names : List (List Char))
    (hnames : Tokens s names) (hndn : names.Nodup) (hex : ∀ c ∈ s, ¬ ExoticSpace c) (hq : ∀ x ∈ X, Clean (viewOf (h.node x).attrs) s ∧
      ∃ old, ClassList (viewOf (h.node x).attrs) old ∧ old.Nodup ∧ InOrder names old) :
    ∃ h', Heap.toggleClass e h X s = .ok h' ∧ OnlyAttrs h h' ∧ (∀ x, x ∉ X → h'.node x = h.node x) ∧
      ∀ x ∈ X, MetaWF (h'.node x).attrs ∧ OthersSame (h.node x).attrs (h'.node x).attrs ∧
        ∀ old, ClassList (viewOf (h.node x).attrs) old → ∃ new, ClassList (viewOf (h'.node x).attrs) new ∧ new.Nodup ∧
          Toggled names (X.count x) old new ∧
          (new.filter fun t => decide (t ∉ names)) = (old.filter fun t => decide (t ∉ names)) := by
  have hn := tokens_unique hnames
  unfold Heap.toggleClass
  split
  · rename_i hem
    have : names = [] := by
      rw [← hn, ← trim_ok hex, List.isEmpty_iff.1 hem]; rfl
    refine ⟨h, rfl, .refl h, fun _ _ => rfl, fun x hx => ⟨(hX x hx).2, fun _ _ => rfl, fun old ho => ⟨old, ho, ?_, ?_, rfl⟩⟩⟩
    · obtain ⟨-, old', ho', hnd', -⟩ := hq x hx
      rwa [classList_unique ho ho']
    · intro t
      subst this
      simp
  · exact changeAll_count (reads := true) (f := fun m => toggleClass e m s)
      (Q := fun m => Clean (viewOf m) s ∧ ∃ old, ClassList (viewOf m) old ∧ old.Nodup ∧ InOrder names old)
      (P := fun n a b => OthersSame a b ∧ ∀ old, ClassList (viewOf a) old → ∃ new, ClassList (viewOf b) new ∧ new.Nodup ∧
          Toggled names n old new ∧
          (new.filter fun t => decide (t ∉ names)) = (old.filter fun t => decide (t ∉ names)))
      (fun m wf q => by
        obtain ⟨hcl, old, hold, hnd, hio⟩ := q
        obtain ⟨m', a1, a2, a3, a4, a5⟩ := toggle_one e m wf s old names hold hnames hcl hex hnd hio
        obtain ⟨m1, new, b1, -, -, b4, b5, b6, b7, -⟩ := C06_toggle_class_partial e m wf s old names hold hnames hcl hex hnd hndn hio
        obtain rfl : m' = m1 := Except.ok.inj (a1.symm.trans b1)
        have hnew := classList_unique b4 a5
        have hio2 : InOrder names new := by
          have : (names.filter fun t => decide (t ∈ new)) = names.filter fun t => decide (t ∉ old) := by
            apply List.filter_congr
            intro t ht
            simp [b6, ht]
          unfold InOrder
          rw [this, hnew]
          exact List.sublist_append_right _ _
        refine ⟨m', a1, a2, ⟨a4, new, b4, b5, hio2⟩, fun n m'' _ p => ⟨fun k hk => (p.1 k hk).trans (a3 k hk), fun old' ho => ?_⟩⟩
        obtain rfl : old = old' := classList_unique hold ho
        obtain ⟨fin, f1, f2, f3, f4⟩ := p.2 new b4
        refine ⟨fin, f1, f2, fun t => ?_, f4.trans b7⟩
        rw [f3 t]
        have := b6 t
        rcases Nat.mod_two_eq_zero_or_one n with hp | hp
        · have h1 : (n + 1) % 2 = 1 := by omega
          rw [if_neg (by omega), if_pos h1, this]
        · have h1 : (n + 1) % 2 ≠ 1 := by omega
          rw [if_pos hp, if_neg h1, this]
          by_cases h1 : t ∈ old <;> by_cases h2 : t ∈ names <;> simp [h1, h2])
      (fun m q => ⟨fun _ _ => rfl, fun old ho => by
        obtain ⟨-, old', ho', hnd', -⟩ := q
        exact ⟨old, ho, by rwa [classList_unique ho ho'], fun t => by simp, rfl⟩⟩)
      X h (fun x hx => ⟨(hX x hx).1, (hX x hx).2, hq x hx⟩)

/-- Toggling the set twice is toggling the set listed twice; each element ends with the classes it had. -/
theorem C55_toggle_back_partial (e : AttrExt) (hX : Tagged h X) (s : List Char) (names : List (List Char))
    (hnames : Tokens s names) (hndn : names.Nodup) (hex : ∀ c ∈ s, ¬ ExoticSpace c) (hq : ∀ x ∈ X, Clean (viewOf (h.node x).attrs) s ∧
      ∃ old, ClassList (viewOf (h.node x).attrs) old ∧ old.Nodup ∧ InOrder names old) :
    ∃ h1 h', Heap.toggleClass e h X s = .ok h1 ∧ Heap.toggleClass e h1 X s = .ok h' ∧ OnlyAttrs h h' ∧ (∀ x, x ∉ X → h'.node x = h.node x) ∧
      ∀ x ∈ X, OthersSame (h.node x).attrs (h'.node x).attrs ∧
        ∀ old, ClassList (viewOf (h.node x).attrs) old → ∃ new, ClassList (viewOf (h'.node x).attrs) new ∧ new.Nodup ∧ ∀ t, t ∈ new ↔ t ∈ old := by
  have app : ∀ (g : Heap) (A B : List Nat) (f : Meta → R Meta), Heap.changeAll true f g (A ++ B) =
      match Heap.changeAll true f g A with | .error e => .error e | .ok g' => Heap.changeAll true f g' B := by
    intro g A B f
    induction A generalizing g with
    | nil => rfl
    | cons a A ih =>
      simp only [List.cons_append, Heap.changeAll]
      cases g.changeAttrs true f a <;> simp [ih]
  have mem : ∀ x, x ∈ X ++ X ↔ x ∈ X := by simp
  obtain ⟨h1, p1, -⟩ := C55_toggle_parity_partial e hX s names hnames hndn hex hq
  obtain ⟨h', p2, p3, p4, p5⟩ := C55_toggle_parity_partial (X := X ++ X) e (fun x hx => hX x ((mem x).1 hx)) s names hnames hndn hex
    (fun x hx => hq x ((mem x).1 hx))
  have two : Heap.toggleClass e h1 X s = .ok h' := by
    unfold Heap.toggleClass at p1 p2 ⊢
    split at p1
    · rename_i c
      rw [if_pos c] at p2 ⊢
      rw [← p2, ← p1]
    · rename_i c
      rw [if_neg c] at p2 ⊢
      rw [app, p1] at p2
      exact p2
  refine ⟨h1, h', p1, two, p3, fun x hx => p4 x (by simpa using hx), fun x hx => ?_⟩
  obtain ⟨-, q1, q2⟩ := p5 x (by simpa using hx)
  refine ⟨q1, fun old ho => ?_⟩
  obtain ⟨new, n1, n2, n3, -⟩ := q2 old ho
  refine ⟨new, n1, n2, fun t => (n3 t).trans ?_⟩
  rw [if_neg]
  rw [List.count_append]
  omega

/-- **C56** for `toggle_class` on any set: for a name that was given `.c` changes its answer about exactly the elements listed an odd number of times. -/
theorem C56_toggle_parity_partial {h : Heap} {r : Nat} (env : Env) (wf : TreeWF h r) (ev : Metas h r) {X : List Nat} (hX : Elems h r X)
    (e : AttrExt) (s : List Char) (names : List (List Char)) (hnames : Tokens s names) (hndn : names.Nodup) (hex : ∀ c ∈ s, ¬ ExoticSpace c)
    (hq : ∀ x ∈ X, Clean (viewOf (h.node x).attrs) s ∧ ∃ old, ClassList (viewOf (h.node x).attrs) old ∧ old.Nodup ∧ InOrder names old) :
    ∃ h', Heap.toggleClass e h X s = .ok h' ∧ TreeWF h' r ∧ Metas h' r ∧
      ∀ c, Answers h h' r env (.cls c) (fun y => if X.count y % 2 = 1 ∧ c ∈ names then ¬ (Sim.cls c).Sat h r env y else (Sim.cls c).Sat h r env y) := by
  obtain ⟨h', h1, o, hout, hin⟩ := C55_toggle_parity_partial e (X := X) (h := h) (fun x hx => ⟨(hX x hx).2, ev x (hX x hx).1 (hX x hx).2⟩) s names
    hnames hndn hex hq
  refine ⟨h', h1, o.tree wf, metas_after ev o hout fun x hx => (hin x hx).1, fun c =>
    answers wf ev o hout (fun x hx => (hin x hx).1) rfl fun y => ?_⟩
  rw [Sim.Sat, Sim.Sat]
  by_cases hy : y ∈ X
  · obtain ⟨old, hold⟩ := classList_exists (h.node y).attrs
    obtain ⟨new, hnew, -, hmem, -⟩ := (hin y hy).2.2 old hold
    have e1 : (∃ l, ClassList (viewOf (h'.node y).attrs) l ∧ c ∈ l) ↔ c ∈ new :=
      ⟨fun ⟨l, hl, hc⟩ => classList_unique hl hnew ▸ hc, fun hc => ⟨new, hnew, hc⟩⟩
    have e2 : (∃ l, ClassList (viewOf (h.node y).attrs) l ∧ c ∈ l) ↔ c ∈ old :=
      ⟨fun ⟨l, hl, hc⟩ => classList_unique hl hold ▸ hc, fun hc => ⟨old, hold, hc⟩⟩
    rw [e1, e2, hmem c]
    by_cases hodd : X.count y % 2 = 1
    · by_cases hc : c ∈ names
      · simp [hodd, hc]
      · simp [hodd, hc]
    · simp [hodd]
  · rw [hout y hy, List.count_eq_zero_of_not_mem hy]
    simp

end

/-- `toggle_class("a c")` on the items, the first one three times and the last one twice. -/
example : Tokens "a c".toList ["a".toList, "c".toList] ∧ [2, 3, 2, 4, 2, 4].count 2 = 3 ∧
    (∀ x ∈ [2, 3, 2, 4, 2, 4], Clean (viewOf (listed.node x).attrs) "a c".toList ∧
      ∃ old, ClassList (viewOf (listed.node x).attrs) old ∧ old.Nodup ∧ InOrder ["a".toList, "c".toList] old) ∧
    find (leaves (Heap.toggleClass quoteEnc listed [2, 3, 2, 4, 2, 4] "a c".toList)) env0 [0] (sel1 (.cls "a".toList)) = .ok [3] ∧
    find (leaves (Heap.toggleClass quoteEnc listed [2, 3, 2, 4, 2, 4] "a c".toList)) env0 [0] (sel1 (.cls "c".toList)) = .ok [2, 3, 4] := by
  refine ⟨tokens_iff.2 (by decide), by decide, fun x hx => ?_, by decide, by decide⟩
  have hx : x = 2 ∨ x = 3 ∨ x = 4 := by
    simp only [List.mem_cons, List.not_mem_nil, or_false] at hx
    omega
  rcases hx with rfl | rfl | rfl
  · exact ⟨by show OneQuoteKind ("a b".toList ++ "a c".toList); decide, ["a".toList, "b".toList], (classList_view (v := "a b".toList) (by decide)).2 (by decide), by decide, by decide⟩
  · exact ⟨by show OneQuoteKind "a c".toList; decide, [], rfl, by decide, by decide⟩
  · exact ⟨by show OneQuoteKind ("c".toList ++ "a c".toList); decide, ["c".toList], (classList_view (v := "c".toList) (by decide)).2 (by decide), by decide, by decide⟩

end Visdom
