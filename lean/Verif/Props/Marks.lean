import Verif.Props.FoundOne
import Verif.Props.SetAttrs
/-!
# C106: marked elements are found again, wherever they have gone
-/
namespace Visdom
open Spec

section
variable {h h1 : Heap} {r : Nat} {D : Nat → Prop} {e : Ext} {X : List Nat}

/-- A test that looks at the element itself and that exactly the elements of the set pass, whatever is done to the tree after that. -/
theorem mark_core (P : ParseOk e) (T : ParseTables e) (ok : HeapOk h D) (hk : (h.node r).kind = .root) (hb : r < h.size) (o : OnlyAttrs h h1)
    (t1 : Tables h1) (hX : ∀ x ∈ X, h.isElem x = true) {s : Sim} (hs : s.own = true) (hX1 : ∀ y, y < h.size → h.isElem y = true → ∀ env, (s.Sat h1 r env y ↔ y ∈ X))
    {ops : List Op} (hh : History e h1 D ops) (hu : ¬ UsedAll e h1 D ops r) (env : Env) :
    ∃ h2 res, runAll e h1 ops = .ok h2 ∧ h1.size ≤ h2.size ∧ (∀ y, y < h1.size → SameNode h1 h2 y) ∧ Tables h2 ∧ TreeWF h2 r ∧
      find h2 env [r] [[(.childrenAll, [s])]] = .ok res ∧ DocSorted h2 r res ∧ res.Nodup ∧
      (∀ y ∈ res, Within h2 r y ∧ h2.isElem y = true) ∧ ∀ y, y < h.size → (y ∈ res ↔ y ∈ X ∧ Within h2 r y) := by
  obtain ⟨h2, hr, wf', ev'⟩ := history_ready P T (o.heapOk ok) t1 hh (by rw [(o.fields r).1]; exact hk) (by rw [o.size]; exact hb) hu
  obtain ⟨a1, a2, a3⟩ := runAll_same P ops h1 h2 hr
  have ho : Own [(.childrenAll, [s])] := ⟨by simp, by simpa [Comb.down] using hs⟩
  obtain ⟨res, hf⟩ := C19_find_basic_descendants (env := env) wf' ev' ho.basic (by simp) (nodes_root wf') (docSorted_single r)
  obtain ⟨o2, n2⟩ := C18_find_descendants wf' ev' (basic_findOk ho.basic (by simp)) (by simp) (nodes_root wf') (docSorted_single r) hf
  have m := one_compound wf' ev' ho hf
  refine ⟨h2, res, hr, a1, a2, a3 T t1, wf', hf, o2, n2, fun y hy => ⟨((m y).1 hy).1, ((m y).1 hy).2.1⟩, fun y hy => ?_⟩
  obtain ⟨k1, k2, k3, _⟩ := a2 y (by rw [o.size]; exact hy)
  have he : h2.isElem y = h.isElem y := by rw [← o.isElem]; unfold Heap.isElem; rw [k1]
  have hc : cmpdSat h2 r env [s] y ↔ s.Sat h1 r env y := by
    rw [own_cmpd (h := h1) (r := r) (env := env) ⟨k1, k2, k3⟩ (by simpa using hs)]
    simp [cmpdSat]
  rw [m y, he, hc]
  constructor
  · rintro ⟨h3, h4, h5⟩
    exact ⟨(hX1 y hy h4 env).1 h5, h3⟩
  · rintro ⟨h3, h4⟩
    exact ⟨h4, hX y h3, (hX1 y hy (hX y h3) env).2 h3⟩

theorem tables_marked (t : Tables h) (o : OnlyAttrs h h1) (hout : ∀ x, x ∉ X → h1.node x = h.node x) (hin : ∀ x ∈ X, MetaWF (h1.node x).attrs) : Tables h1 := by
  intro x hx he
  by_cases hm : x ∈ X
  · exact hin x hm
  · rw [hout x hm]
    exact t x (o.size ▸ hx) (by rw [← o.isElem]; exact he)

/-- **C106**: `set_attr(n, v)` on a set, with a mark that no other element has; then any history of usable calls: `[n=v]` finds, of the elements there were, exactly
those of the set that are in the document now, in its order, each once. When no html has been parsed meanwhile it finds nothing else. -/
theorem C106_mark (P : ParseOk e) (T : ParseTables e) (ok : HeapOk h D) (t : Tables h) (hk : (h.node r).kind = .root) (hb : r < h.size)
    (hX : ∀ x ∈ X, x < h.size ∧ h.isElem x = true) (ae : AttrExt) {n v : List Char} (hv : OneQuoteKind v) (hv0 : v ≠ [])
    (new : ∀ y, y < h.size → h.isElem y = true → y ∉ X → viewOf (h.node y).attrs n ≠ some (some v)) (env : Env) :
    ∃ h1, Heap.setAttr ae h X n (some v) = .ok h1 ∧ OnlyAttrs h h1 ∧ ∀ ops, History e h1 D ops → ¬ UsedAll e h1 D ops r →
      ∃ h2 res, runAll e h1 ops = .ok h2 ∧ find h2 env [r] [[(.childrenAll, [.attrTest n .equals v])]] = .ok res ∧ DocSorted h2 r res ∧ res.Nodup ∧
        (∀ y, y < h.size → (y ∈ res ↔ y ∈ X ∧ Within h2 r y)) ∧ (h2.size = h.size → ∀ y ∈ res, y ∈ X) := by
  obtain ⟨h1, r1, o, hout, hin, -⟩ := C55_set_attr_partial ae (X := X) (h := h) (fun x hx => ⟨(hX x hx).2, t x (hX x hx).1 (hX x hx).2⟩) n (some v)
    (fun s hs => by cases hs; exact hv)
  have hsame : SameIgnoringCase n n := rfl
  refine ⟨h1, r1, o, fun ops hh hu => ?_⟩
  obtain ⟨h2, res, hr, -, -, -, wf', hf, o2, n2, hall, hm⟩ := mark_core (s := .attrTest n .equals v) P T ok hk hb o
    (tables_marked t o hout fun x hx => (hin x hx).1) (fun x hx => (hX x hx).2) (by simp [Sim.own, hv0]) (fun y hy he env => by
      rw [Sim.Sat]
      by_cases hyX : y ∈ X
      · rw [(hin y hyX).2, if_pos hsame]
        simp [hyX, AttrTest.Holds, textOf]
      · have h3 := new y hy he hyX
        rw [hout y hyX]
        simp only [hyX, iff_false]
        rintro ⟨w, hw, htw⟩
        cases w with
        | none => exact hv0 htw.symm
        | some w => exact h3 (by rw [hw]; simpa [textOf] using htw)) hh hu env
  exact ⟨h2, res, hr, hf, o2, n2, hm, fun hz y hy => ((hm y (hz ▸ wf'.bound y (hall y hy).1)).1 hy).1⟩

theorem viewOf_same {m : Meta} {k n : List Char} (hkn : SameIgnoringCase k n) : viewOf m k = viewOf m n := by
  unfold viewOf getAttribute
  rw [(lowerStr_eq_iff k n).2 hkn]

/-- **C106, with a class**: `add_class` on a set, with a class that no other element has. -/
theorem C106_mark_class (P : ParseOk e) (T : ParseTables e) (ok : HeapOk h D) (t : Tables h) (hk : (h.node r).kind = .root) (hb : r < h.size)
    (hX : ∀ x ∈ X, x < h.size ∧ h.isElem x = true) (ae : AttrExt) {s c : List Char} {names : List (List Char)} (hnames : Tokens s names) (hc : c ∈ names)
    (hq : ∀ x ∈ X, Clean (viewOf (h.node x).attrs) s)
    (new : ∀ y, y < h.size → h.isElem y = true → y ∉ X → ∀ l, ClassList (viewOf (h.node y).attrs) l → c ∉ l) (env : Env) :
    ∃ h1, Heap.addClass ae h X s = .ok h1 ∧ OnlyAttrs h h1 ∧ ∀ ops, History e h1 D ops → ¬ UsedAll e h1 D ops r →
      ∃ h2 res, runAll e h1 ops = .ok h2 ∧ find h2 env [r] [[(.childrenAll, [.cls c])]] = .ok res ∧ DocSorted h2 r res ∧ res.Nodup ∧
        (∀ y, y < h.size → (y ∈ res ↔ y ∈ X ∧ Within h2 r y)) ∧ (h2.size = h.size → ∀ y ∈ res, y ∈ X) := by
  obtain ⟨h1, r1, o, hout, hin⟩ := C55_add_class_partial ae (X := X) (h := h) (fun x hx => ⟨(hX x hx).2, t x (hX x hx).1 (hX x hx).2⟩) s names hnames hq
  refine ⟨h1, r1, o, fun ops hh hu => ?_⟩
  obtain ⟨h2, res, hr, -, -, -, wf', hf, o2, n2, hall, hm⟩ := mark_core (s := .cls c) P T ok hk hb o
    (tables_marked t o hout fun x hx => (hin x hx).1) (fun x hx => (hX x hx).2) rfl (fun y hy he env => by
      rw [Sim.Sat]
      by_cases hyX : y ∈ X
      · obtain ⟨old, hold⟩ := classList_exists (h.node y).attrs
        obtain ⟨nw, hnew, -, hmem⟩ := (hin y hyX).2.2 old hold
        exact ⟨fun _ => hyX, fun _ => ⟨nw, hnew, (hmem c).2 (.inr hc)⟩⟩
      · rw [hout y hyX]
        exact ⟨fun ⟨l, hl, hcl⟩ => absurd hcl (new y hy he hyX l hl), fun h3 => absurd h3 hyX⟩) hh hu env
  exact ⟨h2, res, hr, hf, o2, n2, hm, fun hz y hy => ((hm y (hz ▸ wf'.bound y (hall y hy).1)).1 hy).1⟩

/-- **C106, the marks are taken off again**: no element had the attribute `n`; after the history, `remove_attr(n)` on what `[n=v]` finds gives every element of the
document that there was before the attributes it had; and when no html has been parsed meanwhile, `[n]` finds nothing. -/
theorem C106_unmark (P : ParseOk e) (T : ParseTables e) (ok : HeapOk h D) (t : Tables h) (hk : (h.node r).kind = .root) (hb : r < h.size)
    (hX : ∀ x ∈ X, x < h.size ∧ h.isElem x = true) (ae : AttrExt) {n v : List Char} (hn : NoCapital n) (hv : OneQuoteKind v) (hv0 : v ≠ [])
    (new : ∀ y, y < h.size → h.isElem y = true → viewOf (h.node y).attrs n = none) (env : Env) :
    ∃ h1, Heap.setAttr ae h X n (some v) = .ok h1 ∧ ∀ ops, History e h1 D ops → ¬ UsedAll e h1 D ops r →
      ∃ h2 res h3, runAll e h1 ops = .ok h2 ∧ find h2 env [r] [[(.childrenAll, [.attrTest n .equals v])]] = .ok res ∧ Heap.removeAttr h2 res n = .ok h3 ∧
        OnlyAttrs h2 h3 ∧ (∀ y, y < h.size → h.isElem y = true → Within h2 r y → ∀ k, viewOf (h3.node y).attrs k = viewOf (h.node y).attrs k) ∧
        (h2.size = h.size → find h3 env [r] [[(.childrenAll, [.attr n])]] = .ok []) := by
  obtain ⟨h1, r1, o, hout, hin, -⟩ := C55_set_attr_partial ae (X := X) (h := h) (fun x hx => ⟨(hX x hx).2, t x (hX x hx).1 (hX x hx).2⟩) n (some v)
    (fun s hs => by cases hs; exact hv)
  have hsame : SameIgnoringCase n n := rfl
  refine ⟨h1, r1, fun ops hh hu => ?_⟩
  obtain ⟨h2, res, hr, a1, a2, t2, wf', hf, o2, n2, hall, hm⟩ := mark_core (s := .attrTest n .equals v) P T ok hk hb o
    (tables_marked t o hout fun x hx => (hin x hx).1) (fun x hx => (hX x hx).2) (by simp [Sim.own, hv0]) (fun y hy he env => by
      rw [Sim.Sat]
      by_cases hyX : y ∈ X
      · rw [(hin y hyX).2, if_pos hsame]
        simp [hyX, AttrTest.Holds, textOf]
      · rw [hout y hyX, new y hy he]
        simp [hyX, AttrTest.Holds]) hh hu env
  obtain ⟨h3, r3, o3, hout3, hin3⟩ := C55_remove_attr_partial (X := res) (h := h2) (fun x hx => ⟨(hall x hx).2, t2 x (wf'.bound x (hall x hx).1) (hall x hx).2⟩) n hn
  have back : ∀ y, y < h.size → h.isElem y = true → Within h2 r y → ∀ k, viewOf (h3.node y).attrs k = viewOf (h.node y).attrs k := by
    intro y hy he hw k
    have k3 := (a2 y (by rw [o.size]; exact hy)).2.2.1
    by_cases hyX : y ∈ X
    · rw [(hin3 y ((hm y hy).2 ⟨hyX, hw⟩)).2 k, k3, (hin y hyX).2 k]
      by_cases hkn : SameIgnoringCase k n
      · rw [if_pos hkn, viewOf_same hkn, new y hy he]
      · rw [if_neg hkn, if_neg hkn]
    · rw [hout3 y (fun h4 => hyX ((hm y hy).1 h4).1), k3, hout y hyX]
  refine ⟨h2, res, h3, hr, hf, r3, o3, back, fun hz => ?_⟩
  have wf3 := o3.tree wf'
  have ev3 : Metas h3 r := metas_after (fun x hx he => t2 x (wf'.bound x hx) he) o3 hout3 fun x hx => (hin3 x hx).1
  have ho : Own [(.childrenAll, [Sim.attr n])] := ⟨by simp, by simp [Comb.down, Sim.own]⟩
  obtain ⟨res3, hf3⟩ := C19_find_basic_descendants (env := env) wf3 ev3 ho.basic (by simp) (nodes_root wf3) (docSorted_single r)
  rw [hf3]
  congr 1
  refine List.eq_nil_iff_forall_not_mem.2 fun y hy => ?_
  obtain ⟨m1, m2, m3⟩ := (one_compound wf3 ev3 ho hf3 y).1 hy
  have hw := o3.within.1 m1
  have hy' : y < h.size := hz ▸ wf'.bound y hw
  have he : h.isElem y = true := by
    rw [o3.isElem] at m2
    rw [← m2, ← o.isElem]; unfold Heap.isElem
    rw [(a2 y (by rw [o.size]; exact hy')).1]
  simp only [cmpdSat, Sim.Sat, HasAttr, and_true] at m3
  exact m3 (by rw [back y hy' he hw, new y hy' he])

end

/-! ## The hypotheses are satisfiable -/

def markName : List Char := "data-m".toList

/-- The `p` and an element in the other half of the document, marked. -/
def demo2Marked : Heap := match Heap.setAttr quoteEnc demo2 [2, 8] markName (some "1".toList) with | .ok h => h | .error _ => demo2

theorem demo2Marked_history : History ext0 demo2Marked noneUsed moveOps := noneUsed_eq ▸ histB_sound _ _ _ (by decide)

theorem demo2Marked_used : ¬ UsedAll ext0 demo2Marked noneUsed moveOps 0 := by
  rintro ((h | ⟨h, -⟩) | ⟨h, -⟩)
  · exact h
  · cases h
  · cases h

theorem demo2_unmarked : ∀ y, y < demo2.size → demo2.isElem y = true → viewOf (demo2.node y).attrs markName = none := by decide

/-- Both are moved; `[data-m=1]` finds both in their new order; and when the marks are taken off, `[data-m]` finds nothing. -/
example : ∃ h2 res h3, runAll ext0 demo2Marked moveOps = .ok h2 ∧ find h2 env0 [0] [[(.childrenAll, [.attrTest markName .equals "1".toList])]] = .ok res ∧ res = [8, 2] ∧
    (∀ y, y < demo2.size → (y ∈ res ↔ y ∈ [2, 8] ∧ Within h2 0 y)) ∧ Heap.removeAttr h2 res markName = .ok h3 ∧ find h3 env0 [0] [[(.childrenAll, [.attr markName])]] = .ok [] := by
  obtain ⟨h1, r1, -, k⟩ := C106_mark (X := [2, 8]) (r := 0) ext0_parse ext0_tables demo2_ok demo2_tables' (by decide) (by decide) (by decide) quoteEnc (n := markName)
    (v := "1".toList) (by decide) (by decide) (fun y hy he _ => by rw [demo2_unmarked y hy he]; simp) env0
  obtain ⟨h1', r1', k'⟩ := C106_unmark (X := [2, 8]) (r := 0) ext0_parse ext0_tables demo2_ok demo2_tables' (by decide) (by decide) (by decide) quoteEnc (n := markName)
    (v := "1".toList) (by decide) (by decide) (by decide) demo2_unmarked env0
  have e1 : h1 = demo2Marked := by unfold demo2Marked; rw [r1]
  have e1' : h1' = demo2Marked := by unfold demo2Marked; rw [r1']
  subst e1 e1'
  obtain ⟨h2, res, hr, hf, -, -, hm, -⟩ := k moveOps demo2Marked_history demo2Marked_used
  obtain ⟨h2', res', h3, hr', hf', r3, -, -, hz⟩ := k' moveOps demo2Marked_history demo2Marked_used
  rw [hr] at hr'; cases hr'
  rw [hf] at hf'; cases hf'
  have e2 : h2 = (match runAll ext0 demo2Marked moveOps with | .ok h => h | .error _ => demo2) := by rw [hr]
  refine ⟨h2, res, h3, hr, hf, ?_, hm, r3, hz (by rw [e2]; decide)⟩
  have hf2 : find h2 env0 [0] [[(.childrenAll, [.attrTest markName .equals "1".toList])]] = .ok [8, 2] := by rw [e2]; decide
  rw [hf] at hf2
  exact Except.ok.inj hf2

theorem demo2_plain : ∀ y, y < demo2.size → demo2.isElem y = true → viewOf (demo2.node y).attrs classKey = none := by decide

/-- With `add_class`. -/
example : ∃ h1, Heap.addClass quoteEnc demo2 [2, 8] "here".toList = .ok h1 ∧ ∀ ops, History ext0 h1 noneUsed ops → ¬ UsedAll ext0 h1 noneUsed ops 0 →
    ∃ h2 res, runAll ext0 h1 ops = .ok h2 ∧ find h2 env0 [0] [[(.childrenAll, [.cls "here".toList])]] = .ok res ∧ ∀ y, y < demo2.size → (y ∈ res ↔ y ∈ [2, 8] ∧ Within h2 0 y) := by
  obtain ⟨h1, r1, -, k⟩ := C106_mark_class (X := [2, 8]) (r := 0) (s := "here".toList) (c := "here".toList) (names := ["here".toList]) ext0_parse ext0_tables demo2_ok demo2_tables'
    (by decide) (by decide) (by decide) quoteEnc (tokens_iff.2 (by decide)) (by simp)
    (fun x hx => by
      have hv : viewOf (demo2.node x).attrs classKey = none := by
        simp only [List.mem_cons, List.not_mem_nil, or_false] at hx
        rcases hx with rfl | rfl
        · exact demo2_plain 2 (by decide) (by decide)
        · exact demo2_plain 8 (by decide) (by decide)
      unfold Clean
      rw [hv]
      decide)
    (fun y hy he _ l hl => by
      have hv := demo2_plain y hy he
      unfold ClassList at hl
      rw [show (['c', 'l', 'a', 's', 's'] : List Char) = classKey from rfl, hv] at hl
      simp only at hl
      simp [hl]) env0
  refine ⟨h1, r1, fun ops hh hu => ?_⟩
  obtain ⟨h2, res, hr, hf, -, -, hm, -⟩ := k ops hh hu
  exact ⟨h2, res, hr, hf, hm⟩

/-- C106 is about names without capital letters where the marks are taken off: under `Mark` the mark stays (`C08_fails_capital`). -/
theorem C106_fails_capital : ∃ h1 h2, Heap.setAttr quoteEnc demo2 [2] "Mark".toList (some "1".toList) = .ok h1 ∧ Heap.removeAttr h1 [2] "Mark".toList = .ok h2 ∧
    find h1 env0 [0] [[(.childrenAll, [.attr "Mark".toList])]] = .ok [2] ∧ find h2 env0 [0] [[(.childrenAll, [.attr "Mark".toList])]] = .ok [2] :=
  ⟨_, _, rfl, rfl, by decide, by decide⟩

end Visdom
