import Verif.Spec.Mutate
import Verif.Spec.TreeCheck
/-!
# Sample heaps and parsers for the examples beside the theorems about mutations
-/
namespace Visdom.Spec

/-- No fragment has been used. -/
def noneUsed : Nat → Prop := fun _ => False

instance : DecidablePred noneUsed := fun _ => .isFalse id

/-- A sufficient test for `HeapOk`: parents have smaller numbers. -/
def okCheck (l : List Node) : Bool :=
  (List.range l.length).all fun x =>
    (((heapOf l).node x).kind != .root || ((heapOf l).parent x == none)) &&
    (((heapOf l).node x).kind == .root || ((heapOf l).node x).kind == .tag || ((heapOf l).kids x).isEmpty) &&
    (match (heapOf l).parent x with
      | none => true
      | some p => decide (p < x)) &&
    (List.range ((heapOf l).kids x).length).all fun i =>
      match ((heapOf l).kids x)[i]? with
      | some c => ((heapOf l).parent c == some x) && ((heapOf l).index c == i) && (((heapOf l).node c).kind != .root)
      | none => true

theorem heapOf_out {l : List Node} {x : Nat} (hx : l.length ≤ x) : (heapOf l).node x = {} := by
  simp [heapOf, hx]

theorem okCheck_sound {l : List Node} (hc : okCheck l = true) : HeapOk (heapOf l) noneUsed := by
  simp only [okCheck, Bool.and_eq_true, beq_iff_eq, List.all_eq_true, List.mem_range,
    Bool.or_eq_true, bne_iff_ne, ne_eq] at hc
  have hsz : (heapOf l).size = l.length := rfl
  have hout : ∀ x, l.length ≤ x → (heapOf l).kids x = [] ∧ (heapOf l).parent x = none := by
    intro x hx
    unfold Heap.kids Heap.parent
    rw [heapOf_out hx]
    exact ⟨rfl, rfl⟩
  have hkid : ∀ p i c, ((heapOf l).kids p)[i]? = some c →
      (heapOf l).parent c = some p ∧ (heapOf l).index c = i ∧ ((heapOf l).node c).kind ≠ .root := by
    intro p i c hi
    rcases Nat.lt_or_ge p l.length with hp | hp
    · have hl : i < ((heapOf l).kids p).length := by
        rcases Nat.lt_or_ge i ((heapOf l).kids p).length with h1 | h1
        · exact h1
        · rw [List.getElem?_eq_none h1] at hi; cases hi
      have := (hc p hp).2 i hl
      rw [hi] at this
      simpa [and_assoc] using this
    · rw [(hout p hp).1] at hi; simp at hi
  have hlt : ∀ x p, (heapOf l).parent x = some p → p < x ∧ x < l.length := by
    intro x p hp
    rcases Nat.lt_or_ge x l.length with hx | hx
    · have := (hc x hx).1.2
      rw [hp] at this
      exact ⟨by simpa using this, hx⟩
    · rw [(hout x hx).2] at hp; cases hp
  refine ⟨fun p i c _ hi => ⟨(hkid p i c hi).1, (hkid p i c hi).2.1⟩, fun p c _ hi => ?_, fun x hx => ?_, fun x h1 h2 => ?_,
    fun x p hp => ?_, ?_, fun x hx => hx.elim⟩
  · obtain ⟨i, hi⟩ := List.getElem?_of_mem hi
    exact (hkid p i c hi).2.2
  · rcases Nat.lt_or_ge x l.length with h1 | h1
    · rcases (hc x h1).1.1.1 with h2 | h2
      · exact absurd hx h2
      · exact h2
    · exact (hout x h1).2
  · rcases Nat.lt_or_ge x l.length with h3 | h3
    · rcases (hc x h3).1.1.2 with (h4 | h4) | h4
      · exact absurd h4 h1
      · exact absurd h4 h2
      · simpa using h4
    · exact (hout x h3).1
  · have := hlt x p hp
    rw [hsz]
    omega
  · exact Subrelation.wf (fun {a b} hab => (hlt b a hab).1) Nat.lt_wfRel.wf

/-- `demo` with a fragment `[ b(11)[], i(12)[ em(13)[] ] ]` of its own, with root 10. -/
def demoFrag : List Node :=
  [ rootN [1, 8],
    el "div" 0 0 [2, 4, 5],
    el "p" 1 0 [3],
    txt "a" 2 0,
    txt "b" 1 1,
    el "div" 1 2 [6, 7],
    el "p" 5 0,
    el "span" 5 1,
    el "ul" 0 1 [9],
    el "li" 8 0,
    rootN [11, 12],
    el "b" 10 0,
    el "i" 10 1 [13],
    el "em" 12 0 ]

/-- The heap of `demoFrag`. -/
def demo2 : Heap := heapOf demoFrag

theorem demo2_ok : HeapOk demo2 noneUsed := okCheck_sound (by decide)

/-- A parser for examples: every text is parsed to one text node, the empty text to nothing. -/
def parse0 (h : Heap) (s : List Char) : R (Heap × Nat) :=
  let r := h.size
  let c := h.size + 1
  if s.isEmpty then
    .ok ({ size := h.size + 1, node := fun y => if y = r then { kind := .root, root := some r } else h.node y }, r)
  else
    .ok ({ size := h.size + 2, node := fun y =>
      if y = r then { kind := .root, childs := some [c], root := some r }
      else if y = c then { kind := .text, content := some s, parent := some r, root := some r }
      else h.node y }, r)

/-- rphtml's functions, for examples: node 0 is the document, a `br` may not have children. -/
def ext0 : Ext where
  isDoc := fun _ x => x == 0
  allow := fun name _ => name != "br".toList
  contentTag := fun name => name == "textarea".toList
  encode := id
  parse := parse0

/-- A new node without parent. -/
theorem alloc_root {h h' : Heap} {D : Nat → Prop} (ok : HeapOk h D) {r : Nat} (hr : r = h.size) {nd : Node}
    (hk : nd.kind = .root) (hp : nd.parent = none) (hch : nd.childs = none) (hsz : h'.size = h.size + 1)
    (hn : ∀ y, h'.node y = if y = r then nd else h.node y) : HeapOk h' D := by
  have hD : ∀ q, D q → q ≠ r := fun q hq => by have := (ok.dead q hq).2; omega
  have hold : ∀ y, y ≠ r → h'.node y = h.node y := fun y hy => by rw [hn, if_neg hy]
  have hks : h.kids r = [] := by
    rw [List.eq_nil_iff_forall_not_mem]
    intro c hc
    obtain ⟨i, hi⟩ := List.getElem?_of_mem hc
    have := (ok.bound c r (ok.link r i c (fun h1 => hD _ h1 rfl) hi).1).2
    omega
  have hps : h.parent r = none := by
    cases h1 : h.parent r with
    | none => rfl
    | some p => have := (ok.bound r p h1).1; omega
  have hkids : ∀ y, h'.kids y = h.kids y := by
    intro y
    by_cases e1 : y = r
    · subst e1; rw [hks]; unfold Heap.kids; rw [hn, if_pos rfl, hch]; rfl
    · unfold Heap.kids; rw [hold y e1]
  have hpar : ∀ y, h'.parent y = h.parent y := by
    intro y
    by_cases e1 : y = r
    · subst e1; rw [hps]; unfold Heap.parent; rw [hn, if_pos rfl, hp]
    · unfold Heap.parent; rw [hold y e1]
  have hne : ∀ (p i c : Nat), ¬ D p → (h.kids p)[i]? = some c → c ≠ r := by
    rintro p i c hp hi rfl
    have := (ok.bound _ p (ok.link p i _ hp hi).1).1
    omega
  refine ⟨fun p i c h1 hi => ?_, fun p c h1 hc => ?_, fun x hx => ?_, fun x h1 h2 => ?_, fun x p h1 => ?_, ?_, fun x hx => ?_⟩
  · rw [hkids] at hi
    have := ok.link p i c h1 hi
    rw [hpar]
    refine ⟨this.1, ?_⟩
    unfold Heap.index
    rw [hold c (hne p i c h1 hi)]
    exact this.2
  · rw [hkids] at hc
    obtain ⟨i, hi⟩ := List.getElem?_of_mem hc
    rw [hold c (hne p i c h1 hi)]
    exact ok.kid p c h1 hc
  · rw [hpar]
    by_cases e1 : x = r
    · subst e1; exact hps
    · rw [hold x e1] at hx; exact ok.top x hx
  · rw [hkids]
    by_cases e1 : x = r
    · subst e1; exact hks
    · rw [hold x e1] at h1 h2; exact ok.leaf x h1 h2
  · rw [hpar] at h1
    have := ok.bound x p h1
    omega
  · have : (fun p x => h'.parent x = some p) = fun p x => h.parent x = some p := by funext p x; rw [hpar]
    rw [this]; exact ok.ground
  · have := ok.dead x hx
    rw [hold x (hD x hx)]
    exact ⟨this.1, by omega⟩

end Visdom.Spec
