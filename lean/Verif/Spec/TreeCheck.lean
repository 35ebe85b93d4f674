import Verif.Spec.Tree
/-!
# A sufficient test for well formed trees

Used only to exhibit concrete trees beside the theorems.
-/
namespace Visdom.Spec

/-- A heap given by the list of its nodes. -/
def heapOf (l : List Node) : Heap := { size := l.length, node := fun i => l.getD i {} }

/-- An element node for examples. -/
def el (name : String) (parent index : Nat) (childs : List Nat := []) (attrs : Meta := {}) : Node :=
  { kind := .tag, name := name.toList, attrs := attrs, childs := some childs, parent := some parent, index := index, root := some 0 }

/-- A text node for examples. -/
def txt (s : String) (parent index : Nat) : Node :=
  { kind := .text, content := some s.toList, parent := some parent, index := index, root := some 0 }

/-- The root node for examples. -/
def rootN (childs : List Nat) : Node := { kind := .root, childs := some childs, root := some 0 }

/-- Every node below `size` satisfies the conditions of `TreeWF` and refers only to nodes below `size`. -/
def wfCheck (h : Heap) (r : Nat) : Bool :=
  decide (r < h.size) && (h.parent r == none) && ((h.node r).kind == .root) &&
  (List.range h.size).all fun x =>
    ((h.node x).kind != .root || x == r) &&
    ((h.node x).kind == .root || (h.node x).kind == .tag || (h.kids x).isEmpty) &&
    (List.range (h.kids x).length).all fun i =>
      match (h.kids x)[i]? with
      | some c => decide (c < h.size) && (h.parent c == some x) && (h.index c == i)
      | none => true

theorem wfCheck_sound {h : Heap} {r : Nat} (hc : wfCheck h r = true) : TreeWF h r := by
  simp only [wfCheck, Bool.and_eq_true, decide_eq_true_eq, beq_iff_eq, List.all_eq_true, List.mem_range,
    Bool.or_eq_true, bne_iff_ne, ne_eq] at hc
  obtain ⟨⟨⟨hr, hp⟩, hk⟩, hall⟩ := hc
  have hkid : ∀ p i c, p < h.size → (h.kids p)[i]? = some c → c < h.size ∧ h.parent c = some p ∧ h.index c = i := by
    intro p i c hp hi
    have hl : i < (h.kids p).length := by
      rcases Nat.lt_or_ge i (h.kids p).length with h1 | h1
      · exact h1
      · rw [List.getElem?_eq_none h1] at hi; cases hi
    have := (hall p hp).2 i hl
    rw [hi] at this
    simpa [and_assoc] using this
  have hb : ∀ x, Within h r x → x < h.size := by
    intro x hx
    induction hx with
    | self => exact hr
    | step _ hc ih =>
      obtain ⟨i, hi⟩ := List.getElem?_of_mem hc
      exact (hkid _ _ _ ih hi).1
  refine ⟨hp, hk, ?_, ?_, ?_, hb⟩
  · intro x hx hxk
    rcases (hall x (hb x hx)).1.1 with h1 | h1
    · exact absurd hxk h1
    · exact h1
  · intro x hx h1 h2
    rcases (hall x (hb x hx)).1.2 with (h3 | h3) | h3
    · exact absurd h3 h1
    · exact absurd h3 h2
    · simpa using h3
  · intro p i c hp hi
    exact (hkid p i c (hb p hp) hi).2

theorem wfCheck_within {h : Heap} {r x : Nat} (l : List Nat)
    (hl : (l.zip (l.tail ++ [x])).all (fun e => (h.kids e.1).contains e.2) = true) (h0 : l.head? = some r) :
    Within h r x := by
  induction l generalizing r with
  | nil => cases h0
  | cons a l ih =>
    obtain rfl : a = r := by simpa using h0
    cases l with
    | nil => simp at hl; exact .step .self hl
    | cons b l =>
      simp only [List.tail_cons, List.cons_append, List.zip_cons_cons, List.all_cons, Bool.and_eq_true] at hl
      have hb : b ∈ h.kids a := by simpa using hl.1
      have := ih (r := b) (by simpa using hl.2) rfl
      have key : ∀ {y z}, Within h y z → y ∈ h.kids a → Within h a z := by
        intro y z hw hy
        induction hw with
        | self => exact .step .self hy
        | step _ hc ih2 => exact .step ih2 hc
      exact key this hb

/-- Example tree used beside the theorems:
`root(0)[ div(1)[ p(2)[ text(3) ], text(4), div(5)[ p(6)[], span(7)[] ] ], ul(8)[ li(9)[] ] ]`. -/
def demo : Heap := heapOf
  [ rootN [1, 8],
    el "div" 0 0 [2, 4, 5],
    el "p" 1 0 [3],
    txt "a" 2 0,
    txt "b" 1 1,
    el "div" 1 2 [6, 7],
    el "p" 5 0,
    el "span" 5 1,
    el "ul" 0 1 [9],
    el "li" 8 0 ]

theorem demo_wf : TreeWF demo 0 := wfCheck_sound (by decide)

end Visdom.Spec
