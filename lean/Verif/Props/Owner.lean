import Verif.Props.Alive
import Verif.Props.Reports
/-!
# C74: the document of a set
-/
namespace Visdom
open Spec

variable {h : Heap} {docs : List Nat}

open scoped Classical in
/-- The answer is the link to the root as the program sees it. -/
theorem ownerDocument_seen {M : Holds} {x : Nat} (hx : Live h M x) : h.ownerDocument M.docs x = ((seenHeap h M).node x).root := by
  simp only [Heap.ownerDocument, seenHeap, if_pos hx, seenNode]
  cases (h.node x).root with
  | none => rfl
  | some r =>
    by_cases hr : r ∈ M.docs
    · simp [Option.filter, hr, Live.doc hr]
    · simp [Option.filter, hr]

theorem ownerDocument_iff {x r : Nat} : h.ownerDocument docs x = some r ↔ (h.node x).root = some r ∧ r ∈ docs := by
  unfold Heap.ownerDocument
  cases (h.node x).root with
  | none => simp
  | some q =>
    by_cases hq : q ∈ docs
    · simp only [Option.filter, List.contains_iff_mem.2 hq, if_true, Option.some.injEq]
      exact ⟨fun e => ⟨e, e ▸ hq⟩, fun e => e.1⟩
    · have : docs.contains q = false := by simpa using hq
      simp only [Option.filter, this, Bool.false_eq_true, if_false, Option.some.injEq, false_iff, reduceCtorEq]
      rintro ⟨rfl, h2⟩
      exact hq h2

/-- C74, exactly: `document()` answers with a document iff some element of the set was loaded with it, the program holds it, and no
element before it in the set was loaded with a document that is held. -/
theorem C74_document_exact {X : List Nat} {r : Nat} :
    documentOf h docs X = some r ↔ r ∈ docs ∧ ∃ A x B, X = A ++ x :: B ∧ (h.node x).root = some r ∧
      ∀ a ∈ A, ∀ q, (h.node a).root = some q → q ∉ docs := by
  unfold documentOf
  induction X with
  | nil => simp
  | cons y X ih =>
    rw [List.findSome?_cons]
    cases ho : h.ownerDocument docs y with
    | some q =>
      obtain ⟨h1, h2⟩ := ownerDocument_iff.1 ho
      simp only [Option.some.injEq]
      constructor
      · rintro rfl
        exact ⟨h2, [], y, X, rfl, h1, by simp⟩
      · rintro ⟨_, A, x, B, he, hx, hA⟩
        cases A with
        | nil =>
          simp only [List.nil_append, List.cons.injEq] at he
          rw [← he.1, h1] at hx
          exact Option.some.inj hx
        | cons a A =>
          simp only [List.cons_append, List.cons.injEq] at he
          exact absurd h2 (hA a (by simp) q (he.1 ▸ h1))
    | none =>
      have hno : ∀ q, (h.node y).root = some q → q ∉ docs := fun q h1 h2 => by
        rw [ownerDocument_iff.2 ⟨h1, h2⟩] at ho; cases ho
      rw [ih]
      refine and_congr_right fun hr => ⟨?_, ?_⟩
      · rintro ⟨A, x, B, rfl, hx, hA⟩
        refine ⟨y :: A, x, B, rfl, hx, fun a ha => ?_⟩
        rcases List.mem_cons.1 ha with rfl | ha
        · exact hno
        · exact hA a ha
      · rintro ⟨A, x, B, he, hx, hA⟩
        cases A with
        | nil =>
          simp only [List.nil_append, List.cons.injEq] at he
          exact absurd hr (hno r (he.1 ▸ hx))
        | cons a A =>
          simp only [List.cons_append, List.cons.injEq] at he
          exact ⟨A, x, B, he.2, hx, fun a ha => hA a (by simp [ha])⟩

/-- C74 for a set of nodes that all know the root: their document as long as the program holds it, otherwise nothing. -/
theorem C74_document {X : List Nat} {r : Nat} (hne : X ≠ []) (hX : ∀ x ∈ X, (h.node x).root = some r) :
    documentOf h docs X = if r ∈ docs then some r else none := by
  by_cases hr : r ∈ docs
  · rw [if_pos hr]
    obtain ⟨x, B, rfl⟩ := List.exists_cons_of_ne_nil hne
    exact C74_document_exact.2 ⟨hr, [], x, B, rfl, hX x (by simp), by simp⟩
  · rw [if_neg hr]
    cases hd : documentOf h docs X with
    | none => rfl
    | some q =>
      obtain ⟨h1, A, x, B, rfl, hx, _⟩ := C74_document_exact.1 hd
      rw [hX x (by simp)] at hx
      cases hx
      exact absurd h1 hr

/-- C74, the part that holds for ever: a document is loaded, then anything is done - mutations, other documents loaded. A set of nodes of
the document, wherever they are by then, gives the document as long as it is held. -/
theorem C74_after {e : Ext} {H : Handlers} {p : DocParser} (P : ParseOk e) (Q : DocOk p) {s : List Char} {k r : Nat} {h1 : Heap}
    (hp : p h s = .ok (h1, r)) {evs : List Event} {w : Heap × Handlers}
    (hev : eventAll e p ((loadOptionsCatch p h H s k).heap, (loadOptionsCatch p h H s k).handlers) evs = .ok w) {X : List Nat}
    (hne : X ≠ []) (hX : ∀ x ∈ X, h.size ≤ x ∧ x < h1.size) :
    documentOf w.1 docs X = if r ∈ docs then some r else none := by
  refine C74_document hne fun x hx => ?_
  obtain ⟨_, _, l3, _⟩ := C68_load_ok (H := H) k hp
  obtain ⟨_, _, _, _, q5⟩ := Q h s h1 r hp
  obtain ⟨_, a2⟩ := hears_events P Q evs _ _ hev
  rw [l3] at a2
  rw [(a2 x (hX x hx).2).1]
  exact q5 x (hX x hx).1 (hX x hx).2

/-- C74: when a document is dropped, sets without a node loaded with it answer as before. -/
theorem C74_dropped {X : List Nat} {r : Nat} (hX : ∀ x ∈ X, (h.node x).root ≠ some r) :
    documentOf h (docs.filter (· ≠ r)) X = documentOf h docs X := by
  unfold documentOf
  induction X with
  | nil => rfl
  | cons x X ih =>
    have : h.ownerDocument (docs.filter (· ≠ r)) x = h.ownerDocument docs x := by
      refine Option.ext fun q => ?_
      rw [ownerDocument_iff, ownerDocument_iff, List.mem_filter]
      refine and_congr_right fun hq => ?_
      have : q ≠ r := fun e => hX x (by simp) (e ▸ hq)
      simp [this]
    rw [List.findSome?_cons, List.findSome?_cons, this, ih fun y hy => hX y (by simp [hy])]

/-! ### Examples -/

/-- A set over two documents, the first of which is not held any more. -/
example : documentOf twoDocs [0, 3] [2, 4] = some 0 ∧ documentOf twoDocs [3] [2, 4] = some 3 ∧ documentOf twoDocs [] [2, 4] = none ∧
    (∀ x ∈ [1, 2], (twoDocs.node x).root = some 0) ∧ ∀ x ∈ [1, 2], (twoDocs.node x).root ≠ some 3 := by decide

/-- A text is loaded, moved into the first document, and another document is loaded: its document is still the one it was loaded with. -/
example : ∃ w, eventAll ext0 docParse0 ((loadOptionsCatch docParse0 twoDocs handlers2 ['x'] 5).heap,
      (loadOptionsCatch docParse0 twoDocs handlers2 ['x'] 5).handlers) [.op (.insert .beforeEnd 2 6), .load ['y'] 9] = .ok w ∧
    documentOf w.1 [0, 5] [6] = some 5 ∧ w.1.parent 6 = some 2 := by
  refine ⟨_, rfl, by rfl, by rfl⟩

/-- C74 does not hold in full: `b` has been moved into the first document, but its document is the one it came from, and none if
that is gone. -/
theorem C74_fails_moved : ∃ h', twoDocs.insertAdjacent ext0 .beforeEnd 1 4 = .ok h' ∧ h'.kids 1 = [2, 4] ∧ h'.parent 1 = some 0 ∧
    documentOf h' [0, 3] [4] = some 3 ∧ documentOf h' [0] [4] = none := by
  refine ⟨_, rfl, by rfl, by rfl, by rfl, by rfl⟩

/-- C74 does not hold in full: nodes made by `set_html` and `set_text` have no document, though they are in one that is held. -/
theorem C74_fails_made :
    (∃ h' c, twoDocs.setHtml ext0 1 ['x'] = .ok h' ∧ h'.kids 1 = [c] ∧ h'.parent 1 = some 0 ∧ documentOf h' [0, 3] [c] = none) ∧
    (∃ h' c, twoDocs.setText ext0 1 ['x'] = h' ∧ h'.kids 1 = [c] ∧ h'.parent 1 = some 0 ∧ documentOf h' [0, 3] [c] = none) :=
  ⟨⟨_, 6, rfl, by rfl, by rfl, by rfl⟩, ⟨_, 5, rfl, by rfl, by rfl, by rfl⟩⟩

end Visdom
