import Verif.Props.InsertMany
import Verif.Proofs.Kept
import Verif.Spec.Reports
/-!
# C68: error reports of mutations, and loading
-/
namespace Visdom
open Spec

section
variable {h : Heap} {D : Nat → Prop} {e : Ext} {H : Handlers}

theorem halt_hears {x k : Nat} (hk : Hears h H x k) (m : String) : h.halt H x m = [⟨k, .method m⟩] := by
  obtain ⟨r, h1, h2⟩ := hk
  simp only [Heap.halt, h1, h2]

theorem halt_unheard {x : Nat} (hk : Unheard h H x) (m : String) : h.halt H x m = [] := by
  unfold Heap.halt
  split
  · rfl
  · rename_i r h1
    rw [hk r h1]

theorem validateR_eq (t n : Nat) (m : String) :
    h.validateR H e t n m = (h.validate e t n).map fun b => (b, if b then [] else h.halt H t m) := by
  unfold Heap.validateR Heap.validate
  split
  · rfl
  split
  · rfl
  split
  · rfl
  cases h.hasAncestor (h.size + 1) t n with
  | error x => rfl
  | ok b => cases b <;> rfl

theorem insertAdjacentR_refused (ok : HeapOk h D) (pos : InsertPosition) {t n : Nat} (ha : ¬ Accepted e h t n) :
    h.insertAdjacentR H e pos t n = .ok (h, h.halt H t pos.action) := by
  simp only [Heap.insertAdjacentR, validateR_eq, (Accepted.validate (e := e) ok).2 ha, Except.map]
  rfl

/-- C68: counting the reports does not change what an insertion does. -/
theorem C68_same_effect (pos : InsertPosition) (dest X : List Nat) (h : Heap) :
    (insertAllR H e pos dest h X).map (·.1) = insertAll e pos dest h X := by
  have one : ∀ (h : Heap) (t n : Nat), (h.insertAdjacentR H e pos t n).map (·.1) = h.insertAdjacent e pos t n := by
    intro h t n
    simp only [Heap.insertAdjacentR, Heap.insertAdjacent, validateR_eq]
    cases h.validate e t n with
    | error x => rfl
    | ok b =>
      cases b with
      | false => rfl
      | true =>
        simp only [Except.map]
        cases h.takeNodes e n with
        | error x => rfl
        | ok p => simp only []; cases p.1.placeNodes e pos t p.2 <;> rfl
  have loop : ∀ (l : List Nat) (h : Heap) (t : Nat), (insertLoopR H e pos t h l).map (·.1) = insertLoop e pos t h l := by
    intro l
    induction l with
    | nil => intro h t; rfl
    | cons n l ih =>
      intro h t
      simp only [insertLoopR, insertLoop, ← one]
      cases h.insertAdjacentR H e pos t n with
      | error x => rfl
      | ok p =>
        simp only [Except.map, ← ih]
        cases insertLoopR H e pos t p.1 l <;> rfl
  induction X generalizing h with
  | nil => rfl
  | cons t X ih =>
    simp only [insertAllR, insertAll, ← loop]
    cases insertLoopR H e pos t h dest.reverse with
    | error x => rfl
    | ok p =>
      simp only [Except.map, ← ih]
      cases insertAllR H e pos dest p.1 X <;> rfl

/-- C68: an insertion that makes sense reports nothing. -/
theorem C68_accepted (ok : HeapOk h D) (pos : InsertPosition) {t n : Nat} (ha : Accepted e h t n) {h' : Heap} {l : List Report}
    (hr : h.insertAdjacentR H e pos t n = .ok (h', l)) : l = [] := by
  simp only [Heap.insertAdjacentR, validateR_eq, (Accepted.validate (e := e) ok).1 ha, Except.map] at hr
  repeat' split at hr
  all_goals cases hr <;> first | rfl | simp_all

/-- C68, the part that holds: an insertion that makes no sense - into the own subtree, into something that is not an element, of a
document - calls the handler of the document that the target was loaded with exactly once, with the name of the action, and changes
nothing. Missing: the document that the target is in now, when it was moved (`C68_fails_moved`) or made by `set_html` or `set_text`
(`C68_fails_made`). -/
theorem C68_refused_partial (ok : HeapOk h D) (pos : InsertPosition) {t n k : Nat} (ha : ¬ Accepted e h t n) (hk : Hears h H t k) :
    h.insertAdjacentR H e pos t n = .ok (h, [⟨k, .method pos.action⟩]) := by
  rw [insertAdjacentR_refused ok pos ha, halt_hears hk]

/-- C68: without a handler the refusal is silent, and nothing happens. -/
theorem C68_unheard (ok : HeapOk h D) (pos : InsertPosition) {t n : Nat} (ha : ¬ Accepted e h t n) (hk : Unheard h H t) :
    h.insertAdjacentR H e pos t n = .ok (h, []) := by
  rw [insertAdjacentR_refused ok pos ha, halt_unheard hk]

theorem insertLoopR_refused (ok : HeapOk h D) (pos : InsertPosition) {t k : Nat} (hk : Hears h H t k) : ∀ (l : List Nat),
    (∀ n ∈ l, ¬ Accepted e h t n) → insertLoopR H e pos t h l = .ok (h, l.map fun _ => ⟨k, .method pos.action⟩)
  | [], _ => rfl
  | n :: l, hl => by
    simp only [insertLoopR, C68_refused_partial ok pos (hl n (by simp)) hk,
      insertLoopR_refused ok pos hk l fun m hm => hl m (by simp [hm]), Except.map]
    rfl

/-- C68 for sets: when no pair makes sense, the handlers are called once for every pair, target by target. -/
theorem C68_refused_all_partial (ok : HeapOk h D) (pos : InsertPosition) {dest : List Nat} (k : Nat → Nat) :
    ∀ (X : List Nat), (∀ t ∈ X, Hears h H t (k t)) → (∀ t ∈ X, ∀ n ∈ dest, ¬ Accepted e h t n) →
      insertAllR H e pos dest h X = .ok (h, X.flatMap fun t => dest.map fun _ => ⟨k t, .method pos.action⟩)
  | [], _, _ => rfl
  | t :: X, hk, ha => by
    simp only [insertAllR, insertLoopR_refused ok pos (hk t (by simp)) dest.reverse
      (fun n hn => ha t (by simp) n (List.mem_reverse.1 hn)),
      C68_refused_all_partial ok pos k X (fun t ht => hk t (by simp [ht])) (fun t ht => ha t (by simp [ht])), Except.map]
    simp only [List.flatMap_cons, List.map_const', List.length_reverse]

/-- C68, texts: emptying a text or a comment with `set_text` is refused and reported once; every other call of `set_text` is silent
and does what `set_text` does. -/
theorem C68_set_text_partial (x : Nat) (s : List Char) :
    ((s = [] ∧ ((h.node x).kind = .text ∨ (h.node x).kind = .spaces ∨ (h.node x).kind = .comment)) →
      (∀ k, Hears h H x k → h.setTextR H e x s = (h, [⟨k, .method "set_text"⟩])) ∧ (Unheard h H x → h.setTextR H e x s = (h, []))) ∧
    (¬ (s = [] ∧ ((h.node x).kind = .text ∨ (h.node x).kind = .spaces ∨ (h.node x).kind = .comment)) →
      h.setTextR H e x s = (h.setText e x s, [])) := by
  constructor
  · rintro ⟨rfl, hk⟩
    have : h.setTextR H e x [] = (h, h.halt H x "set_text") := by
      unfold Heap.setTextR
      rcases hk with hk | hk | hk <;> rw [hk] <;> rfl
    exact ⟨fun k hh => by rw [this, halt_hears hh], fun hh => by rw [this, halt_unheard hh]⟩
  · intro hn
    unfold Heap.setTextR
    cases s with
    | nil =>
      cases hk : (h.node x).kind <;> first | rfl | exact absurd ⟨rfl, by simp [hk]⟩ hn
    | cons a s => cases (h.node x).kind <;> rfl

/-! ### Loading -/

/-- C68: when the text cannot be parsed, `load_catch` calls its handler exactly once with the error and gives the empty set, `load`
gives the error; nothing else happens. -/
theorem C68_load_failed {p : DocParser} {s msg : List Char} (k : Nat) (hp : p h s = .error msg) :
    (loadOptionsCatch p h H s k).reports = [⟨k, .parse msg⟩] ∧ (loadOptionsCatch p h H s k).set = [] ∧
      (loadOptionsCatch p h H s k).heap = h ∧ (loadOptionsCatch p h H s k).handlers = H ∧ loadOptions p h s = .error msg := by
  simp [loadOptionsCatch, loadOptions, hp, Except.map]

/-- C68: otherwise nothing is reported and both give the set of the root of the new document. -/
theorem C68_load_ok {p : DocParser} {s : List Char} (k : Nat) {h' : Heap} {r : Nat} (hp : p h s = .ok (h', r)) :
    (loadOptionsCatch p h H s k).reports = [] ∧ (loadOptionsCatch p h H s k).set = [r] ∧ (loadOptionsCatch p h H s k).heap = h' ∧
      loadOptions p h s = .ok (h', [r]) ∧ (loadOptionsCatch p h H s k).handlers r = some k ∧
      ∀ q, q ≠ r → (loadOptionsCatch p h H s k).handlers q = H q := by
  simp only [loadOptionsCatch, loadOptions, hp, Except.map, true_and, if_true]
  exact fun q hq => if_neg hq

theorem hears_event {p : DocParser} (P : ParseOk e) (Q : DocOk p) {w w' : Heap × Handlers} {ev : Event} (hr : ev.run e p w = .ok w') :
    w.1.size ≤ w'.1.size ∧ ∀ y < w.1.size, (w'.1.node y).root = (w.1.node y).root ∧ ∀ r < w.1.size, w'.2 r = w.2 r := by
  cases ev with
  | op op =>
    simp only [Event.run] at hr
    cases ho : op.run e w.1 with
    | error x => rw [ho] at hr; cases hr
    | ok h1 =>
      rw [ho] at hr
      cases hr
      have := runAll_same P [op] w.1 h1 (by simp only [runAll, ho])
      exact ⟨this.1, fun y hy => ⟨(this.2.1 y hy).2.2.2, fun _ _ => rfl⟩⟩
  | load s k =>
    simp only [Event.run] at hr
    cases hp : p w.1 s with
    | error msg =>
      simp only [loadOptionsCatch, hp] at hr
      cases hr
      exact ⟨Nat.le_refl _, fun y _ => ⟨rfl, fun _ _ => rfl⟩⟩
    | ok q =>
      simp only [loadOptionsCatch, hp] at hr
      cases hr
      obtain ⟨q1, q2, q3, _⟩ := Q w.1 s q.1 q.2 hp
      refine ⟨q1, fun y hy => ⟨by simp only [q2 y hy], fun r hr => ?_⟩⟩
      simp only []
      rw [if_neg (by omega)]

theorem hears_events {p : DocParser} (P : ParseOk e) (Q : DocOk p) : ∀ (evs : List Event) (w w' : Heap × Handlers),
    eventAll e p w evs = .ok w' →
      w.1.size ≤ w'.1.size ∧ ∀ y < w.1.size, (w'.1.node y).root = (w.1.node y).root ∧ ∀ r < w.1.size, w'.2 r = w.2 r
  | [], w, w', hr => by cases hr; exact ⟨Nat.le_refl _, fun y _ => ⟨rfl, fun _ _ => rfl⟩⟩
  | ev :: evs, w, w', hr => by
    simp only [eventAll] at hr
    split at hr
    · cases hr
    · rename_i w1 h1
      obtain ⟨a1, a2⟩ := hears_event P Q h1
      obtain ⟨b1, b2⟩ := hears_events P Q evs w1 w' hr
      refine ⟨by omega, fun y hy => ?_⟩
      obtain ⟨c1, c2⟩ := a2 y hy
      obtain ⟨d1, d2⟩ := b2 y (by omega)
      exact ⟨d1.trans c1, fun r hr => (d2 r (by omega)).trans (c2 r hr)⟩

/-- C68, the part that holds for ever: a document is loaded with a handler, then anything is done - mutations, other documents loaded
with other handlers. The handler still hears of the errors that concern the nodes of the document, of each exactly once, wherever the
nodes are by then. -/
theorem C68_heard_partial {p : DocParser} (P : ParseOk e) (Q : DocOk p) {s : List Char} {k r : Nat} {h1 : Heap} (hp : p h s = .ok (h1, r))
    {evs : List Event} {w : Heap × Handlers}
    (hev : eventAll e p ((loadOptionsCatch p h H s k).heap, (loadOptionsCatch p h H s k).handlers) evs = .ok w)
    (ok : HeapOk w.1 D) {t : Nat} (ht : h.size ≤ t ∧ t < h1.size) :
    Hears w.1 w.2 t k ∧ ∀ (pos : InsertPosition) (n : Nat), ¬ Accepted e w.1 t n →
      w.1.insertAdjacentR w.2 e pos t n = .ok (w.1, [⟨k, .method pos.action⟩]) := by
  obtain ⟨l1, l2, l3, l4, l5, l6⟩ := C68_load_ok (H := H) k hp
  obtain ⟨q1, q2, q3, q4, q5⟩ := Q h s h1 r hp
  obtain ⟨a1, a2⟩ := hears_events P Q evs _ _ hev
  rw [l3] at a1 a2
  obtain ⟨b1, b2⟩ := a2 t ht.2
  have : Hears w.1 w.2 t k := ⟨r, by rw [b1]; exact q5 t ht.1 ht.2, by rw [b2 r q4]; exact l5⟩
  exact ⟨this, fun pos n ha => C68_refused_partial ok pos ha this⟩

end

/-! ### Examples -/

/-- Two documents: `div(1)[ p(2) ]` with root 0, and `b(4)` with root 3. -/
def twoDocs : Heap := heapOf
  [ rootN [1], el "div" 0 0 [2], el "p" 1 0, { rootN [4] with root := some 3 }, { el "b" 3 0 with root := some 3 } ]

theorem twoDocs_ok : HeapOk twoDocs noneUsed := okCheck_sound (by decide)

/-- The first document has handler 7, the second one handler 8. -/
def handlers2 : Handlers := fun r => if r = 0 then some 7 else if r = 3 then some 8 else none

/-- `p.append(div)` is refused and reported to handler 7. -/
example : twoDocs.insertAdjacentR handlers2 ext0 .beforeEnd 2 1 = .ok (twoDocs, [⟨7, .method "append"⟩]) :=
  C68_refused_partial twoDocs_ok .beforeEnd (fun ha => ha.2.2.2 (.parent rfl)) ⟨0, rfl, rfl⟩

example : insertAllR handlers2 ext0 .beforeEnd [1, 0] twoDocs [2, 2] =
    .ok (twoDocs, [⟨7, .method "append"⟩, ⟨7, .method "append"⟩, ⟨7, .method "append"⟩, ⟨7, .method "append"⟩]) := by
  refine C68_refused_all_partial (D := noneUsed) twoDocs_ok .beforeEnd (fun _ => 7) [2, 2] (fun t ht => ?_) fun t ht n hn ha => ?_
  · obtain rfl : t = 2 := by simpa using ht
    exact ⟨0, rfl, rfl⟩
  · obtain rfl : t = 2 := by simpa using ht
    simp only [List.mem_cons, List.not_mem_nil, or_false] at hn
    rcases hn with rfl | rfl
    · exact ha.2.2.2 (.parent rfl)
    · exact ha.2.1 ⟨rfl, rfl⟩

example : Accepted ext0 twoDocs 2 4 ∧ (twoDocs.insertAdjacentR handlers2 ext0 .beforeEnd 2 4).map (·.2) = .ok [] := by
  refine ⟨(validate_sound (b := true) (by decide)).1 rfl, by rfl⟩

/-- A parser of documents for examples: as `parse0`, but the text `<` is an error. -/
def docParse0 : DocParser := fun h s =>
  if s = ['<'] then .error "unexpected end".toList
  else match parse0 h s with
    | .ok q => .ok q
    | .error _ => .error []

theorem docParse0_ok : DocOk docParse0 := by
  intro h s h' r hp
  unfold docParse0 at hp
  split at hp
  · cases hp
  split at hp
  · rename_i q hq
    cases hp
    simp only [parse0] at hq
    split at hq <;> cases hq <;> refine ⟨by simp, fun y hy => ?_, Nat.le_refl _, by simp, fun y h1 h2 => ?_⟩ <;> simp only [] at *
    · rw [if_neg (by omega)]
    · rw [if_pos (by omega)]
    · rw [if_neg (by omega), if_neg (by omega)]
    · split
      · rfl
      · rw [if_pos (by omega)]
  · cases hp

example : (loadOptionsCatch docParse0 demo2 (fun _ => none) ['<'] 5).reports = [⟨5, .parse "unexpected end".toList⟩] :=
  (C68_load_failed 5 rfl).1

/-- A text is loaded with handler 5, moved into the first document, and another document is loaded: errors of the text still go to
handler 5. -/
example : ∃ w, eventAll ext0 docParse0 ((loadOptionsCatch docParse0 twoDocs handlers2 ['x'] 5).heap,
      (loadOptionsCatch docParse0 twoDocs handlers2 ['x'] 5).handlers) [.op (.insert .beforeEnd 2 6), .load ['y'] 9] = .ok w ∧
    Hears w.1 w.2 6 5 ∧ w.1.parent 6 = some 2 := by
  refine ⟨_, rfl, ⟨5, by rfl, by rfl⟩, by rfl⟩

/-- C68 does not hold in full: `b` has been moved into the first document, whose handler is 7, but its errors are reported to the
handler of the document it came from. -/
theorem C68_fails_moved : ∃ h', twoDocs.insertAdjacent ext0 .beforeEnd 1 4 = .ok h' ∧ h'.kids 1 = [2, 4] ∧ h'.parent 1 = some 0 ∧
    ¬ Accepted ext0 h' 4 1 ∧ h'.insertAdjacentR handlers2 ext0 .beforeEnd 4 1 = .ok (h', [⟨8, .method "append"⟩]) := by
  refine ⟨_, rfl, by rfl, by rfl, fun ha => ha.2.2.2 (.parent (by rfl)), by rfl⟩

/-- C68 does not hold in full: the errors of nodes made by `set_html` and `set_text` are reported to nobody, though the document they
are in has a handler. -/
theorem C68_fails_made :
    (∃ h' c, twoDocs.setHtml ext0 1 ['x'] = .ok h' ∧ h'.kids 1 = [c] ∧ h'.parent 1 = some 0 ∧ h'.setTextR handlers2 ext0 c [] = (h', [])) ∧
    (∃ h' c, twoDocs.setText ext0 1 ['x'] = h' ∧ h'.kids 1 = [c] ∧ h'.parent 1 = some 0 ∧ h'.setTextR handlers2 ext0 c [] = (h', [])) :=
  ⟨⟨_, 6, rfl, by rfl, by rfl, by rfl⟩, ⟨_, 5, rfl, by rfl, by rfl, by rfl⟩⟩

end Visdom
