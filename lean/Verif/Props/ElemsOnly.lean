import Verif.Proofs.ElemsText
import Verif.Props.Copies
/-!
# C84: queries answer with elements of the trees
-/
namespace Visdom
open Spec

variable {h : Heap} {T : Nat → Prop} {env : Env} {own : Nat → Bool}

/-- The nodes are elements of the trees with these roots: no text, comment, document or fragment, and nothing that has been taken out. -/
def Spec.Elements (h : Heap) (T : Nat → Prop) (X : List Nat) : Prop := ∀ x ∈ X, Among h T x ∧ (h.node x).kind = .tag

/-- What rphtml's index of ids tells about the trees: elements of the trees. -/
def Spec.IdsFound (h : Heap) (T : Nat → Prop) (env : Env) : Prop :=
  ∀ x q i y, Among h T x → (h.node x).root = some q → env.byId q i = some y → Among h T y ∧ (h.node y).kind = .tag

theorem firm (hwf : ∀ r, T r → TreeWF h r) (hf : IdsFound h T env) : Firm h T env :=
  ⟨copies_same hwf (Nat.le_refl _) (fun _ _ => rfl) fun x q i y hx h1 h2 => (hf x q i y hx h1 h2).1,
    fun x q i y hx h1 h2 => by unfold Heap.isElem; rw [(hf x q i y hx h1 h2).2]; rfl⟩

theorem El.of {y : Nat} (hy : El h T y) : Among h T y ∧ (h.node y).kind = .tag := ⟨hy.1, by simpa [Heap.isElem] using hy.2⟩

theorem els_of {Y : List Nat} (hY : ∀ y ∈ Y, El h T y) : Elements h T Y := fun y hy => (hY y hy).of

/-- **C84**: whatever the text, the methods that look for nodes answer with elements of the trees only, also when asked on text nodes, comments or documents. -/
theorem C84_elements (hwf : ∀ r, T r → TreeWF h r) (hf : IdsFound h T env) {X : List Nat} (hX : ∀ x ∈ X, Among h T x) (t u : List Char) (b : Bool)
    {Y : List Nat} {k : Nat} (hY : findText h env own X t = .ok (Y, k) ∨ childrenText h env own X t = .ok (Y, k) ∨ prevText h env own X t = .ok (Y, k) ∨
      nextText h env own X t = .ok (Y, k) ∨ prevAllText h env own X t = .ok (Y, k) ∨ nextAllText h env own X t = .ok (Y, k) ∨
      parentText h env own X t = .ok (Y, k) ∨ parentsText h env own X t = .ok (Y, k) ∨ siblingsText h env own X t = .ok (Y, k) ∨
      prevUntilText h env own X t u b = .ok (Y, k) ∨ nextUntilText h env own X t u b = .ok (Y, k) ∨ parentsUntilText h env own X t u b = .ok (Y, k)) :
    Elements h T Y := by
  have sd := firm hwf hf
  have hnil : ∀ y ∈ ([] : List Nat), El h T y := by rintro y ⟨⟩
  apply els_of
  have hu1 := sd.usf hX
  have hu2 := sd.usl hX
  rcases hY with hY | hY | hY | hY | hY | hY | hY | hY | hY | hY | hY | hY
  · unfold findText at hY
    split at hY
    · cases hY
    · rw [throwErr_nil sd hY]; exact hnil
    · rename_i sel hs
      obtain ⟨y, hy, he⟩ := map_ok hY
      obtain ⟨rfl, -⟩ := Prod.mk.inj he
      exact sd.findSelector (sd.parseSel hs) hX hy
  · exact sd.nav (P := fun Y => ∀ y ∈ Y, El h T y) hnil (fun sel res hp hr => sd.withComb (by simp) hp hX hr) hY
  · exact sd.nav (P := fun Y => ∀ y ∈ Y, El h T y) hnil (fun sel res hp hr => sd.withComb (by simp) hp hX hr) hY
  · exact sd.nav (P := fun Y => ∀ y ∈ Y, El h T y) hnil (fun sel res hp hr => sd.withComb (by simp) hp hX hr) hY
  · exact sd.nav (P := fun Y => ∀ y ∈ Y, El h T y) hnil (fun sel res hp hr => sd.withComb (by simp) hp hu2 hr) hY
  · exact sd.nav (P := fun Y => ∀ y ∈ Y, El h T y) hnil (fun sel res hp hr => sd.withComb (by simp) hp hu1 hr) hY
  · exact sd.nav (P := fun Y => ∀ y ∈ Y, El h T y) hnil (fun sel res hp hr => sd.withComb (by simp) hp hu1 hr) hY
  · refine sd.nav (P := fun Y => ∀ y ∈ Y, El h T y) hnil (fun sel res hp hr => ?_) hY
    obtain ⟨y, hy, rfl⟩ := map_ok hr
    exact fun z hz => sd.withComb (by simp) hp hu1 hy z (sort_mem hz)
  · unfold siblingsText at hY
    split at hY
    · obtain ⟨y, hy, he⟩ := map_ok hY
      obtain ⟨rfl, -⟩ := Prod.mk.inj he
      exact sd.siblingsSel (by rintro ps ⟨⟩) hX hy
    · split at hY
      · cases hY
      · rw [throwErr_nil sd hY]; exact hnil
      · rename_i sel hs
        obtain ⟨y, hy, he⟩ := map_ok hY
        obtain ⟨rfl, -⟩ := Prod.mk.inj he
        exact sd.siblingsSel (by rintro ps ⟨⟩; exact sd.parseSel hs) hX hy
  · refine sd.till (P := fun Y => ∀ y ∈ Y, El h T y) hnil (fun sel flt res hr => ?_) hY
    obtain ⟨y, hy, rfl⟩ := map_ok hr
    intro z hz
    refine sd.selectUntil (by simp) hu2 hy z ?_
    split at hz
    · exact List.mem_reverse.1 hz
    · exact hz
  · exact sd.till (P := fun Y => ∀ y ∈ Y, El h T y) hnil (fun sel flt res hr => sd.selectUntil (by simp) hu1 hr) hY
  · refine sd.till (P := fun Y => ∀ y ∈ Y, El h T y) hnil (fun sel flt res hr => ?_) hY
    obtain ⟨y, hy, rfl⟩ := map_ok hr
    exact fun z hz => sd.selectUntil (by simp) hu1 hy z (sort_mem hz)

/-- C84: `filter` and `closest` answer with nodes they are asked on and with elements of the trees, `not` and `has` leave out some of the nodes they are asked on. -/
theorem C84_selections (hwf : ∀ r, T r → TreeWF h r) (hf : IdsFound h T env) {X : List Nat} (hX : ∀ x ∈ X, Among h T x) (t : List Char) {Y : List Nat} {k : Nat} :
    (filterText h env own X t = .ok (Y, k) → ∀ y ∈ Y, y ∈ X ∨ (Among h T y ∧ (h.node y).kind = .tag)) ∧
    (closestText h env own X t = .ok (Y, k) → ∀ y ∈ Y, y ∈ X ∨ (Among h T y ∧ (h.node y).kind = .tag)) ∧
    (notText h env own X t = .ok (Y, k) → Y.Sublist X) ∧ (hasText h env own X t = .ok (Y, k) → Y.Sublist X) := by
  have sd := firm hwf hf
  have hnil : From h T X [] := .nil
  refine ⟨fun hY y hy => ?_, fun hY y hy => ?_, fun hY => ?_, fun hY => ?_⟩
  · have := sd.trigger (P := From h T X) hnil (fun sel res hp hr => sd.filterSel hp hX hr) hY
    exact (this y hy).imp id El.of
  · have : From h T X Y := by
      unfold closestText at hY
      split at hY
      · cases hY; exact hnil
      · split at hY
        · cases hY
        · rw [throwErr_nil sd hY]; exact hnil
        · obtain ⟨z, hz, he⟩ := map_ok hY
          obtain ⟨rfl, -⟩ := Prod.mk.inj he
          exact sd.closest hX hz
    exact (this y hy).imp id El.of
  · exact sd.trigger (P := fun Y => Y.Sublist X) (List.nil_sublist _) (fun sel res _ hr => notSel_sub hr) hY
  · exact sd.trigger (P := fun Y => Y.Sublist X) (List.nil_sublist _) (fun sel res _ hr => hasSel_sub hr) hY

/-- The sets that a program gets from given ones by questions with selectors and by the operations on sets, any number of them one after the other. -/
inductive Spec.Obtained (h : Heap) (env : Env) (own : Nat → Bool) (S : List Nat → Prop) : List Nat → Prop
  | given {X : List Nat} : S X → Obtained h env own S X
  | look {X Y : List Nat} {t u : List Char} {b : Bool} {k : Nat} : Obtained h env own S X →
      (findText h env own X t = .ok (Y, k) ∨ childrenText h env own X t = .ok (Y, k) ∨ prevText h env own X t = .ok (Y, k) ∨
        nextText h env own X t = .ok (Y, k) ∨ prevAllText h env own X t = .ok (Y, k) ∨ nextAllText h env own X t = .ok (Y, k) ∨
        parentText h env own X t = .ok (Y, k) ∨ parentsText h env own X t = .ok (Y, k) ∨ siblingsText h env own X t = .ok (Y, k) ∨
        prevUntilText h env own X t u b = .ok (Y, k) ∨ nextUntilText h env own X t u b = .ok (Y, k) ∨ parentsUntilText h env own X t u b = .ok (Y, k)) →
      Obtained h env own S Y
  | pick {X Y : List Nat} {t : List Char} {k : Nat} : Obtained h env own S X →
      (filterText h env own X t = .ok (Y, k) ∨ closestText h env own X t = .ok (Y, k) ∨ notText h env own X t = .ok (Y, k) ∨ hasText h env own X t = .ok (Y, k)) →
      Obtained h env own S Y
  | unite {X Y Z : List Nat} : Obtained h env own S X → Obtained h env own S Y → addElems h X Y = .ok Z → Obtained h env own S Z
  | part {X Y : List Nat} : Obtained h env own S X → Y ⊆ X → Obtained h env own S Y

/-- **C84**: from sets of elements, and from documents by `find`, no program ever gets a set with anything but elements of the trees. -/
theorem C84_program (hwf : ∀ r, T r → TreeWF h r) (hf : IdsFound h T env) {S : List Nat → Prop} (hS : ∀ X, S X → Elements h T X) {Y : List Nat}
    (hY : Obtained h env own S Y) : Elements h T Y := by
  induction hY with
  | given hX => exact hS _ hX
  | look _ hY ih => exact C84_elements hwf hf (fun x hx => (ih x hx).1) _ _ _ hY
  | pick _ hY ih =>
    have k := C84_selections (own := own) hwf hf (fun x hx => (ih x hx).1)
    intro y hy
    rcases hY with hY | hY | hY | hY
    · exact ((k _).1 hY y hy).elim (ih y) id
    · exact ((k _).2.1 hY y hy).elim (ih y) id
    · exact ih y (((k _).2.2.1 hY).subset hy)
    · exact ih y (((k _).2.2.2 hY).subset hy)
  | unite _ _ hz i1 i2 => exact fun y hy => (addElems_from hz y hy).elim (i1 y) (i2 y)
  | part _ hs ih => exact fun y hy => ih y (hs hy)

/-- C84: the same when the program begins with a document or fragment, its root being `r`: everything it finds there. -/
theorem C84_document (hwf : ∀ r, T r → TreeWF h r) (hf : IdsFound h T env) {r : Nat} (hr : T r) {Y : List Nat}
    (hY : Obtained h env own (fun X => ∃ t k, findText h env own [r] t = .ok (X, k)) Y) : Elements h T Y := by
  refine C84_program hwf hf (fun X ⟨t, k, hX⟩ => ?_) hY
  exact C84_elements hwf hf (fun x hx => by rw [List.mem_singleton.1 hx]; exact ⟨r, hr, .self⟩) t [] false (.inl hX)

/-! ### A set with repetitions -/

/-- C22: `filter` may answer with an element that it is not asked on: a set that holds the first child twice, and `:nth-child(2)`. -/
theorem C22_fails_outside : ∃ y, filterText demo env6 (fun _ => true) [2, 2] ":nth-child(2)".toList = .ok ([y], 0) ∧ y ∉ [2, 2] := ⟨5, by decide, by decide⟩

/-! ### Examples -/

theorem demo_ids : IdsFound demo (· = 0) env6 := fun x q i y _ _ hy => by
  simp only [env6] at hy
  split at hy
  · cases hy; exact ⟨⟨0, rfl, wfCheck_within [0, 1, 5] (by decide) rfl⟩, by decide⟩
  · cases hy

/-- From the document of `demo`: `find`, then `parent`, then `closest`. -/
example : Obtained demo env6 (fun _ => true) (fun X => ∃ t k, findText demo env6 (fun _ => true) [0] t = .ok (X, k)) [1] :=
  .pick (X := [5]) (t := ":first-child".toList) (k := 0) (.look (X := [6]) (t := []) (u := []) (b := false) (k := 0)
    (.given ⟨"#x".toList, 0, by decide⟩) (.inr (.inr (.inr (.inr (.inr (.inr (.inl (by decide)))))))))
    (.inr (.inl (by decide)))

example : Elements demo (· = 0) [1] := C84_document (env := env6) (own := fun _ => true) (r := 0) (by rintro r rfl; exact demo_wf) demo_ids rfl
  (.pick (X := [5]) (t := ":first-child".toList) (k := 0) (.look (X := [6]) (t := []) (u := []) (b := false) (k := 0)
    (.given ⟨"#x".toList, 0, by decide⟩) (.inr (.inr (.inr (.inr (.inr (.inr (.inl (by decide)))))))))
    (.inr (.inl (by decide))))

end Visdom
