import Verif.Proofs.EndsText
import Verif.Props.ElemsOnly
import Verif.Props.Insert
/-!
# C85: no query runs for ever

In the model every recursion of the code that is not visibly bounded carries a bound; to run out of it is the error `diverge`. The theorems say
that this never happens on trees: the walks up, down and sideways, the loops of the parser and the nesting of selectors all come to their end.
-/
namespace Visdom
open Spec

variable {h : Heap} {T : Nat → Prop} {env : Env} {own : Nat → Bool}

/-- **C85**: on trees every question with a selector comes to an end (with an answer or a panic), whatever the text and whatever nodes of the trees it is asked on. -/
theorem C85_ends (hwf : ∀ r, T r → TreeWF h r) (hf : IdsFound h T env) {X : List Nat} (hX : ∀ x ∈ X, Among h T x) (t : List Char) :
    findText h env own X t ≠ .error .diverge ∧ filterText h env own X t ≠ .error .diverge ∧ notText h env own X t ≠ .error .diverge ∧
    hasText h env own X t ≠ .error .diverge ∧ isText h env own X t ≠ .error .diverge ∧ isAllText h env own X t ≠ .error .diverge := by
  have sd := firm hwf hf
  refine ⟨?_, ?_, ?_, ?_, ?_, ?_⟩
  · show Halts _
    unfold findText
    split
    · rename_i he; exact (sd.parseSel_halts _ _).err he
    · exact throwErr_halts
    · rename_i sel hs; exact (sd.findSelector_halts hX (sd.parseSel_end hs)).map
  · exact sd.trigger_halts fun sel hp => sd.filterSel_halts hX hp
  · exact sd.trigger_halts fun sel hp => sd.notSel_halts hX hp
  · exact sd.trigger_halts fun sel hp => sd.hasSel_halts hX hp
  · exact sd.trigger_halts fun sel hp => sd.isSel_halts hX hp
  · exact sd.trigger_halts fun sel hp => sd.isAllSel_halts hX hp

/-- **C85**: the same for the methods that go to neighbours, with any two texts. -/
theorem C85_steps (hwf : ∀ r, T r → TreeWF h r) (hf : IdsFound h T env) {X : List Nat} (hX : ∀ x ∈ X, Among h T x) (t u : List Char) (b : Bool) :
    childrenText h env own X t ≠ .error .diverge ∧ prevText h env own X t ≠ .error .diverge ∧ nextText h env own X t ≠ .error .diverge ∧
    prevAllText h env own X t ≠ .error .diverge ∧ nextAllText h env own X t ≠ .error .diverge ∧ parentText h env own X t ≠ .error .diverge ∧
    parentsText h env own X t ≠ .error .diverge ∧ siblingsText h env own X t ≠ .error .diverge ∧ closestText h env own X t ≠ .error .diverge ∧
    prevUntilText h env own X t u b ≠ .error .diverge ∧ nextUntilText h env own X t u b ≠ .error .diverge ∧
    parentsUntilText h env own X t u b ≠ .error .diverge := by
  have sd := firm hwf hf
  have hu1 := sd.usf hX
  have hu2 := sd.usl hX
  refine ⟨?_, ?_, ?_, ?_, ?_, ?_, ?_, ?_, ?_, ?_, ?_, ?_⟩
  · exact sd.nav_halts fun sel hp => sd.withComb_halts hX hp _
  · exact sd.nav_halts fun sel hp => sd.withComb_halts hX hp _
  · exact sd.nav_halts fun sel hp => sd.withComb_halts hX hp _
  · exact sd.nav_halts fun sel hp => sd.withComb_halts hu2 hp _
  · exact sd.nav_halts fun sel hp => sd.withComb_halts hu1 hp _
  · exact sd.nav_halts fun sel hp => sd.withComb_halts hu1 hp _
  · exact sd.nav_halts fun sel hp => (sd.withComb_halts hu1 hp _).map
  · show Halts _
    unfold siblingsText
    split
    · exact (sd.siblingsSel_halts hX (by rintro ps ⟨⟩)).map
    · split
      · rename_i he; exact (sd.parseSel_halts _ _).err he
      · exact throwErr_halts
      · rename_i sel hs; exact (sd.siblingsSel_halts hX (by rintro ps ⟨⟩; exact sd.parseSel_end hs)).map
  · show Halts _
    unfold closestText
    split
    · exact .ok
    · split
      · rename_i he; exact (sd.parseSel_halts _ _).err he
      · exact throwErr_halts
      · rename_i sel hs; exact (sd.closest_halts hX (by rintro ps ⟨⟩; exact sd.parseSel_end hs)).map
  · exact sd.till_halts fun sel flt hp hq => sd.prevUntil_halts hX hp hq b
  · exact sd.till_halts fun sel flt hp hq => sd.nextUntil_halts hX hp hq b
  · exact sd.till_halts fun sel flt hp hq => sd.parentsUntil_halts hX hp hq b

/-- C85: `has_in` with any set, and the set operations with any sets. -/
theorem C85_sets (hwf : ∀ r, T r → TreeWF h r) (hf : IdsFound h T env) {X : List Nat} (hX : ∀ x ∈ X, Among h T x) (S : List Nat) :
    hasIn h X S ≠ .error .diverge ∧ addElems h X S ≠ .error .diverge :=
  ⟨(firm hwf hf).hasIn_halts hX S, addElems_halts X S⟩

/-- C85: reading a selector ends for every text, also a wrong one, without any trees. -/
theorem C85_parser (t : List Char) : parseGroups t ≠ .error .diverge := parseGroups_halts t

/-! ### Without trees -/

/-- C85 does not hold where C37 is violated: a fragment that is used twice makes an element its own child, and `find` asked on it goes down for ever. -/
theorem C85_fails_cycle : (∃ h', runAll ext0 loopHeap [.setText 3 [], .insert .beforeEnd 1 2, .insert .beforeEnd 3 2] = .ok h' ∧ h'.kids 3 = [3] ∧ h'.parent 3 = some 3 ∧
    findText h' env0 (fun _ => true) [3] "b".toList = .error .diverge ∧
    (∀ g b k, g 3 = .ok b → dfsOne h' g k 3 = .error .diverge)) := by
  obtain ⟨h', hr⟩ : ∃ h', runAll ext0 loopHeap [.setText 3 [], .insert .beforeEnd 1 2, .insert .beforeEnd 3 2] = .ok h' := ⟨_, rfl⟩
  have e := hr
  cases hr
  refine ⟨_, e, rfl, rfl, by decide, fun g b k hg => ?_⟩
  induction k with
  | zero => rfl
  | succ k ih =>
    have h1 : ∀ h : Heap, h.children 3 = [3] → 0 < h.childLen 3 → dfsOne h g k 3 = .error .diverge → dfsOne h g (k + 1) 3 = .error .diverge := by
      intro h hc hl hi
      rw [dfsOne, hc, flatMapR, hg]
      simp only
      rw [if_pos hl, hi]
    exact h1 _ rfl (by decide) ih

/-! ### Examples -/

/-- A question with nested texts, one of them unfinished. -/
example : findText demo env6 (fun _ => true) [0] "div:not(:has(ul > :not(.a)):header) ~ [".toList ≠ .error .diverge :=
  (C85_ends (by rintro r rfl; exact demo_wf) demo_ids (by intro x hx; rw [List.mem_singleton.1 hx]; exact ⟨0, rfl, .self⟩) _).1

end Visdom
