import Verif.Proofs.Ident
import Verif.Props.Isolation
/-!
# C69: calls change only what they are about
-/
namespace Visdom
open Spec

theorem Spec.World.Ok.adds {w : World} (ok : w.Ok) : w.Adds := by
  refine ⟨fun h s h' r hp => ?_, fun h x => ⟨(ok.added h x).size, (ok.added h x).old⟩⟩
  obtain ⟨a, b, c⟩ := ok.parse h s h' r hp
  exact ⟨a.size, b, a.old, fun c' hc => ((a.new r b c).2 c' hc).1⟩

/-- C69: whatever is called, also with nodes that were removed, replaced or dropped before and in heaps of any shape: an old node keeps its kind,
its name and its root link; its attributes are those it had, unless it was given to a method that writes attributes; its content is what it was,
unless it was given to a method that writes text, or is an element with raw text and `set_html` was called. -/
theorem C69_identity {w : World} (ok : w.Adds) {h h' : Heap} {cs : List Call} (hr : callAll w h cs = .ok h') {z : Nat} (hz : z < h.size) :
    z < h'.size ∧ (h'.node z).kind = (h.node z).kind ∧ (h'.node z).name = (h.node z).name ∧ (h'.node z).root = (h.node z).root ∧
      ((∀ c ∈ cs, z ∉ c.writesAttrs) → (h'.node z).attrs = (h.node z).attrs) ∧
      ((∀ c ∈ cs, z ∉ c.writesText) → ((∀ c ∈ cs, c.isHtml = false) ∨ h.isElem z = false ∨ w.ext.contentTag (h.node z).name = false) →
        (h'.node z).content = (h.node z).content) := by
  have k : Ident (fun _ => True) (fun _ => True) h h' :=
    ident_callAll ok (z := z) (fun _ _ => trivial) cs h hz (fun _ _ _ _ => trivial) (fun _ _ _ _ => trivial)
      (fun _ _ _ _ _ _ => trivial) hr
  obtain ⟨k1, k2, k3⟩ := k.same z hz
  refine ⟨Nat.lt_of_lt_of_le hz k.size, k1, k2, k3, fun ha => ?_, fun ht hh => ?_⟩
  · have k : Ident (· ≠ z) (fun _ => True) h h' :=
      ident_callAll ok (z := z) (fun _ _ => trivial) cs h hz (fun c hc x hx he => ha c hc (he ▸ hx)) (fun _ _ _ _ => trivial)
        (fun _ _ _ _ _ _ => trivial) hr
    exact k.attrs z hz (by simp)
  · have k : Ident (fun _ => True) (· ≠ z) h h' := by
      refine ident_callAll ok (z := z) (fun _ h => h) cs h hz (fun _ _ _ _ => trivial) (fun c hc x hx he => ht c hc (he ▸ hx))
        (fun c hc hhc y hy e => ?_) hr
      subst e
      rcases hh with hh | hh | hh
      · rw [hh c hc] at hhc; cases hhc
      · rw [hy.1] at hh; cases hh
      · rw [hy.2] at hh; cases hh
    exact k.content z hz (by simp)

/-- C69: attribute methods, `append_text`, `prepend_text`, loading another document and `clone` change no parent, no list of children and no
position. -/
theorem C69_links {w : World} (ok : w.Adds) {h h' : Heap} {cs : List Call} (hk : ∀ c ∈ cs, c.keepsLinks = true) (hr : callAll w h cs = .ok h')
    {z : Nat} (hz : z < h.size) :
    (h'.node z).childs = (h.node z).childs ∧ (h'.node z).parent = (h.node z).parent ∧ (h'.node z).index = (h.node z).index :=
  (links_callAll ok cs h hk hr).same z hz

/-- C69: a change of the tree touches only the given nodes, their parents, their children and their siblings; every other old node stays exactly as
it is. This holds in heaps of any shape, for any nodes. -/
theorem C69_near {w : World} (ok : w.Adds) {h h' : Heap} {op : Op} (hb : ∀ x ∈ op.given, x < h.size ∧ ∀ p, h.parent x = some p → p < h.size)
    (hr : op.run w.ext h = .ok h') {z : Nat} (hz : z < h.size) (hn : ¬ Near h op.given z) : h'.node z = h.node z := by
  have around : ∀ x ∈ op.given, Around (fun z => h.size ≤ z ∨ Near h op.given z) h x := fun x hx =>
    ⟨.inr ⟨x, hx, .inl rfl⟩, fun c hc => .inr ⟨x, hx, .inr (.inr (.inl hc))⟩, fun p hp => ⟨.inr ⟨x, hx, .inr (.inl hp)⟩,
      fun c hc => .inr ⟨x, hx, .inr (.inr (.inr ⟨p, hp, hc⟩))⟩⟩⟩
  exact frame_op ok.parse around hb (fun z hz => .inl hz) hr z (by rintro (h1 | h1) <;> [omega; exact hn h1])

set_option maxRecDepth 100000 in
example : (farAfter.node 13).name = (demo2.node 13).name ∧ (farAfter.node 11).attrs = (demo2.node 11).attrs ∧
    (farAfter.node 12).content = (demo2.node 12).content ∧ farAfter.kids 12 ≠ demo2.kids 12 ∧ (farAfter.node 12).attrs.attrs.length = 2 :=
  ⟨(C69_identity world0_ok.adds farRun (by decide)).2.2.1, (C69_identity world0_ok.adds farRun (by decide)).2.2.2.2.1 (by decide),
    (C69_identity world0_ok.adds farRun (by decide)).2.2.2.2.2 (by decide) (.inr (.inr (by decide))), by decide, by decide⟩

/-- Attributes, a text and a copy. -/
def linkCalls : List Call := [.addClass [1, 2] "c".toList, .one (.appendText 3 "more".toList), .clone [1], .setAttr [5] "id".toList none]

/-- The heap afterwards. -/
def linkAfter : Heap := match callAll world0 demo2 linkCalls with | .ok h => h | .error _ => demo2

set_option maxRecDepth 100000 in
theorem linkRun : callAll world0 demo2 linkCalls = .ok linkAfter := rfl

set_option maxRecDepth 100000 in
example : (linkAfter.node 1).childs = (demo2.node 1).childs ∧ (linkAfter.node 3).content ≠ (demo2.node 3).content ∧
    (linkAfter.node 5).attrs.attrs.length = 1 :=
  ⟨(C69_links world0_ok.adds (by decide) linkRun (by decide)).1, by decide, by decide⟩

/-- The paragraph is moved in front of the list. -/
def nearAfter : Heap := match (Op.insert .beforeBegin 8 2).run world0.ext demo2 with | .ok h => h | .error _ => demo2

set_option maxRecDepth 100000 in
example : nearAfter.node 6 = demo2.node 6 ∧ nearAfter.index 5 ≠ demo2.index 5 ∧ nearAfter.kids 0 = [1, 2, 8] := by
  refine ⟨C69_near world0_ok.adds (op := .insert .beforeBegin 8 2) (by decide) rfl (by decide) ?_, by decide, by decide⟩
  rintro ⟨g, hg, h1⟩
  simp only [Op.given, List.mem_cons, List.not_mem_nil, or_false] at hg
  rcases hg with rfl | rfl
  all_goals
    rcases h1 with h1 | h1 | h1 | ⟨p, hp, h1⟩
    · exact absurd h1 (by decide)
    · exact absurd h1 (by decide)
    · exact absurd h1 (by decide)
    · have : p = 0 ∨ p = 1 := by
        first
        | exact .inl (Option.some.inj ((show demo2.parent 8 = some 0 by decide).symm.trans hp)).symm
        | exact .inr (Option.some.inj ((show demo2.parent 2 = some 1 by decide).symm.trans hp)).symm
      rcases this with rfl | rfl <;> exact absurd h1 (by decide)

end Visdom
