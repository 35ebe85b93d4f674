import Verif.Model.SetAttrs
import Verif.Spec.After
import Verif.Proofs.Mutate
/-!
# The loops of the attribute methods
-/
namespace Visdom
open Spec

section
variable {h h1 h2 : Heap}

theorem Spec.OnlyAttrs.refl (h : Heap) : OnlyAttrs h h := ⟨rfl, fun _ => rfl⟩

theorem Spec.OnlyAttrs.trans (a : OnlyAttrs h h1) (b : OnlyAttrs h1 h2) : OnlyAttrs h h2 :=
  ⟨b.size.trans a.size, fun x => by
    have e := b.node x
    rw [a.node x] at e
    exact e⟩

theorem Spec.OnlyAttrs.fields (a : OnlyAttrs h h1) (x : Nat) : (h1.node x).kind = (h.node x).kind ∧ (h1.node x).name = (h.node x).name ∧
    (h1.node x).content = (h.node x).content ∧ (h1.node x).childs = (h.node x).childs ∧ (h1.node x).parent = (h.node x).parent ∧
    (h1.node x).index = (h.node x).index ∧ (h1.node x).root = (h.node x).root := by
  rw [a.node x]
  exact ⟨rfl, rfl, rfl, rfl, rfl, rfl, rfl⟩

theorem onlyAttrs_upd (x : Nat) (m : Meta) : OnlyAttrs h (h.upd x fun n => { n with attrs := m }) := by
  refine ⟨rfl, fun y => ?_⟩
  rw [upd_node]
  split <;> rfl

theorem Spec.OnlyAttrs.isElem (a : OnlyAttrs h h1) : h1.isElem = h.isElem := by
  funext x; simp only [Heap.isElem, (a.fields x).1]

theorem Spec.OnlyAttrs.kids (a : OnlyAttrs h h1) (x : Nat) : h1.kids x = h.kids x := by
  simp only [Heap.kids, (a.fields x).2.2.2.1]

/-- The loop with a postcondition. Either no element occurs twice or the postcondition keeps the precondition and is transitive. -/
theorem changeAll_spec {reads : Bool} {f : Meta → R Meta} {Q : Meta → Prop} {P : Meta → Meta → Prop}
    (hf : ∀ m, MetaWF m → Q m → ∃ m', f m = .ok m' ∧ MetaWF m' ∧ P m m') : ∀ (X : List Nat) (h : Heap),
    (∀ x ∈ X, h.isElem x = true ∧ MetaWF (h.node x).attrs ∧ Q (h.node x).attrs) →
    (X.Nodup ∨ ((∀ a b, Q a → P a b → Q b) ∧ ∀ a b c, P a b → P b c → P a c)) →
    ∃ h', Heap.changeAll reads f h X = .ok h' ∧ OnlyAttrs h h' ∧ (∀ x, x ∉ X → h'.node x = h.node x) ∧
      ∀ x ∈ X, MetaWF (h'.node x).attrs ∧ P (h.node x).attrs (h'.node x).attrs := by
  intro X
  induction X with
  | nil => intro h _ _; exact ⟨h, rfl, .refl h, fun _ _ => rfl, by simp⟩
  | cons x X ih =>
    intro h hX hd
    obtain ⟨he, wf, q⟩ := hX x (by simp)
    obtain ⟨m', hm, wf', hp⟩ := hf _ wf q
    have hc : h.changeAttrs reads f x = .ok (h.upd x fun n => { n with attrs := m' }) := by
      unfold Heap.changeAttrs
      rw [if_pos he, hm]
    generalize hg : h.upd x (fun n => { n with attrs := m' }) = g at hc
    have og : OnlyAttrs h g := hg ▸ onlyAttrs_upd x m'
    have hgx : (g.node x).attrs = m' := by rw [← hg, upd_node, if_pos rfl]
    have hgy : ∀ y, y ≠ x → g.node y = h.node y := fun y hy => by rw [← hg, upd_node, if_neg hy]
    obtain ⟨h', r1, r2, r3, r4⟩ := ih g (fun y hy => by
      by_cases e : y = x
      · subst e
        rcases hd with hd | hd
        · exact absurd hy (List.nodup_cons.1 hd).1
        · rw [og.isElem, hgx]; exact ⟨he, wf', hd.1 _ _ q hp⟩
      · rw [hgy y e, og.isElem]; exact hX y (by simp [hy])) (hd.imp (fun hd => (List.nodup_cons.1 hd).2) id)
    refine ⟨h', by simp only [Heap.changeAll, hc]; exact r1, og.trans r2, fun y hy => ?_, fun y hy => ?_⟩
    · simp only [List.mem_cons, not_or] at hy
      rw [r3 y hy.2, hgy y hy.1]
    · by_cases e : y = x
      · subst e
        by_cases hin : y ∈ X
        · have := r4 y hin
          rw [hgx] at this
          rcases hd with hd | hd
          · exact absurd hin (List.nodup_cons.1 hd).1
          · exact ⟨this.1, hd.2 _ _ _ hp this.2⟩
        · rw [r3 y hin, hgx]; exact ⟨wf', hp⟩
      · have hin : y ∈ X := by simpa [e] using hy
        have := r4 y hin
        rwa [hgy y e] at this

theorem Spec.OnlyAttrs.within (a : OnlyAttrs h h1) {r x : Nat} : Within h1 r x ↔ Within h r x := by
  constructor
  · intro hx
    induction hx with
    | self => exact .self
    | step _ hc ih => exact .step ih (by rwa [a.kids] at hc)
  · intro hx
    induction hx with
    | self => exact .self
    | step _ hc ih => exact .step ih (by rwa [a.kids])

theorem Spec.OnlyAttrs.tree (a : OnlyAttrs h h1) {r : Nat} (wf : TreeWF h r) : TreeWF h1 r := by
  refine ⟨?_, ?_, fun x hx hk => ?_, fun x hx h2 h3 => ?_, fun p i c hp hc => ?_, fun x hx => ?_⟩
  · simp only [Heap.parent, (a.fields r).2.2.2.2.1]; exact wf.rootParent
  · rw [(a.fields r).1]; exact wf.rootKind
  · exact wf.onlyRoot x (a.within.1 hx) (by rwa [(a.fields x).1] at hk)
  · rw [(a.fields x).1] at h2 h3
    rw [a.kids]; exact wf.leaf x (a.within.1 hx) h2 h3
  · rw [a.kids] at hc
    have := wf.link p i c (a.within.1 hp) hc
    simp only [Heap.parent, Heap.index, (a.fields c).2.2.2.2.1, (a.fields c).2.2.2.2.2.1]
    exact this
  · rw [a.size]; exact wf.bound x (a.within.1 hx)

end
end Visdom
