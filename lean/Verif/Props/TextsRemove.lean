import Verif.Props.History
import Verif.Props.Texts
/-!
# C53: `Texts::remove`
-/
namespace Visdom
open Spec

section
variable {h : Heap} {D : Nat → Prop}

/-- What the removal of one text does. -/
theorem removeText_gone (ok : HeapOk h D) {x : Nat} (hx : Attached h D x) : ∃ h', h.removeText x = .ok h' ∧ HeapOk h' D ∧
    (∀ q, ¬ D q → h'.kids q = (h.kids q).filter (· ≠ x)) ∧ SameData h h' ∧ ∀ y, y ≠ x → Attached h D y → Attached h' D y := by
  obtain ⟨h', he, ⟨hpar, rfl⟩ | ⟨p, hpar, hp, s⟩⟩ := removeText_eq ok hx
  · exact ⟨h', he, ok, fun q hq => (filter_ne_self (free_of_parent_none ok hpar hq)).symm, .refl h', fun _ _ h1 => h1⟩
  · obtain ⟨_, hi⟩ := hx p hpar
    have hpk : Placeable h D p [] := ⟨by simp, by simp, by simp, by simp⟩
    refine ⟨h', he, s.ok ok hp (ok.bound x p hpar).2 (ok.kid_kind (List.mem_of_getElem? hi)) hpk, fun q hq => ?_, s.data, fun y hy h1 =>
      s.attached_old ok hp h1 (by simpa using hy) hpk⟩
    by_cases e : q = p
    · subst e
      have hnd := ok.kids_nodup hq
      have ho := s.old
      rw [s.new]
      generalize (h.kids q).take (h.index x) = A at *
      generalize (h.kids q).drop (h.index x + 1) = B at *
      rw [ho] at hnd ⊢
      rw [List.append_assoc, List.nodup_append] at hnd
      have h1 : x ∉ A := fun h2 => hnd.2.2 x h2 x (by simp) rfl
      have h2 : x ∉ B := fun h3 => by
        have := hnd.2.1
        simp only [List.cons_append, List.nil_append, List.nodup_cons] at this
        exact this.1 h3
      simp only [List.append_nil, List.filter_append, filter_ne_self h1, filter_ne_self h2]
      simp
    · rw [s.other q e, filter_ne_self]
      intro h1
      exact e (ok.kid_unique hq hp h1 (List.mem_of_getElem? hi))

/-- C53, the part that holds: `Texts::remove` of different texts that are in place takes exactly them out of their lists, and keeps all
links right. Missing: a text given twice, e.g. by `texts` of nested elements (`C53_fails`). -/
theorem C53_remove_partial (ok : HeapOk h D) (L : List Nat) (hL : ∀ x ∈ L, Attached h D x) (hnd : L.Nodup) :
    ∃ h', textsRemove h L = .ok h' ∧ (∀ q, ¬ D q → h'.kids q = (h.kids q).filter (· ∉ L)) ∧ SameData h h' ∧ LinksRight h' D := by
  have key : ∀ (L : List Nat) (h : Heap), HeapOk h D → (∀ x ∈ L, Attached h D x) → L.Nodup →
      ∃ h', textsRemove h L = .ok h' ∧ (∀ q, ¬ D q → h'.kids q = (h.kids q).filter (· ∉ L)) ∧ SameData h h' ∧ HeapOk h' D := by
    intro L
    induction L with
    | nil => intro h ok _ _; exact ⟨h, rfl, by simp, .refl h, ok⟩
    | cons x L ih =>
      intro h ok hL hnd
      rw [List.nodup_cons] at hnd
      obtain ⟨h1, he, k1, k2, k3, k4⟩ := removeText_gone ok (hL x (by simp))
      obtain ⟨h', g1, g2, g3, g4⟩ := ih h1 k1 (fun y hy => k4 y (by rintro rfl; exact hnd.1 hy) (hL y (by simp [hy]))) hnd.2
      refine ⟨h', by simp only [textsRemove, he]; exact g1, fun q hq => ?_, k3.trans g3, g4⟩
      rw [g2 q hq, k2 q hq, List.filter_filter]
      congr 1
      funext y
      rw [Bool.eq_iff_iff]
      simp only [List.mem_cons, not_or, Bool.and_eq_true, decide_eq_true_iff, ne_eq]
      exact and_comm
  obtain ⟨h', h1, h2, h3, h4⟩ := key L h ok hL hnd
  exact ⟨h', h1, h2, h3, h4.right⟩

end

theorem textHeap_ok : HeapOk textHeap noneUsed := okCheck_sound (by decide)

/-- All texts of the sample, a content tag among them. -/
example : ∃ h', textsRemove textHeap [3, 5, 6, 7] = .ok h' ∧ (∀ q, ¬ noneUsed q → h'.kids q = (textHeap.kids q).filter (· ∉ [3, 5, 6, 7])) ∧
    SameData textHeap h' ∧ LinksRight h' noneUsed :=
  C53_remove_partial textHeap_ok _ (noneUsed_eq ▸ by
    have : ([3, 5, 6, 7].all (attachedB textHeap [])) = true := by decide
    exact fun x hx => attachedB_sound (List.all_eq_true.1 this x hx)) (by decide)

/-- C53 does not hold in full: the texts of `[div, p]` contain those of `p` twice, and removing them takes an innocent element as well
or panics. -/
theorem C53_fails : (∃ h', textsRemove textHeap [3, 3] = .ok h' ∧ textHeap.kids 2 = [3, 4] ∧ h'.kids 2 = []) ∧
    textsRemove textHeap [5, 5] = .error .outOfBounds := ⟨⟨_, rfl, by decide, by decide⟩, rfl⟩

end Visdom
