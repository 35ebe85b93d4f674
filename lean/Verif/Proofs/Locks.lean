import Verif.Model.Locks
/-!
# Locks taken in the order of a rank cannot deadlock
-/
namespace Visdom
open Spec

variable {L : Type} [DecidableEq L]

/-- A thread takes locks in increasing rank, releases the last one taken first, and ends with none. -/
def Ordered (rank : L → Nat) : List L → List (Act L) → Prop
  | held, [] => held = []
  | held, .acq l :: r => (∀ x ∈ held, rank x < rank l) ∧ Ordered rank (l :: held) r
  | held, .rel l :: r => ∃ held', held = l :: held' ∧ Ordered rank held' r

def AllOrdered (rank : L → Nat) (s : List (Thread L)) : Prop := ∀ t ∈ s, Ordered rank t.held t.acts

theorem ordered_next {rank : L → Nat} {s s' : List (Thread L)} (ho : AllOrdered rank s) (hn : Next s s') : AllOrdered rank s' := by
  have key : ∀ {a b : List (Thread L)} {t t' : Thread L}, AllOrdered rank (a ++ t :: b) → Ordered rank t'.held t'.acts →
      AllOrdered rank (a ++ t' :: b) := by
    intro a b t t' h1 h2 x hx
    rcases List.mem_append.1 hx with hx | hx
    · exact h1 x (List.mem_append_left _ hx)
    · rcases List.mem_cons.1 hx with rfl | hx
      · exact h2
      · exact h1 x (List.mem_append_right _ (List.mem_cons_of_mem _ hx))
  rcases hn with hn | hn
  · cases hn with
    | @acq a b l r hd _ =>
      exact key ho (ho ⟨.acq l :: r, hd⟩ (by simp)).2
    | @rel a b l r hd =>
      obtain ⟨held', h1, h2⟩ := ho ⟨.rel l :: r, hd⟩ (by simp)
      refine key ho ?_
      simp only at h1
      subst h1
      simpa using h2
  · cases hn with
    | mk => exact key ho rfl

/-- The rank of the lock a thread waits for. -/
def wanted (rank : L → Nat) (t : Thread L) : Nat :=
  match t.acts with
  | .acq l :: _ => rank l + 1
  | _ => 0

theorem exists_max (f : Thread L → Nat) : ∀ (s : List (Thread L)), s ≠ [] → ∃ t ∈ s, ∀ x ∈ s, f x ≤ f t
  | [], h0 => absurd rfl h0
  | [t], _ => ⟨t, by simp, by simp⟩
  | t :: u :: s, _ => by
    obtain ⟨m, hm, hmax⟩ := exists_max f (u :: s) (by simp)
    by_cases hle : f m ≤ f t
    · refine ⟨t, by simp, fun x hx => ?_⟩
      rcases List.mem_cons.1 hx with rfl | hx
      · exact le_rfl
      · exact (hmax x hx).trans hle
    · refine ⟨m, List.mem_cons_of_mem _ hm, fun x hx => ?_⟩
      rcases List.mem_cons.1 hx with rfl | hx
      · omega
      · exact hmax x hx

theorem progress {rank : L → Nat} {s : List (Thread L)} (ho : AllOrdered rank s) (hf : ¬ Finished s) : ∃ s', Step s s' := by
  by_contra hno
  have hno : ∀ s', ¬ Step s s' := fun s' hs => hno ⟨s', hs⟩
  have hne : s ≠ [] := by rintro rfl; exact hf fun t ht => absurd ht List.not_mem_nil
  have hacq : ∀ t ∈ s, t.acts ≠ [] → ∃ l r, t.acts = .acq l :: r := by
    intro t ht hta
    obtain ⟨acts, held⟩ := t
    cases acts with
    | nil => exact absurd rfl hta
    | cons x r =>
      cases x with
      | acq l => exact ⟨l, r, rfl⟩
      | rel l =>
        obtain ⟨a, b, rfl⟩ := List.append_of_mem ht
        exact absurd Step.rel (hno _)
  obtain ⟨t, ht, hmax⟩ := exists_max (wanted rank) s hne
  obtain ⟨u, hu, hua⟩ : ∃ u ∈ s, u.acts ≠ [] := by
    by_contra hcon
    exact hf fun t ht => by by_contra h1; exact hcon ⟨t, ht, h1⟩
  obtain ⟨lu, ru, hlu⟩ := hacq u hu hua
  have hpos : 0 < wanted rank t := lt_of_lt_of_le (by simp [wanted, hlu]) (hmax u hu)
  have hta : t.acts ≠ [] := by intro h0; simp [wanted, h0] at hpos
  obtain ⟨l, r, hl⟩ := hacq t ht hta
  by_cases hh : Held s l
  · obtain ⟨v, hv, hvl⟩ := hh
    have hov := ho v hv
    have hva : v.acts ≠ [] := by
      intro h0
      rw [h0] at hov
      simp only [Ordered] at hov
      rw [hov] at hvl; cases hvl
    obtain ⟨lv, rv, hlv⟩ := hacq v hv hva
    rw [hlv] at hov
    have h1 := hov.1 l hvl
    have h2 := hmax v hv
    simp only [wanted, hl, hlv] at h2
    omega
  · obtain ⟨acts, held⟩ := t
    obtain rfl : acts = .acq l :: r := hl
    obtain ⟨a, b, rfl⟩ := List.append_of_mem ht
    exact hno _ (Step.acq hh)

theorem reached_ordered {rank : L → Nat} {traces : List (List (Act L))} (ht : ∀ t ∈ traces, Ordered rank [] t)
    {s : List (Thread L)} (hs : Reached traces s) : AllOrdered rank s := by
  induction hs with
  | refl =>
    intro t hx
    obtain ⟨tr, htr, rfl⟩ := List.mem_map.1 hx
    exact ht tr htr
  | tail _ hn ih => exact ordered_next ih hn

/-- The actions left. -/
def workLeft (s : List (Thread L)) : Nat := (s.map fun t => t.acts.length).sum

theorem step_work {s s' : List (Thread L)} (hs : Step s s') : workLeft s' < workLeft s := by
  cases hs <;> simp [workLeft]

/-! ## The traces of the calls -/

/-- The order of the locks. -/
def lockRank : Lock → Nat
  | .initLib => 0
  | .splitterInit => 1
  | .splitter => 2
  | .allRule => 3
  | .rules => 4
  | .patterns => 5
  | .regexs => 6

theorem ordered_touch {held : List Lock} {l : Lock} (hl : ∀ x ∈ held, lockRank x < lockRank l) {r : List (Act Lock)}
    (hr : Ordered lockRank held r) : ∀ n, Ordered lockRank held (touch l n ++ r)
  | 0 => hr
  | n + 1 => ⟨hl, held, rfl, ordered_touch hl hr n⟩

theorem ordered_call (c : ConcCall) {r : List (Act Lock)} (hr : Ordered lockRank [] r) : Ordered lockRank [] (c.acts ++ r) := by
  cases c with
  | initRun added patterns =>
    simp only [ConcCall.acts, List.cons_append, List.append_assoc]
    have h1 : Ordered lockRank [.rules, .initLib] ([.rel .rules, .rel .initLib] ++ r) := ⟨_, rfl, _, rfl, hr⟩
    have h2 : Ordered lockRank [.initLib] (.acq .rules :: (touch .patterns patterns ++ ([.rel .rules, .rel .initLib] ++ r))) :=
      ⟨by simp [lockRank], ordered_touch (by simp [lockRank]) h1 _⟩
    exact ⟨by simp, ordered_touch (by simp [lockRank]) h2 _⟩
  | initWait => exact ⟨by simp, _, rfl, hr⟩
  | parseEmpty => exact hr
  | parse first regexs =>
    simp only [ConcCall.acts, List.cons_append, List.append_assoc]
    have h0 : Ordered lockRank [.rules, .splitter] ([.rel .rules, .rel .splitter] ++ r) := ⟨_, rfl, _, rfl, hr⟩
    have h1 : Ordered lockRank [.splitterInit] (.rel .splitterInit :: .acq .splitter :: .acq .rules ::
        (touch .regexs regexs ++ ([.rel .rules, .rel .splitter] ++ r))) :=
      ⟨_, rfl, by simp, by simp [lockRank], ordered_touch (by simp [lockRank]) h0 _⟩
    refine ⟨by simp, ?_⟩
    cases first with
    | false => exact h1
    | true => exact ordered_touch (by simp [lockRank]) h1 1
  | combAll first =>
    simp only [ConcCall.acts, List.cons_append, List.append_assoc]
    refine ⟨by simp, ?_⟩
    cases first with
    | false => exact ⟨_, rfl, hr⟩
    | true => exact ⟨by simp [lockRank], _, rfl, _, rfl, hr⟩

theorem ordered_calls : ∀ cs : List ConcCall, Ordered lockRank [] (callsActs cs)
  | [] => rfl
  | c :: cs => by
    have := ordered_call c (ordered_calls cs)
    simpa [callsActs] using this

end Visdom
