import Verif.Proofs.AddExact
import Verif.Proofs.Agree
import Verif.Props.Add
import Verif.Props.Common
/-!
# C15 and C20: exactly when `add` is right

For two document ordered sets of one document, `add` is right unless the second set contains the last element of the
receiver and goes beyond it. In that remaining case the outcome is decided here completely: elements are lost exactly
when the whole receiver is in the second set; otherwise nothing is lost, and the order is right exactly when the
second set is at least as long as the receiver, or one of its own elements lies between the receiver's element at
position `S.length` and the receiver's last.
-/
namespace Visdom
open Spec

variable {h : Heap} {r : Nat} {env : Env} {rt : Bool}

/-- The condition under which the union of two document ordered sets is right: if `S` contains the last element of `F` and
goes beyond it, it must not contain all of `F`, and must be at least as long as `F` or have an element not in `F` between
the element of `F` at position `S.length` and the last one. -/
def Spec.UnionRight (h : Heap) (r : Nat) (F S : List Nat) : Prop :=
  ∀ e, F.getLast? = some e → e ∈ S → (∃ s ∈ S, Before h r e s) →
    (∃ x ∈ F, x ∉ S) ∧ (F.length ≤ S.length ∨ ∃ g s, F[S.length]? = some g ∧ s ∈ S ∧ s ∉ F ∧ Before h r g s ∧ Before h r s e)

/-- C15: the receiver is contained in the second set: everything of the second set behind the receiver's last element
is lost. -/
theorem C15_lost_exact (wf : TreeWF h r) {F S l : List Nat} (hF : ∀ x ∈ F, Within h r x) (hS : ∀ x ∈ S, Within h r x)
    (sF : DocSorted h r F) (sS : DocSorted h r S) (hl : addElems h F S = .ok l) (hsub : ∀ x ∈ F, x ∈ S) {e : Nat}
    (he : F.getLast? = some e) {s : Nat} (hs : s ∈ S) (hes : Before h r e s) : s ∉ l := by
  have kF := klt_of_sorted wf hF sF
  have kS := klt_of_sorted wf hS sS
  have heF := List.mem_of_getLast? he
  have hFe : F ≠ [] := List.ne_nil_of_mem heF
  have hSe : S ≠ [] := List.ne_nil_of_mem hs
  obtain ⟨m, hm, _⟩ := addMids_total (h := h) hFe S.length S 0
  have hl' : l = assemble F 0 m := by
    rw [show addElems h F S = .ok (assemble F 0 m) by simp [addElems, hFe, hSe, hm, Except.map]] at hl
    exact (Except.ok.inj hl).symm
  have hk := (before_iff wf (hF e heF) (hS s hs)).1 hes
  rw [hl', assemble_mem]
  rintro (h1 | h1)
  · obtain ⟨i, hi⟩ := List.getElem?_of_mem h1
    rcases le_last kF he hi with h2 | h2
    · rw [h2] at hk; exact KLt.irrefl hk
    · exact h2.asymm hk
  · obtain ⟨q, hq, rfl⟩ := List.mem_map.1 h1
    exact addMids_lost kF S.length he S 0 m kS (fun s hs f hf => key_inj wf (hS s hs) (hF f hf))
      (fun j g _ hg => hsub g (List.mem_of_getElem? hg)) hm q hq hk

/-- `Within` for every node of the sample document. -/
theorem demo_within {l : List Nat} (hl : ∀ x ∈ l, x ∈ [1, 2, 5, 6, 7, 8, 9]) : ∀ x ∈ l, Within demo 0 x := by
  intro x hx
  have := hl x hx
  simp only [List.mem_cons, List.not_mem_nil, or_false] at this
  rcases this with rfl | rfl | rfl | rfl | rfl | rfl | rfl
  · exact wfCheck_within [0] (by decide) rfl
  · exact wfCheck_within [0, 1] (by decide) rfl
  · exact wfCheck_within [0, 1] (by decide) rfl
  · exact wfCheck_within [0, 1, 5] (by decide) rfl
  · exact wfCheck_within [0, 1, 5] (by decide) rfl
  · exact wfCheck_within [0] (by decide) rfl
  · exact wfCheck_within [0, 8] (by decide) rfl

/-- The `ul` is lost: `{p, div}` is contained in `{p, div, ul}`. -/
example : ∃ l, addElems demo [2, 5] [2, 5, 8] = .ok l ∧ 8 ∉ l := by
  have w1 : ∀ x ∈ [2, 5], Within demo 0 x := demo_within (by decide)
  have w2 : ∀ x ∈ [2, 5, 8], Within demo 0 x := demo_within (by decide)
  refine ⟨[2, 5], by decide, C15_lost_exact demo_wf w1 w2 (sorted_of_klt demo_wf w1 (by decide)) (sorted_of_klt demo_wf w2 (by decide))
    (by decide) (by decide) (e := 5) rfl (by decide) ?_⟩
  exact (before_iff demo_wf (w1 5 (by decide)) (w2 8 (by decide))).2 (by decide)

/-- C15: the receiver is not contained in the second set, whose elements reach beyond a shared last element: nothing
is lost, and the order is right exactly when the second set is at least as long or `S` has an element outside `F`
between the receiver's element at position `S.length` and its last one. -/
theorem C15_order_exact (wf : TreeWF h r) {F S : List Nat} (hF : ∀ x ∈ F, Within h r x) (hS : ∀ x ∈ S, Within h r x)
    (sF : DocSorted h r F) (sS : DocSorted h r S) (hsub : ∃ x ∈ F, x ∉ S) {e : Nat} (he : F.getLast? = some e) (heS : e ∈ S)
    (hes : ∃ s ∈ S, Before h r e s) :
    ∃ l, addElems h F S = .ok l ∧ (∀ x, x ∈ l ↔ x ∈ F ∨ x ∈ S) ∧
      (DocSorted h r l ↔ F.length ≤ S.length ∨
        ∃ g s, F[S.length]? = some g ∧ s ∈ S ∧ s ∉ F ∧ Before h r g s ∧ Before h r s e) := by
  have kF := klt_of_sorted wf hF sF
  have kS := klt_of_sorted wf hS sS
  have heF := List.mem_of_getLast? he
  have hFe : F ≠ [] := List.ne_nil_of_mem heF
  have hSe : S ≠ [] := List.ne_nil_of_mem heS
  obtain ⟨m, hm, hms⟩ := addMids_total (h := h) hFe S.length S 0
  have hex : ∃ t ∈ S, KLt h e t := by
    obtain ⟨s, h1, h2⟩ := hes
    exact ⟨s, h1, (before_iff wf (hF e heF) (hS s h1)).1 h2⟩
  obtain ⟨m1, T, rfl, k1, k2, k3, k4⟩ := addMids_spill kF S.length he S 0 m (List.length_pos_iff.2 hFe) kS
    (fun s hs f hf => key_inj wf (hS s hs) (hF f hf)) (fun s _ i f hi => absurd hi (Nat.not_lt_zero i)) heS hex (by
      obtain ⟨x, h1, h2⟩ := hsub
      obtain ⟨j, hj⟩ := List.getElem?_of_mem h1
      exact Or.inl ⟨j, x, Nat.zero_le _, hj, h2⟩) hm
  have hmapT : (T.map (·, S.length)).map (·.1) = T := by rw [List.map_map]; exact List.map_id _
  have hmem : ∀ x, x ∈ assemble F 0 (m1 ++ T.map (·, S.length)) ↔ x ∈ F ∨ x ∈ S := by
    intro x
    rw [assemble_mem, List.map_append, List.mem_append, k3, hmapT, k1]
    constructor
    · rintro (h1 | h1 | h1)
      · exact Or.inl h1
      · exact Or.inr h1.1
      · exact Or.inr h1.1
    · rintro (h1 | h1)
      · exact Or.inl h1
      · by_cases hxF : x ∈ F
        · exact Or.inl hxF
        · cases hc : cmpE h x e with
          | lt => exact Or.inr (Or.inl ⟨h1, hxF, hc⟩)
          | eq => exact absurd (key_inj wf (hS x h1) (hF e heF) (cmpE_eq.1 hc) ▸ heF) hxF
          | gt => exact Or.inr (Or.inr ⟨h1, cmpE_gt.1 hc⟩)
  have hW : ∀ x ∈ assemble F 0 (m1 ++ T.map (·, S.length)), Within h r x := by
    intro x hx
    rcases (hmem x).1 hx with h1 | h1
    · exact hF x h1
    · exact hS x h1
  -- placed behind everything, the tail is in order
  have hend : ∀ N, F.length ≤ N → (assemble F 0 (m1 ++ T.map (·, N))).Pairwise (KLt h) := by
    intro N hN
    have hle : ∀ q ∈ m1, q.2 ≤ N := fun q hq => Nat.le_trans (k2 q hq).2 hN
    refine assemble_sorted F kF 0 _ ?_ ?_ ?_
    · intro q hq
      rcases List.mem_append.1 hq with h1 | h1
      · exact (k2 q h1).1
      · obtain ⟨t, ht, rfl⟩ := List.mem_map.1 h1
        have het := ((k1 t).1 ht).2
        refine ⟨Nat.zero_le _, fun j f hj => ⟨fun _ => ?_, fun h2 => ?_⟩⟩
        · rcases le_last kF he hj with rfl | h3
          · exact het
          · exact h3.trans het
        · have := getElem?_lt hj
          simp only [Nat.zero_add] at h2
          omega
    · have : (m1 ++ T.map (·, N)).map (·.1) = (m1 ++ T.map (·, S.length)).map (·.1) := by simp
      rw [this]
      exact kS.sublist hms
    · rw [List.map_append, List.pairwise_append]
      refine ⟨k4, ?_, fun a ha b hb => ?_⟩
      · rw [List.map_map]
        exact List.pairwise_map.2 (List.pairwise_of_forall (fun _ _ => Nat.le_refl _))
      · obtain ⟨q, hq, rfl⟩ := List.mem_map.1 ha
        obtain ⟨p, hp, rfl⟩ := List.mem_map.1 hb
        obtain ⟨t, _, rfl⟩ := List.mem_map.1 hp
        exact hle q hq
  refine ⟨_, by simp [addElems, hFe, hSe, hm, Except.map], hmem, ?_, ?_⟩
  · intro hso
    by_cases hlen : F.length ≤ S.length
    · exact Or.inl hlen
    right
    have hg : F[S.length]? = some F[S.length] := List.getElem?_eq_getElem (by omega)
    by_cases hall : ∀ q ∈ m1, q.2 ≤ S.length
    · exfalso
      obtain ⟨t, htS, het⟩ := hex
      obtain ⟨A, B, h1, h2⟩ := assemble_early (T := T) (sn := S.length) ((k1 t).2 ⟨htS, het⟩) F 0 m1 _ (Nat.zero_le _) hg
        (fun q hq => ⟨Nat.zero_le _, hall q hq⟩) k4
      have hk := klt_of_sorted wf hW hso
      rw [h1, List.pairwise_append] at hk
      have htg := hk.2.2 t h2 F[S.length] List.mem_cons_self
      rcases le_last kF he hg with h3 | h3
      · rw [h3] at htg; exact htg.asymm het
      · exact (htg.trans h3).asymm het
    · push Not at hall
      obtain ⟨q, hq, hlt⟩ := hall
      obtain ⟨h1, h2, h3⟩ := (k3 q.1).1 (List.mem_map_of_mem hq)
      refine ⟨_, q.1, hg, h1, h2, ?_, (before_iff wf (hS _ h1) (hF e heF)).2 h3⟩
      exact (before_iff wf (hF _ (List.mem_of_getElem? hg)) (hS _ h1)).2 (((k2 q hq).1.2 _ _ hg).1 (by simpa using hlt))
  · rintro (hlen | ⟨g, s, hg, hs, hsF, hgs, hse⟩)
    · exact sorted_of_klt wf hW (hend _ hlen)
    · have hse' := (before_iff wf (hS s hs) (hF e heF)).1 hse
      have hgs' := (before_iff wf (hF g (List.mem_of_getElem? hg)) (hS s hs)).1 hgs
      obtain ⟨q, hq, rfl⟩ := List.mem_map.1 ((k3 s).2 ⟨hs, hsF, hse'⟩)
      have hlt : S.length < q.2 := by
        rcases Nat.lt_or_ge S.length q.2 with h1 | h1
        · exact h1
        · exact absurd (((k2 q hq).1.2 _ _ hg).2 (by simpa using h1)) (fun h2 => h2.asymm hgs')
      refine sorted_of_klt wf hW ?_
      rw [assemble_passed F 0 m1 F.length (by omega) (Or.inr ⟨q, hq, hlt⟩)]
      exact hend _ (Nat.le_refl _)

/-- C15, the exact condition: for two document ordered sets of one document, `a.add(b)` is their union in document
order **iff** `UnionRight`. -/
theorem C15_exact_partial (wf : TreeWF h r) {F S : List Nat} (hF : ∀ x ∈ F, Within h r x) (hS : ∀ x ∈ S, Within h r x)
    (sF : DocSorted h r F) (sS : DocSorted h r S) :
    (∃ l, addElems h F S = .ok l ∧ DocSorted h r l ∧ ∀ x, x ∈ l ↔ x ∈ F ∨ x ∈ S) ↔ UnionRight h r F S := by
  constructor
  · rintro ⟨l, h1, h2, h3⟩ e he heS hes
    have hsub : ∃ x ∈ F, x ∉ S := by
      by_contra hc
      push Not at hc
      obtain ⟨s, hs, hb⟩ := hes
      exact C15_lost_exact wf hF hS sF sS h1 hc he hs hb ((h3 s).2 (Or.inr hs))
    obtain ⟨l', h1', _, h4⟩ := C15_order_exact wf hF hS sF sS hsub he heS hes
    rw [h1] at h1'
    obtain rfl := Except.ok.inj h1'
    exact ⟨hsub, h4.1 h2⟩
  · intro hc
    by_cases hsp : ∃ e, F.getLast? = some e ∧ e ∈ S ∧ ∃ s ∈ S, Before h r e s
    · obtain ⟨e, he, heS, hes⟩ := hsp
      obtain ⟨c1, c2⟩ := hc e he heS hes
      obtain ⟨l, h1, h2, h3⟩ := C15_order_exact wf hF hS sF sS c1 he heS hes
      exact ⟨l, h1, h3.2 c2, h2⟩
    · obtain ⟨l, h1, h2, _, h3⟩ := C15_add_union_partial wf hF hS sF sS (fun e he heS s hs hb => hsp ⟨e, he, heS, s, hs, hb⟩)
      exact ⟨l, h1, h2, h3⟩

/-- Both kinds of the remaining case: with a shorter second set whose `span` lies between the receiver's fourth element and
its last the order is right, without the `span` it is not. -/
example : addElems demo [1, 2, 5, 6, 8] [7, 8, 9] = .ok [1, 2, 5, 6, 7, 8, 9] ∧ addElems demo [1, 2, 5, 6, 8] [8, 9] = .ok [1, 2, 9, 5, 6, 8] ∧
    (∃ l, addElems demo [1, 2, 5, 6, 8] [7, 8, 9] = .ok l ∧ DocSorted demo 0 l ∧ ∀ x, x ∈ l ↔ x ∈ [1, 2, 5, 6, 8] ∨ x ∈ [7, 8, 9]) ∧
    ¬ ∃ l, addElems demo [1, 2, 5, 6, 8] [8, 9] = .ok l ∧ DocSorted demo 0 l ∧ ∀ x, x ∈ l ↔ x ∈ [1, 2, 5, 6, 8] ∨ x ∈ [8, 9] := by
  have w1 : ∀ x ∈ [1, 2, 5, 6, 8], Within demo 0 x := demo_within (by decide)
  have w2 : ∀ x ∈ [7, 8, 9], Within demo 0 x := demo_within (by decide)
  have w3 : ∀ x ∈ [8, 9], Within demo 0 x := demo_within (by decide)
  have s1 := sorted_of_klt demo_wf w1 (by decide)
  refine ⟨by decide, by decide, ?_, ?_⟩
  · refine (C15_exact_partial demo_wf w1 w2 s1 (sorted_of_klt demo_wf w2 (by decide))).2 fun e he _ _ => ?_
    obtain rfl : 8 = e := Option.some.inj he
    refine ⟨⟨1, by decide⟩, Or.inr ⟨6, 7, by decide, by decide, by decide, ?_, ?_⟩⟩
    · exact (before_iff demo_wf (w1 6 (by decide)) (w2 7 (by decide))).2 (by decide)
    · exact (before_iff demo_wf (w2 7 (by decide)) (w1 8 (by decide))).2 (by decide)
  · intro hc
    obtain ⟨_, h1 | ⟨g, s, h1, h2, h3, h4, h5⟩⟩ := (C15_exact_partial demo_wf w1 w3 s1 (sorted_of_klt demo_wf w3 (by decide))).1 hc 8 rfl
      (by decide) ⟨9, by decide, (before_iff demo_wf (w1 8 (by decide)) (w3 9 (by decide))).2 (by decide)⟩
    · exact absurd h1 (by decide)
    · have h5' := (before_iff demo_wf (w3 s h2) (w1 8 (by decide))).1 h5
      simp only [List.mem_cons, List.not_mem_nil, or_false] at h2
      rcases h2 with rfl | rfl
      · exact absurd h5' (by decide)
      · exact absurd h5' (by decide)

/-- C20, the exact condition for two selectors with document ordered results: `find("a, b")` is the union of `find("a")` and
`find("b")` in document order iff `UnionRight` holds of the two results. -/
theorem C20_two_exact_partial (wf : TreeWF h r) {a b : Complex} {S A B : List Nat} (hne : S ≠ []) (hA : find h env S [a] = .ok A)
    (hB : find h env S [b] = .ok B) (wA : ∀ x ∈ A, Within h r x) (wB : ∀ x ∈ B, Within h r x)
    (sA : DocSorted h r A) (sB : DocSorted h r B) :
    (∃ l, find h env S [a, b] = .ok l ∧ DocSorted h r l ∧ ∀ x, x ∈ l ↔ x ∈ A ∨ x ∈ B) ↔ UnionRight h r A B := by
  rw [find_two hne hA hB]
  exact C15_exact_partial wf wA wB sA sB

/-- `find("div, *")`: the union is wrong, `div` being contained in `*`, and the condition fails. -/
example : find demo env0 [0] [[(.childrenAll, [ty "div"])]] = .ok [1, 5] ∧ find demo env0 [0] [[(.childrenAll, [.all])]] = .ok [1, 2, 5, 6, 7, 8, 9] ∧
    find demo env0 [0] [[(.childrenAll, [ty "div"])], [(.childrenAll, [.all])]] = .ok [1, 2, 5] ∧ ¬ UnionRight demo 0 [1, 5] [1, 2, 5, 6, 7, 8, 9] := by
  refine ⟨by decide, by decide, by decide, fun hu => ?_⟩
  obtain ⟨⟨x, h1, h2⟩, _⟩ := hu 5 rfl (by decide) ⟨8, by decide,
    (before_iff demo_wf (demo_within (l := [5]) (by decide) 5 (by decide)) (demo_within (l := [8]) (by decide) 8 (by decide))).2 (by decide)⟩
  revert x
  decide

/-- C20 for two common selectors with descendant combinators: they answer with exactly what they select, and the list of
both answers with the union in document order iff `UnionRight` holds of the two results. -/
theorem C20_two_common_exact_partial (wf : TreeWF h r) (ev : Metas h r) (sm : Small h r) (gr : Grounded h r env rt) {a b : Complex}
    (ha : Common rt a ∧ Steady a ∧ ∀ s ∈ a, s.1 = Comb.childrenAll) (hb : Common rt b ∧ Steady b ∧ ∀ s ∈ b, s.1 = Comb.childrenAll)
    {S : List Nat} (hne : S ≠ []) (hS : Nodes h r S) (hs : DocSorted h r S) :
    ∃ A B, DocSorted h r A ∧ (∀ x, x ∈ A ↔ Sel h r (· ∈ S) (steps h r env a) x) ∧
      DocSorted h r B ∧ (∀ x, x ∈ B ↔ Sel h r (· ∈ S) (steps h r env b) x) ∧
      ((∃ l, find h env S [a, b] = .ok l ∧ DocSorted h r l ∧
          ∀ x, x ∈ l ↔ Sel h r (· ∈ S) (steps h r env a) x ∨ Sel h r (· ∈ S) (steps h r env b) x) ↔ UnionRight h r A B) := by
  obtain ⟨A, hA, a1, _, a2⟩ := C18_find_common wf ev sm gr ha.1 ha.2.1 ha.2.2 hS hs
  obtain ⟨B, hB, b1, _, b2⟩ := C18_find_common wf ev sm gr hb.1 hb.2.1 hb.2.2 hS hs
  have wA : ∀ x ∈ A, Within h r x := fun x hx => sel_inside (fun y hy => (hS y hy).1) x ((a2 x).1 hx)
  have wB : ∀ x ∈ B, Within h r x := fun x hx => sel_inside (fun y hy => (hS y hy).1) x ((b2 x).1 hx)
  refine ⟨A, B, a1, a2, b1, b2, ?_⟩
  rw [← C20_two_exact_partial wf hne hA hB wA wB a1 b1]
  simp only [a2, b2]

end Visdom
