import Verif.Proofs.Sets
/-! # Lemmas for `add`: the second set contains the last element of the first and goes beyond it -/
namespace Visdom
open Spec
variable {h : Heap}

theorem KLt.asymm {a b : Nat} (h1 : KLt h a b) (h2 : KLt h b a) : False := KLt.irrefl (h1.trans h2)

/-- Everything of the first set is in the second: what lies behind is lost. -/
theorem addMids_lost {F : List Nat} (hF : F.Pairwise (KLt h)) (sn : Nat) {e : Nat} (he : F.getLast? = some e) :
    ∀ S fl m, S.Pairwise (KLt h) → (∀ s ∈ S, ∀ f ∈ F, h.treeIndexs s = h.treeIndexs f → s = f) →
    (∀ j g, fl ≤ j → F[j]? = some g → g ∈ S) → addMids h F sn S fl = .ok m → ∀ q ∈ m, ¬ KLt h e q.1 := by
  intro S
  induction S with
  | nil =>
    intro fl m _ _ _ h1
    simp only [addMids, Except.ok.injEq] at h1
    subst h1
    simp
  | cons x xs ih =>
    intro fl m hS hinj hall h1
    have hxs := List.pairwise_cons.1 hS
    have hinj' : ∀ s ∈ xs, ∀ f ∈ F, h.treeIndexs s = h.treeIndexs f → s = f := fun s hs => hinj s (List.mem_cons_of_mem _ hs)
    simp only [addMids] at h1
    split at h1
    · obtain rfl := Except.ok.inj h1; simp
    · rename_i f hf
      have hfF := List.mem_of_getElem? hf
      split at h1
      · rename_i hc
        have hxf := hinj x List.mem_cons_self f hfF (cmpE_eq.1 hc)
        refine ih (fl + 1) m hxs.2 hinj' (fun j g hj hg => ?_) h1
        rcases List.mem_cons.1 (hall j g (by omega) hg) with rfl | h2
        · have := KLt.of_get hF (show fl < j by omega) hf hg
          rw [hxf] at this
          exact absurd this KLt.irrefl
        · exact h2
      · rename_i hc
        exfalso
        have hfx := cmpE_gt.1 hc
        rcases List.mem_cons.1 (hall fl f (Nat.le_refl _) hf) with rfl | h2
        · exact KLt.irrefl hfx
        · exact (hxs.1 f h2).asymm hfx
      · rename_i hc
        have hxf : KLt h x f := hc
        have hfe := le_last hF he hf
        have hlast : ∀ s ∈ x :: xs, s = (x :: xs).getLast (by simp) ∨ KLt h s ((x :: xs).getLast (by simp)) := by
          intro s hs
          obtain ⟨i, hi⟩ := List.getElem?_of_mem hs
          exact le_last hS (List.getLast?_eq_getLast_of_ne_nil (by simp)) hi
        split at h1
        · rename_i hl
          exfalso
          have hl' : KLt h ((x :: xs).getLast (by simp)) f := hl
          rcases hlast f (hall fl f (Nat.le_refl _) hf) with h2 | h2
          · rw [← h2] at hl'; exact KLt.irrefl hl'
          · exact h2.asymm hl'
        · cases hm : addMids h F sn xs fl with
          | error p => rw [hm] at h1; cases h1
          | ok m' =>
            rw [hm] at h1
            obtain rfl := Except.ok.inj h1
            intro q hq
            rcases List.mem_cons.1 hq with rfl | hq
            · intro hex
              rcases hfe with rfl | h2
              · exact hxf.asymm hex
              · exact (hxf.trans h2).asymm hex
            · refine ih fl m' hxs.2 hinj' (fun j g hj hg => ?_) hm q hq
              rcases List.mem_cons.1 (hall j g hj hg) with rfl | h2
              · exfalso
                rcases Nat.lt_or_ge fl j with h3 | h3
                · exact (KLt.of_get hF h3 hf hg).asymm hxf
                · obtain rfl : j = fl := by omega
                  rw [hf] at hg
                  obtain rfl := Option.some.inj hg
                  exact KLt.irrefl hxf
              · exact h2
        · rename_i hl
          obtain rfl := Except.ok.inj h1
          have hlf : (x :: xs).getLast (by simp) = f := hinj _ (List.getLast_mem _) f hfF (cmpE_eq.1 hl)
          intro q hq hex
          obtain ⟨s, hs, rfl⟩ := List.mem_map.1 hq
          have hs' : s ∈ x :: xs := (List.dropLast_sublist _).subset hs
          have hsf : s = f ∨ KLt h s f := by rw [← hlf]; exact hlast s hs'
          have hes : KLt h e s := hex
          rcases hsf with rfl | h2 <;> rcases hfe with h3 | h3
          · rw [h3] at hes; exact KLt.irrefl hes
          · exact h3.asymm hes
          · rw [← h3] at hes; exact h2.asymm hes
          · exact (h2.trans h3).asymm hes

/-- Not everything of the first set is in the second: what lies behind is recorded with the length of the second list as its place. -/
theorem addMids_spill {F : List Nat} (hF : F.Pairwise (KLt h)) (sn : Nat) {e : Nat} (he : F.getLast? = some e) :
    ∀ S fl m, fl < F.length → S.Pairwise (KLt h) → (∀ s ∈ S, ∀ f ∈ F, h.treeIndexs s = h.treeIndexs f → s = f) →
    (∀ s ∈ S, ∀ i f, i < fl → F[i]? = some f → KLt h f s) → e ∈ S → (∃ t ∈ S, KLt h e t) →
    ((∃ j g, fl ≤ j ∧ F[j]? = some g ∧ g ∉ S) ∨ ∀ f, F[fl]? = some f → ∀ s ∈ S, KLt h f s) → addMids h F sn S fl = .ok m →
    ∃ (m1 : List (Nat × Nat)) (T : List Nat), m = m1 ++ T.map (·, sn) ∧ (∀ t, t ∈ T ↔ t ∈ S ∧ KLt h e t) ∧
      (∀ q ∈ m1, Placed h F 0 q ∧ q.2 ≤ F.length) ∧ (∀ s, s ∈ m1.map (·.1) ↔ s ∈ S ∧ s ∉ F ∧ KLt h s e) ∧
      (m1.map (·.2)).Pairwise (· ≤ ·) := by
  intro S
  induction S with
  | nil => intro fl m _ _ _ _ heS; cases heS
  | cons x xs ih =>
    intro fl m hflt hS hinj hinv heS hex hst h1
    have hxs := List.pairwise_cons.1 hS
    have heF : e ∈ F := List.mem_of_getLast? he
    have hinj' : ∀ s ∈ xs, ∀ f ∈ F, h.treeIndexs s = h.treeIndexs f → s = f := fun s hs => hinj s (List.mem_cons_of_mem _ hs)
    have hinv' : ∀ s ∈ xs, ∀ i f, i < fl → F[i]? = some f → KLt h f s := fun s hs => hinv s (List.mem_cons_of_mem _ hs)
    -- what the induction gives when `x` lies before `e`
    have down : KLt h x e → e ∈ xs ∧ ∃ t ∈ xs, KLt h e t := by
      intro hxe
      constructor
      · rcases List.mem_cons.1 heS with rfl | h2
        · exact absurd hxe KLt.irrefl
        · exact h2
      · obtain ⟨t, ht, het⟩ := hex
        rcases List.mem_cons.1 ht with rfl | h2
        · exact absurd het (fun h3 => hxe.asymm h3)
        · exact ⟨t, h2, het⟩
    have tails : KLt h x e → ∀ {T : List Nat}, (∀ t, t ∈ T ↔ t ∈ xs ∧ KLt h e t) → ∀ t, t ∈ T ↔ t ∈ x :: xs ∧ KLt h e t := by
      intro hxe T hT t
      rw [hT, List.mem_cons]
      constructor
      · rintro ⟨h2, h3⟩; exact ⟨Or.inr h2, h3⟩
      · rintro ⟨rfl | h2, h3⟩
        · exact absurd h3 (fun h3 => hxe.asymm h3)
        · exact ⟨h2, h3⟩
    -- `x` is recorded with the place `p`
    have record : KLt h x e → x ∉ F → ∀ p, p ≤ F.length → Placed h F 0 (x, p) → ∀ {m'}, m = (x, p) :: m' →
        (∃ (m1 : List (Nat × Nat)) (T : List Nat), m' = m1 ++ T.map (·, sn) ∧ (∀ t, t ∈ T ↔ t ∈ xs ∧ KLt h e t) ∧
          (∀ q ∈ m1, Placed h F 0 q ∧ q.2 ≤ F.length) ∧ (∀ s, s ∈ m1.map (·.1) ↔ s ∈ xs ∧ s ∉ F ∧ KLt h s e) ∧
          (m1.map (·.2)).Pairwise (· ≤ ·)) →
        ∃ (m1 : List (Nat × Nat)) (T : List Nat), m = m1 ++ T.map (·, sn) ∧ (∀ t, t ∈ T ↔ t ∈ x :: xs ∧ KLt h e t) ∧
          (∀ q ∈ m1, Placed h F 0 q ∧ q.2 ≤ F.length) ∧ (∀ s, s ∈ m1.map (·.1) ↔ s ∈ x :: xs ∧ s ∉ F ∧ KLt h s e) ∧
          (m1.map (·.2)).Pairwise (· ≤ ·) := by
      rintro hxe hxF p hp hpl m' hm ⟨m1, T, rfl, k1, k2, k3, k4⟩
      refine ⟨(x, p) :: m1, T, hm, tails hxe k1, fun q hq => ?_, fun s => ?_, ?_⟩
      · rcases List.mem_cons.1 hq with rfl | hq
        · exact ⟨hpl, hp⟩
        · exact k2 q hq
      · rw [List.map_cons, List.mem_cons, k3, List.mem_cons]
        constructor
        · rintro (rfl | ⟨h2, h3⟩)
          · exact ⟨Or.inl rfl, hxF, hxe⟩
          · exact ⟨Or.inr h2, h3⟩
        · rintro ⟨rfl | h2, h3⟩
          · exact Or.inl rfl
          · exact Or.inr ⟨h2, h3⟩
      · rw [List.map_cons, List.pairwise_cons]
        refine ⟨fun n hn => ?_, k4⟩
        obtain ⟨q, hq, rfl⟩ := List.mem_map.1 hn
        refine mono_of_placed (fun q hq => (k2 q hq).1) hpl hp (fun q hq => ?_) q hq
        exact hxs.1 _ ((k3 q.1).1 (List.mem_map_of_mem hq)).1
    -- `x` is in the first set
    have skip : KLt h x e → x ∈ F →
        (∃ (m1 : List (Nat × Nat)) (T : List Nat), m = m1 ++ T.map (·, sn) ∧ (∀ t, t ∈ T ↔ t ∈ xs ∧ KLt h e t) ∧
          (∀ q ∈ m1, Placed h F 0 q ∧ q.2 ≤ F.length) ∧ (∀ s, s ∈ m1.map (·.1) ↔ s ∈ xs ∧ s ∉ F ∧ KLt h s e) ∧
          (m1.map (·.2)).Pairwise (· ≤ ·)) →
        ∃ (m1 : List (Nat × Nat)) (T : List Nat), m = m1 ++ T.map (·, sn) ∧ (∀ t, t ∈ T ↔ t ∈ x :: xs ∧ KLt h e t) ∧
          (∀ q ∈ m1, Placed h F 0 q ∧ q.2 ≤ F.length) ∧ (∀ s, s ∈ m1.map (·.1) ↔ s ∈ x :: xs ∧ s ∉ F ∧ KLt h s e) ∧
          (m1.map (·.2)).Pairwise (· ≤ ·) := by
      rintro hxe hxF ⟨m1, T, hm, k1, k2, k3, k4⟩
      refine ⟨m1, T, hm, tails hxe k1, k2, fun s => ?_, k4⟩
      rw [k3, List.mem_cons]
      constructor
      · rintro ⟨h2, h3⟩; exact ⟨Or.inr h2, h3⟩
      · rintro ⟨rfl | h2, h3⟩
        · exact absurd hxF h3.1
        · exact ⟨h2, h3⟩
    simp only [addMids] at h1
    split at h1
    · rename_i hf
      rw [List.getElem?_eq_getElem hflt] at hf; cases hf
    · rename_i f hf
      have hfF := List.mem_of_getElem? hf
      split at h1
      · -- both move forward
        rename_i hc
        have hxf := hinj x List.mem_cons_self f hfF (cmpE_eq.1 hc)
        subst hxf
        rcases hst with ⟨j, g, hj, hg, hgS⟩ | hst
        swap
        · exact absurd (hst x hf x List.mem_cons_self) KLt.irrefl
        have hjfl : fl < j := by
          rcases Nat.lt_or_ge fl j with h2 | h2
          · exact h2
          · obtain rfl : j = fl := by omega
            rw [hf] at hg
            obtain rfl := Option.some.inj hg
            exact absurd List.mem_cons_self hgS
        have hxe : KLt h x e := by
          rcases le_last hF he hg with rfl | h2
          · exact KLt.of_get hF hjfl hf hg
          · exact (KLt.of_get hF hjfl hf hg).trans h2
        have := getElem?_lt hg
        obtain ⟨d1, d2⟩ := down hxe
        refine skip hxe hfF (ih (fl + 1) m (by omega) hxs.2 hinj' ?_ d1 d2 ?_ h1)
        · intro s hs i g' hi hg'
          rcases Nat.lt_or_ge i fl with h2 | h2
          · exact hinv' s hs i g' h2 hg'
          · obtain rfl : i = fl := by omega
            rw [hf] at hg'
            obtain rfl := Option.some.inj hg'
            exact hxs.1 s hs
        · exact Or.inl ⟨j, g, by omega, hg, fun hm => hgS (List.mem_cons_of_mem _ hm)⟩
      · -- `x` lies behind the current element of the first list
        rename_i hc
        have hfx : KLt h f x := cmpE_gt.1 hc
        rw [he] at h1
        simp only at h1
        split at h1
        · rename_i hc2
          exfalso
          have hex' := cmpE_gt.1 hc2
          rcases List.mem_cons.1 heS with rfl | h2
          · exact KLt.irrefl hex'
          · exact (hxs.1 e h2).asymm hex'
        · rename_i hc2
          have hxe : KLt h x e := hc2
          obtain ⟨d1, d2⟩ := down hxe
          have hlt : fl < F.length - 1 := by
            rcases Nat.lt_or_ge fl (F.length - 1) with h2 | h2
            · exact h2
            · have : fl = F.length - 1 := by omega
              rw [this, getLast?_get he] at hf
              obtain rfl := Option.some.inj hf
              exact absurd hxe (fun h3 => hfx.asymm h3)
          obtain ⟨mid, b, e1, b1, b2⟩ := bsearch_total (h := h) F x F.length fl (F.length - 1) (by omega) (by omega) (by omega)
          obtain ⟨s1, s2⟩ := bsearch_spec _ _ _ f e mid b e1 hlt hf (getLast?_get he) hfx hxe
          rw [e1] at h1
          have before : ∀ y, F[mid]? = some y → (y = x ∨ KLt h y x) → (∀ s ∈ xs, ∀ i g, i < mid → F[i]? = some g → KLt h g s) ∧
              ∀ g, F[mid]? = some g → ∀ s ∈ xs, KLt h g s := by
            intro y hy hyx
            have hys : ∀ s ∈ xs, KLt h y s := by
              intro s hs
              rcases hyx with rfl | h2
              · exact hxs.1 s hs
              · exact h2.trans (hxs.1 s hs)
            refine ⟨fun s hs i g hi hg => (KLt.of_get hF hi hg hy).trans (hys s hs), fun g hg s hs => ?_⟩
            rw [hy] at hg
            obtain rfl := Option.some.inj hg
            exact hys s hs
          cases b with
          | true =>
            obtain ⟨y, hy, hxy⟩ := s1 rfl
            have hxy' := hinj x List.mem_cons_self y (List.mem_of_getElem? hy) (cmpE_eq.1 hxy)
            subst hxy'
            obtain ⟨q1, q2⟩ := before x hy (Or.inl rfl)
            exact skip hxe (List.mem_of_getElem? hy) (ih mid m (by omega) hxs.2 hinj' q1 d1 d2 (Or.inr q2) h1)
          | false =>
            obtain ⟨⟨y, hy, hyx⟩, z, hz, hxz⟩ := s2 rfl
            obtain ⟨q1, q2⟩ := before y hy (Or.inr hyx)
            simp only at h1
            cases hm : addMids h F sn xs mid with
            | error p => rw [hm] at h1; cases h1
            | ok m' =>
              rw [hm] at h1
              obtain rfl := Except.ok.inj h1
              have hplaced : Placed h F 0 (x, mid + 1) := by
                refine ⟨Nat.zero_le _, fun j g hg => ⟨fun hj => ?_, fun hj => ?_⟩⟩
                · simp only [Nat.zero_add] at hj
                  rcases Nat.lt_or_ge j mid with h2 | h2
                  · exact (KLt.of_get hF h2 hg hy).trans hyx
                  · obtain rfl : j = mid := by omega
                    rw [hy] at hg
                    obtain rfl := Option.some.inj hg
                    exact hyx
                · simp only [Nat.zero_add] at hj
                  rcases Nat.lt_or_ge (mid + 1) j with h2 | h2
                  · exact hxz.trans (KLt.of_get hF h2 hz hg)
                  · obtain rfl : j = mid + 1 := by omega
                    rw [hz] at hg
                    obtain rfl := Option.some.inj hg
                    exact hxz
              have hxF : x ∉ F := by
                intro hxF
                obtain ⟨j, hj⟩ := List.getElem?_of_mem hxF
                rcases Nat.lt_or_ge j (mid + 1) with h2 | h2
                · exact KLt.irrefl ((hplaced.2 j x hj).1 (by simpa using h2))
                · exact KLt.irrefl ((hplaced.2 j x hj).2 (by simpa using h2))
              exact record hxe hxF (mid + 1) (by omega) hplaced rfl (ih mid m' (by omega) hxs.2 hinj' q1 d1 d2 (Or.inr q2) hm)
        · rename_i hc2
          obtain rfl := Except.ok.inj h1
          have hxe := hinj x List.mem_cons_self e heF (cmpE_eq.1 hc2)
          subst hxe
          refine ⟨[], xs, rfl, fun t => ?_, by simp, fun s => ?_, .nil⟩
          · rw [List.mem_cons]
            constructor
            · intro h2; exact ⟨Or.inr h2, hxs.1 t h2⟩
            · rintro ⟨rfl | h2, h3⟩
              · exact absurd h3 KLt.irrefl
              · exact h2
          · simp only [List.map_nil, List.not_mem_nil, false_iff, List.mem_cons]
            rintro ⟨rfl | h2, _, h3⟩
            · exact KLt.irrefl h3
            · exact (hxs.1 s h2).asymm h3
      · -- `x` lies before the current element of the first list
        rename_i hc
        have hxf : KLt h x f := hc
        have hfe := le_last hF he hf
        have hxe : KLt h x e := by
          rcases hfe with rfl | h2
          · exact hxf
          · exact hxf.trans h2
        have hbeyond : KLt h f ((x :: xs).getLast (by simp)) := by
          obtain ⟨t, ht, het⟩ := hex
          have hft : KLt h f t := by
            rcases hfe with rfl | h2
            · exact het
            · exact h2.trans het
          obtain ⟨i, hi⟩ := List.getElem?_of_mem ht
          rcases le_last hS (List.getLast?_eq_getLast_of_ne_nil (by simp)) hi with h2 | h2
          · rw [h2] at hft; exact hft
          · exact hft.trans h2
        split at h1
        · rename_i hl
          exact absurd hl (fun h2 => hbeyond.asymm h2)
        · cases hm : addMids h F sn xs fl with
          | error p => rw [hm] at h1; cases h1
          | ok m' =>
            rw [hm] at h1
            obtain rfl := Except.ok.inj h1
            obtain ⟨d1, d2⟩ := down hxe
            have hplaced : Placed h F 0 (x, fl) := by
              refine ⟨Nat.zero_le _, fun j g hg => ⟨fun hj => ?_, fun hj => ?_⟩⟩
              · exact hinv x List.mem_cons_self j g (by simpa using hj) hg
              · simp only [Nat.zero_add] at hj
                rcases Nat.lt_or_ge fl j with h2 | h2
                · exact hxf.trans (KLt.of_get hF h2 hf hg)
                · obtain rfl : j = fl := by omega
                  rw [hf] at hg
                  obtain rfl := Option.some.inj hg
                  exact hxf
            have hxF : x ∉ F := by
              intro hxF
              obtain ⟨j, hj⟩ := List.getElem?_of_mem hxF
              rcases Nat.lt_or_ge j fl with h2 | h2
              · exact KLt.irrefl ((hplaced.2 j x hj).1 (by simpa using h2))
              · exact KLt.irrefl ((hplaced.2 j x hj).2 (by simpa using h2))
            refine record hxe hxF fl (by omega) hplaced rfl (ih fl m' hflt hxs.2 hinj' hinv' d1 d2 ?_ hm)
            rcases hst with ⟨j, g, h2, h3, h4⟩ | hst
            · exact Or.inl ⟨j, g, h2, h3, fun hm => h4 (List.mem_cons_of_mem _ hm)⟩
            · exact absurd (hst f hf x List.mem_cons_self) (fun h3 => h3.asymm hxf)
        · rename_i hl
          have := cmpE_eq.1 hl
          exact absurd (hbeyond.congr_right this) KLt.irrefl

/-- Places that have been passed are as good as the end. -/
theorem assemble_passed {T : List Nat} {sn : Nat} : ∀ (F : List Nat) (i : Nat) (m : List (Nat × Nat)) (N : Nat), i + F.length ≤ N →
    (sn < i ∨ ∃ q ∈ m, sn < q.2) → assemble F i (m ++ T.map (·, sn)) = assemble F i (m ++ T.map (·, N)) := by
  intro F
  induction F with
  | nil => intro i m N _ _; simp [assemble]
  | cons f fs ih =>
    intro i m N hN hp
    rw [List.length_cons] at hN
    have key : ∀ n, n ≠ i ∨ (m.all (·.2 == i)) = false →
        (m ++ T.map (·, n)).takeWhile (·.2 == i) = m.takeWhile (·.2 == i) ∧
        (m ++ T.map (·, n)).dropWhile (·.2 == i) = m.dropWhile (·.2 == i) ++ T.map (·, n) := by
      intro n hn
      by_cases hall : m.all (·.2 == i) = true
      · have hni : n ≠ i := hn.resolve_right (by simp [hall])
        have hm : ∀ q ∈ m, (q.2 == i) = true := List.all_eq_true.1 hall
        have hT : ∀ q ∈ (T.map (·, n)).head?, (q.2 == i) = false := by
          intro q hq
          cases T with
          | nil => cases hq
          | cons t T => obtain rfl := Option.some.inj hq; simpa using hni
        have hT1 : (T.map (·, n)).takeWhile (·.2 == i) = [] := by
          cases T with
          | nil => rfl
          | cons t T => simp [hni]
        have hT2 : (T.map (·, n)).dropWhile (·.2 == i) = T.map (·, n) := by
          cases T with
          | nil => rfl
          | cons t T => simp [hni]
        rw [List.takeWhile_append_of_pos hm, List.dropWhile_append_of_pos hm, hT1, hT2, List.takeWhile_eq_self_iff.2 hm,
          List.dropWhile_eq_nil_iff.2 hm]
        simp
      · have hlen : (m.takeWhile (·.2 == i)).length ≠ m.length := by
          intro hl
          have := List.takeWhile_eq_self_iff.1 ((List.takeWhile_prefix _).eq_of_length hl)
          exact hall (List.all_eq_true.2 this)
        have hne : m.dropWhile (·.2 == i) ≠ [] := by
          intro h0
          exact hall (List.all_eq_true.2 (List.dropWhile_eq_nil_iff.1 h0))
        constructor
        · rw [List.takeWhile_append, if_neg hlen]
        · rw [List.dropWhile_append, if_neg (by simpa using hne)]
    have h1 := key sn (by
      by_cases hs : sn = i
      · right
        rcases hp with hp | ⟨q, hq, hlt⟩
        · omega
        · rw [List.all_eq_false]
          exact ⟨q, hq, by simp; omega⟩
      · exact Or.inl hs)
    have h2 := key N (Or.inl (by omega))
    simp only [assemble, h1.1, h1.2, h2.1, h2.2]
    rw [ih (i + 1) (m.dropWhile (·.2 == i)) N (by omega) ?_]
    rcases hp with hp | ⟨q, hq, hlt⟩
    · exact Or.inl (by omega)
    · have : q ∈ m.takeWhile (·.2 == i) ++ m.dropWhile (·.2 == i) := by rw [List.takeWhile_append_dropWhile]; exact hq
      rcases List.mem_append.1 this with h3 | h3
      · have := List.mem_takeWhile_imp h3
        have : q.2 = i := by simpa using this
        exact Or.inl (by omega)
      · exact Or.inr ⟨q, h3, hlt⟩

/-- Otherwise they stand before the element of the first list at that place. -/
theorem assemble_early {T : List Nat} {sn : Nat} {t : Nat} (ht : t ∈ T) : ∀ (F : List Nat) (i : Nat) (m : List (Nat × Nat)) (g : Nat), i ≤ sn →
    F[sn - i]? = some g → (∀ q ∈ m, i ≤ q.2 ∧ q.2 ≤ sn) → (m.map (·.2)).Pairwise (· ≤ ·) →
    ∃ A B, assemble F i (m ++ T.map (·, sn)) = A ++ g :: B ∧ t ∈ A := by
  intro F
  induction F with
  | nil => intro i m g _ hg; simp at hg
  | cons f fs ih =>
    intro i m g hi hg hm hs
    rcases Nat.lt_or_ge i sn with hlt | hge
    · have hg' : fs[sn - (i + 1)]? = some g := by
        rw [show sn - i = (sn - (i + 1)) + 1 by omega] at hg
        simpa using hg
      have hdrop : (m ++ T.map (·, sn)).dropWhile (·.2 == i) = m.dropWhile (·.2 == i) ++ T.map (·, sn) := by
        rw [List.dropWhile_append]
        split
        · next h0 =>
          rw [List.isEmpty_iff.1 h0, List.nil_append]
          cases T with
          | nil => rfl
          | cons a T => simp [show ¬ sn = i by omega]
        · rfl
      obtain ⟨A, B, h1, h2⟩ := ih (i + 1) (m.dropWhile (·.2 == i)) g (by omega) hg' (fun q hq => by
          have hqm := (List.dropWhile_sublist _).subset hq
          refine ⟨?_, (hm q hqm).2⟩
          cases hd : m.dropWhile (·.2 == i) with
          | nil => rw [hd] at hq; cases hq
          | cons d ds =>
            have hdn : ¬ (d.2 == i) = true := by
              have := List.head_dropWhile_not (p := fun e : Nat × Nat => e.2 == i) (l := m) (by rw [hd]; simp)
              simpa [hd] using this
            have hdm : d ∈ m := (List.dropWhile_sublist (p := fun e : Nat × Nat => e.2 == i)).subset (by rw [hd]; simp)
            have hdi := (hm d hdm).1
            have hdne : d.2 ≠ i := by simpa using hdn
            have hsub : ((m.dropWhile (·.2 == i)).map (·.2)).Sublist (m.map (·.2)) := (List.dropWhile_sublist _).map _
            have := hs.sublist hsub
            rw [hd] at this hq
            simp only [List.map_cons, List.pairwise_cons] at this
            rcases List.mem_cons.1 hq with rfl | hq'
            · omega
            · have := this.1 q.2 (List.mem_map_of_mem hq')
              omega) (hs.sublist ((List.dropWhile_sublist _).map _))
      simp only [assemble, hdrop, h1]
      exact ⟨((m ++ T.map (·, sn)).takeWhile (·.2 == i)).map (·.1) ++ f :: A, B, by simp, by simp [h2]⟩
    · obtain rfl : i = sn := by omega
      have hall : ∀ q ∈ m ++ T.map (·, i), (q.2 == i) = true := by
        intro q hq
        rcases List.mem_append.1 hq with h1 | h1
        · have := hm q h1
          simp; omega
        · obtain ⟨a, _, rfl⟩ := List.mem_map.1 h1
          simp
      have hgf : f = g := by simpa using hg
      subst hgf
      simp only [assemble]
      rw [List.takeWhile_eq_self_iff.2 hall]
      exact ⟨_, _, rfl, by simp [ht]⟩

end Visdom
