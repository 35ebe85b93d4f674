import Verif.Model.Sets
import Verif.Proofs.Order
import Mathlib.Data.List.TakeWhile
/-! # Lemmas for `add` -/
namespace Visdom
open Spec

/-- Before, by index paths. -/
def KLt (h : Heap) (a b : Nat) : Prop := cmpE h a b = .lt

instance (h : Heap) (a b : Nat) : Decidable (KLt h a b) := inferInstanceAs (Decidable (_ = _))

variable {h : Heap}

theorem KLt.trans {a b c : Nat} (h1 : KLt h a b) (h2 : KLt h b c) : KLt h a c := compareIndexs_lt_trans h1 h2

theorem KLt.irrefl {a : Nat} : ¬ KLt h a a := by
  intro h1
  have : cmpE h a a = .eq := compareIndexs_eq.2 rfl
  rw [KLt, this] at h1; cases h1

theorem cmpE_gt {a b : Nat} : cmpE h a b = .gt ↔ KLt h b a := by
  unfold KLt cmpE
  rw [compareIndexs_swap (h.treeIndexs a)]
  cases compareIndexs (h.treeIndexs a) (h.treeIndexs b) <;> simp [Ordering.swap]

theorem cmpE_eq {a b : Nat} : cmpE h a b = .eq ↔ h.treeIndexs a = h.treeIndexs b := compareIndexs_eq

theorem KLt.congr_left {a b c : Nat} (e : h.treeIndexs a = h.treeIndexs b) (h1 : KLt h b c) : KLt h a c := by
  unfold KLt cmpE at *; rw [e]; exact h1

theorem KLt.congr_right {a b c : Nat} (e : h.treeIndexs b = h.treeIndexs c) (h1 : KLt h a b) : KLt h a c := by
  unfold KLt cmpE at *; rw [← e]; exact h1

theorem KLt.of_get {F : List Nat} (hs : F.Pairwise (KLt h)) {i j a b : Nat} (hij : i < j) (ha : F[i]? = some a)
    (hb : F[j]? = some b) : KLt h a b := by
  obtain ⟨hi, rfl⟩ := List.getElem?_eq_some_iff.1 ha
  obtain ⟨hj, rfl⟩ := List.getElem?_eq_some_iff.1 hb
  exact List.pairwise_iff_getElem.1 hs i j hi hj hij

theorem getElem?_lt {F : List Nat} {i a : Nat} (h1 : F[i]? = some a) : i < F.length :=
  (List.getElem?_eq_some_iff.1 h1).1

/-- The binary search never leaves the list and ends; the answer lies between the bounds. -/
theorem bsearch_total (F : List Nat) (x : Nat) : ∀ n l r, l ≤ r → r < F.length → r - l < n →
    ∃ mid b, bsearch h F x n l r = .ok (mid, b) ∧ l ≤ mid ∧ mid ≤ r := by
  intro n
  induction n with
  | zero => intro l r _ _ h3; omega
  | succ n ih =>
    intro l r h1 h2 h3
    simp only [bsearch]
    split
    · exact ⟨_, _, rfl, by omega, by omega⟩
    · rename_i hm
      have hmid : (l + r) / 2 < F.length := by omega
      rw [List.getElem?_eq_getElem hmid]
      simp only
      split
      · obtain ⟨m, b, e1, e2, e3⟩ := ih ((l + r) / 2) r (by omega) h2 (by omega)
        exact ⟨m, b, e1, by omega, e3⟩
      · obtain ⟨m, b, e1, e2, e3⟩ := ih l ((l + r) / 2) (by omega) hmid (by omega)
        exact ⟨m, b, e1, e2, by omega⟩
      · exact ⟨_, _, rfl, by omega, by omega⟩

/-- Where the binary search ends: at the equal element, or between two neighbours. -/
theorem bsearch_spec {F : List Nat} {x : Nat} : ∀ n l r a b mid found, bsearch h F x n l r = .ok (mid, found) →
    l < r → F[l]? = some a → F[r]? = some b → KLt h a x → KLt h x b →
    (found = true → ∃ y, F[mid]? = some y ∧ cmpE h x y = .eq) ∧
    (found = false → (∃ y, F[mid]? = some y ∧ KLt h y x) ∧ ∃ y, F[mid + 1]? = some y ∧ KLt h x y) := by
  intro n
  induction n with
  | zero => intro l r a b mid found h1; simp [bsearch] at h1
  | succ n ih =>
    intro l r a b mid found h1 hlr ha hb hax hxb
    simp only [bsearch] at h1
    split at h1
    · rename_i hm
      simp only [Except.ok.injEq, Prod.mk.injEq] at h1
      obtain ⟨rfl, rfl⟩ := h1
      have hr : r = l + 1 := by omega
      refine ⟨by simp, fun _ => ⟨⟨a, by rw [hm]; exact ha, hax⟩, ⟨b, ?_, hxb⟩⟩⟩
      rw [hm, ← hr]; exact hb
    · rename_i hm
      split at h1
      · cases h1
      · rename_i y hy
        split at h1
        · rename_i hc
          exact ih _ _ y b _ _ h1 (by omega) hy hb (cmpE_gt.1 hc) hxb
        · rename_i hc
          exact ih _ _ a y _ _ h1 (by omega) ha hy hax hc
        · rename_i hc
          simp only [Except.ok.injEq, Prod.mk.injEq] at h1
          obtain ⟨rfl, rfl⟩ := h1
          exact ⟨fun _ => ⟨y, hy, hc⟩, by simp⟩

/-- `add` never panics, whatever the two lists are; every recorded element comes from the second list, in its
order. -/
theorem addMids_total {F : List Nat} (hF : F ≠ []) (sn : Nat) : ∀ S fl, ∃ m, addMids h F sn S fl = .ok m ∧
    (m.map (·.1)).Sublist S := by
  intro S
  induction S with
  | nil => intro fl; exact ⟨[], rfl, by simp⟩
  | cons x xs ih =>
    intro fl
    simp only [addMids]
    split
    · exact ⟨[], rfl, by simp⟩
    · rename_i f hf
      have hfl := getElem?_lt hf
      split
      · obtain ⟨m, e, hs⟩ := ih (fl + 1)
        exact ⟨m, e, hs.cons _⟩
      · have hl : F.getLast? = some (F.getLast hF) := List.getLast?_eq_getLast_of_ne_nil hF
        rw [hl]
        simp only
        split
        · exact ⟨_, rfl, by simp [List.map_map, Function.comp_def]⟩
        · obtain ⟨mid, b, e1, _, _⟩ := bsearch_total (h := h) F x F.length fl (F.length - 1) (by omega) (by omega) (by omega)
          rw [e1]
          obtain ⟨m, e, hs⟩ := ih mid
          cases b with
          | true => exact ⟨m, e, hs.cons _⟩
          | false =>
            refine ⟨(x, mid + 1) :: m, ?_, ?_⟩
            · simp [e, Except.map]
            · simpa using hs.cons_cons x
        · exact ⟨_, rfl, by simp [List.map_map, Function.comp_def]⟩
      · split
        · exact ⟨_, rfl, by simp [List.map_map, Function.comp_def]⟩
        · obtain ⟨m, e, hs⟩ := ih fl
          refine ⟨(x, fl) :: m, ?_, ?_⟩
          · simp [e, Except.map]
          · simpa using hs.cons_cons x
        · refine ⟨_, rfl, ?_⟩
          simp only [List.map_map, Function.comp_def, List.map_id']
          exact List.dropLast_sublist _

theorem assemble_first (F : List Nat) : ∀ i m, F.Sublist (assemble F i m) := by
  induction F with
  | nil => intro i m; simp
  | cons f fs ih =>
    intro i m
    simp only [assemble]
    exact ((ih _ _).cons_cons f).trans (List.sublist_append_right _ _)

theorem assemble_mem (F : List Nat) : ∀ i m x, x ∈ assemble F i m ↔ x ∈ F ∨ x ∈ m.map (·.1) := by
  induction F with
  | nil => intro i m x; simp [assemble]
  | cons f fs ih =>
    intro i m x
    have e : m.map (·.1) = (m.takeWhile (·.2 == i)).map (·.1) ++ (m.dropWhile (·.2 == i)).map (·.1) := by
      rw [← List.map_append, List.takeWhile_append_dropWhile]
    simp only [assemble, List.mem_append, List.mem_cons, ih]
    rw [e, List.mem_append]
    tauto

/-- The recorded position is the place of the element in the first list. -/
def Placed (h : Heap) (F : List Nat) (i : Nat) (e : Nat × Nat) : Prop :=
  i ≤ e.2 ∧ ∀ j f, F[j]? = some f → (i + j < e.2 → KLt h f e.1) ∧ (e.2 ≤ i + j → KLt h e.1 f)

theorem assemble_sorted (F : List Nat) (hF : F.Pairwise (KLt h)) : ∀ i m, (∀ e ∈ m, Placed h F i e) →
    (m.map (·.1)).Pairwise (KLt h) → (m.map (·.2)).Pairwise (· ≤ ·) → (assemble F i m).Pairwise (KLt h) := by
  induction F with
  | nil => intro i m _ h2 _; simpa [assemble] using h2
  | cons f fs ih =>
    intro i m hp hs hpos
    rw [List.pairwise_cons] at hF
    have hsplit := List.takeWhile_append_dropWhile (p := fun e : Nat × Nat => e.2 == i) (l := m)
    have htake : ∀ e ∈ m.takeWhile (·.2 == i), e ∈ m ∧ e.2 = i := by
      intro e he
      refine ⟨(List.takeWhile_sublist _).subset he, ?_⟩
      have := List.mem_takeWhile_imp he
      simpa using this
    have hdrop : ∀ e ∈ m.dropWhile (·.2 == i), e ∈ m ∧ i + 1 ≤ e.2 := by
      intro e he
      have hem := (List.dropWhile_sublist _).subset he
      refine ⟨hem, ?_⟩
      have hi := (hp e hem).1
      cases hd : m.dropWhile (·.2 == i) with
      | nil => rw [hd] at he; cases he
      | cons d ds =>
        have hdn : ¬ (d.2 == i) = true := by
          have := List.head_dropWhile_not (p := fun e : Nat × Nat => e.2 == i) (l := m) (by rw [hd]; simp)
          simpa [hd] using this
        have hdm : d ∈ m := (List.dropWhile_sublist (p := fun e : Nat × Nat => e.2 == i)).subset (by rw [hd]; simp)
        have hdi := (hp d hdm).1
        have hdne : d.2 ≠ i := by simpa using hdn
        have hsub : ((m.dropWhile (·.2 == i)).map (·.2)).Sublist (m.map (·.2)) :=
          (List.dropWhile_sublist _).map _
        have := hpos.sublist hsub
        rw [hd] at this he
        simp only [List.map_cons, List.pairwise_cons] at this
        rcases List.mem_cons.1 he with rfl | he'
        · omega
        · have := this.1 e.2 (List.mem_map_of_mem he')
          omega
    have hsd : ((m.dropWhile (·.2 == i)).map (·.1)).Pairwise (KLt h) :=
      hs.sublist ((List.dropWhile_sublist _).map _)
    have ihd := ih hF.2 (i + 1) (m.dropWhile (·.2 == i))
      (by
        intro e he
        obtain ⟨hem, hei⟩ := hdrop e he
        refine ⟨hei, fun j g hg => ?_⟩
        have := (hp e hem).2 (j + 1) g (by simpa using hg)
        rw [show i + (j + 1) = i + 1 + j by omega] at this
        exact this)
      hsd
      (hpos.sublist ((List.dropWhile_sublist _).map _))
    simp only [assemble]
    rw [List.pairwise_append]
    refine ⟨hs.sublist ((List.takeWhile_sublist _).map _), ?_, ?_⟩
    · rw [List.pairwise_cons]
      refine ⟨?_, ihd⟩
      intro y hy
      rw [assemble_mem] at hy
      rcases hy with hy | hy
      · exact hF.1 y hy
      · obtain ⟨e, he, rfl⟩ := List.mem_map.1 hy
        obtain ⟨hem, hei⟩ := hdrop e he
        exact ((hp e hem).2 0 f (by simp)).1 (by omega)
    · intro a ha b hb
      obtain ⟨e, he, rfl⟩ := List.mem_map.1 ha
      obtain ⟨hem, hei⟩ := htake e he
      rcases List.mem_cons.1 hb with rfl | hb
      · exact ((hp e hem).2 0 b (by simp)).2 (by omega)
      · rw [assemble_mem] at hb
        rcases hb with hb | hb
        · obtain ⟨j, hj⟩ := List.getElem?_of_mem hb
          exact ((hp e hem).2 (j + 1) b (by simpa using hj)).2 (by omega)
        · rw [← hsplit, List.map_append, List.pairwise_append] at hs
          exact hs.2.2 _ ha _ hb

/-- No element of `S` lies behind the last element of `F` while that last element is itself in `S`. -/
def NoTail (h : Heap) (F S : List Nat) : Prop :=
  ∀ e, F.getLast? = some e → ∀ s ∈ S, ∀ s' ∈ S, h.treeIndexs s' = h.treeIndexs e → ¬ KLt h e s

theorem NoTail.tail {F : List Nat} {x : Nat} {xs : List Nat} (hn : NoTail h F (x :: xs)) : NoTail h F xs :=
  fun e he s hs s' hs' => hn e he s (List.mem_cons_of_mem _ hs) s' (List.mem_cons_of_mem _ hs')

theorem getLast?_get {F : List Nat} {e : Nat} (he : F.getLast? = some e) : F[F.length - 1]? = some e := by
  rw [List.getLast?_eq_getElem?] at he; exact he

theorem le_last {F : List Nat} (hF : F.Pairwise (KLt h)) {e i f : Nat} (he : F.getLast? = some e)
    (hf : F[i]? = some f) : f = e ∨ KLt h f e := by
  have hi := getElem?_lt hf
  rcases Nat.lt_or_ge i (F.length - 1) with h1 | h1
  · exact Or.inr (KLt.of_get hF h1 hf (getLast?_get he))
  · left
    have : i = F.length - 1 := by omega
    subst this
    rw [getLast?_get he] at hf; cases hf; rfl

theorem mono_of_placed {F : List Nat} {x p : Nat} {m : List (Nat × Nat)} (hp : ∀ e ∈ m, Placed h F 0 e)
    (hx : Placed h F 0 (x, p)) (hl : p ≤ F.length) (hlt : ∀ e ∈ m, KLt h x e.1) : ∀ e ∈ m, p ≤ e.2 := by
  intro e he
  rcases Nat.lt_or_ge e.2 p with h1 | h1
  · exfalso
    have hlen : e.2 < F.length := by omega
    have hg := List.getElem?_eq_getElem hlen
    have h2 := (hx.2 e.2 _ hg).1 (by simpa using h1)
    have h3 := ((hp e he).2 e.2 _ hg).2 (by omega)
    exact KLt.irrefl ((hlt e he).trans (h3.trans h2))
  · exact h1

theorem addMids_spec {F : List Nat} (hF : F.Pairwise (KLt h)) (sn : Nat) : ∀ S fl m, fl < F.length → S.Pairwise (KLt h) →
    (∀ s ∈ S, ∀ i f, i < fl → F[i]? = some f → KLt h f s) → addMids h F sn S fl = .ok m →
    (F.length ≤ sn ∨ NoTail h F S →
      (∀ e ∈ m, Placed h F 0 e) ∧ (m.map (·.2)).Pairwise (· ≤ ·)) ∧
    (∀ s ∈ S, s ∈ m.map (·.1) ∨ (∃ f ∈ F, h.treeIndexs s = h.treeIndexs f) ∨
      ∃ e, F.getLast? = some e ∧ KLt h e s ∧ ∃ s' ∈ S, h.treeIndexs s' = h.treeIndexs e) := by
  intro S
  induction S with
  | nil => intro fl m _ _ _ h1; simp [addMids] at h1; subst h1; simp
  | cons x xs ih =>
    intro fl m hflt hS hinv h1
    have hxs := (List.pairwise_cons.1 hS)
    have hinv' : ∀ s ∈ xs, ∀ i f, i < fl → F[i]? = some f → KLt h f s :=
      fun s hs => hinv s (List.mem_cons_of_mem _ hs)
    have lift : ∀ {s : Nat} {m' : List (Nat × Nat)}, (s ∈ m'.map (·.1) ∨ (∃ f ∈ F, h.treeIndexs s = h.treeIndexs f) ∨
        ∃ e, F.getLast? = some e ∧ KLt h e s ∧ ∃ s' ∈ xs, h.treeIndexs s' = h.treeIndexs e) →
        (s ∈ m'.map (·.1) ∨ (∃ f ∈ F, h.treeIndexs s = h.treeIndexs f) ∨
        ∃ e, F.getLast? = some e ∧ KLt h e s ∧ ∃ s' ∈ x :: xs, h.treeIndexs s' = h.treeIndexs e) := by
      rintro s m' (h2 | h2 | ⟨e, h2, h3, s', h4, h5⟩)
      · exact Or.inl h2
      · exact Or.inr (Or.inl h2)
      · exact Or.inr (Or.inr ⟨e, h2, h3, s', List.mem_cons_of_mem _ h4, h5⟩)
    simp only [addMids] at h1
    split at h1
    · rename_i hf
      rw [List.getElem?_eq_getElem hflt] at hf; cases hf
    · rename_i f hf
      have hfl := getElem?_lt hf
      split at h1
      · rename_i hc
        have hkx := cmpE_eq.1 hc
        rcases Nat.lt_or_ge (fl + 1) F.length with hl | hl
        · have hnext : ∀ s ∈ xs, ∀ i g, i < fl + 1 → F[i]? = some g → KLt h g s := by
            intro s hs i g hi hg
            rcases Nat.lt_or_ge i fl with h2 | h2
            · exact hinv' s hs i g h2 hg
            · obtain rfl : i = fl := by omega
              rw [hf] at hg; cases hg
              exact (hxs.1 s hs).congr_left hkx.symm
          obtain ⟨i1, i2⟩ := ih (fl + 1) m hl hxs.2 hnext h1
          refine ⟨fun hn => i1 (hn.imp id NoTail.tail), ?_⟩
          intro s hs
          rcases List.mem_cons.1 hs with rfl | hs
          · exact Or.inr (Or.inl ⟨f, List.mem_of_getElem? hf, hkx⟩)
          · exact lift (i2 s hs)
        · have hm : m = [] := by
            cases xs with
            | nil => simpa [addMids] using h1.symm
            | cons y ys =>
              simp only [addMids, List.getElem?_eq_none hl] at h1
              simpa using h1.symm
          subst hm
          refine ⟨by simp, ?_⟩
          intro s hs
          rcases List.mem_cons.1 hs with rfl | hs
          · exact Or.inr (Or.inl ⟨f, List.mem_of_getElem? hf, hkx⟩)
          · right; right
            have hlast : F.getLast? = some f := by
              rw [List.getLast?_eq_getElem?, ← hf]; congr 1; omega
            exact ⟨f, hlast, (hxs.1 s hs).congr_left hkx.symm, x, List.mem_cons_self, hkx⟩
      · rename_i hc
        have hfx : KLt h f x := cmpE_gt.1 hc
        split at h1
        · cases h1
        · rename_i e he
          have hee := getLast?_get he
          split at h1
          · -- everything left is behind the first list
            rename_i hc2
            have hex : KLt h e x := cmpE_gt.1 hc2
            simp only [Except.ok.injEq] at h1; subst h1
            have hall : ∀ s ∈ x :: xs, KLt h e s := by
              intro s hs
              rcases List.mem_cons.1 hs with rfl | hs
              · exact hex
              · exact hex.trans (hxs.1 s hs)
            refine ⟨fun _ => ⟨?_, ?_⟩, ?_⟩
            · intro p hp
              obtain ⟨s, hs, rfl⟩ := List.mem_map.1 hp
              refine ⟨by omega, fun j g hg => ⟨fun _ => ?_, fun hj => ?_⟩⟩
              · rcases le_last hF he hg with rfl | h2
                · exact hall s hs
                · exact h2.trans (hall s hs)
              · have := getElem?_lt hg; simp at hj; omega
            · rw [List.map_map]
              exact List.pairwise_map.2 (List.pairwise_of_forall (by simp))
            · intro s hs
              left
              rw [List.map_map]
              simpa [Function.comp_def] using hs
          · -- between two elements
            rename_i hc2
            have hxe : KLt h x e := hc2
            have hlt : fl < F.length - 1 := by
              rcases Nat.lt_or_ge fl (F.length - 1) with h2 | h2
              · exact h2
              · exfalso
                have : fl = F.length - 1 := by omega
                subst this
                rw [hee] at hf; cases hf
                exact KLt.irrefl (hfx.trans hxe)
            split at h1
            · cases h1
            · -- found
              rename_i mid hb
              obtain ⟨y, hy, hxy⟩ := (bsearch_spec _ _ _ f e _ _ hb hlt hf hee hfx hxe).1 rfl
              have hk := cmpE_eq.1 hxy
              have hnext : ∀ s ∈ xs, ∀ i g, i < mid → F[i]? = some g → KLt h g s := by
                intro s hs i g hi hg
                have h2 : KLt h g y := KLt.of_get hF hi hg hy
                exact (h2.congr_right hk.symm).trans (hxs.1 s hs)
              obtain ⟨i1, i2⟩ := ih mid m (getElem?_lt hy) hxs.2 hnext h1
              refine ⟨fun hn => i1 (hn.imp id NoTail.tail), ?_⟩
              intro s hs
              rcases List.mem_cons.1 hs with rfl | hs
              · exact Or.inr (Or.inl ⟨y, List.mem_of_getElem? hy, hk⟩)
              · exact lift (i2 s hs)
            · rename_i mid hb
              obtain ⟨⟨y, hy, hyx⟩, ⟨z, hz, hxz⟩⟩ := (bsearch_spec _ _ _ f e _ _ hb hlt hf hee hfx hxe).2 rfl
              have hnext : ∀ s ∈ xs, ∀ i g, i < mid → F[i]? = some g → KLt h g s := by
                intro s hs i g hi hg
                have h2 : KLt h g y := KLt.of_get hF hi hg hy
                exact (h2.trans hyx).trans (hxs.1 s hs)
              obtain ⟨m', e', hsub⟩ := addMids_total (h := h) (F := F) (by rintro rfl; simp at hf) sn xs mid
              rw [e'] at h1
              simp only [Except.map, Except.ok.injEq] at h1
              subst h1
              obtain ⟨i1, i2⟩ := ih mid m' (getElem?_lt hy) hxs.2 hnext e'
              have hpx : Placed h F 0 (x, mid + 1) := by
                refine ⟨by omega, fun j g hg => ⟨fun hj => ?_, fun hj => ?_⟩⟩
                · simp at hj
                  rcases Nat.lt_or_ge j mid with h2 | h2
                  · exact (KLt.of_get hF h2 hg hy).trans hyx
                  · obtain rfl : j = mid := by omega
                    rw [hy] at hg; cases hg; exact hyx
                · simp at hj
                  rcases Nat.lt_or_ge (mid + 1) j with h2 | h2
                  · exact hxz.trans (KLt.of_get hF h2 hz hg)
                  · obtain rfl : j = mid + 1 := by omega
                    rw [hz] at hg; cases hg; exact hxz
              refine ⟨fun hn => ?_, ?_⟩
              · obtain ⟨j1, j2⟩ := i1 (hn.imp id NoTail.tail)
                refine ⟨?_, ?_⟩
                · intro p hp
                  rcases List.mem_cons.1 hp with rfl | hp
                  · exact hpx
                  · exact j1 p hp
                · rw [List.map_cons, List.pairwise_cons]
                  refine ⟨?_, j2⟩
                  intro q hq
                  obtain ⟨p, hp, rfl⟩ := List.mem_map.1 hq
                  refine mono_of_placed j1 hpx ?_ ?_ p hp
                  · have := getElem?_lt hz; omega
                  · intro e he; exact hxs.1 _ (hsub.subset (List.mem_map_of_mem he))
              · intro s hs
                rcases List.mem_cons.1 hs with rfl | hs
                · left; simp
                · rcases lift (i2 s hs) with h2 | h2
                  · left; exact List.mem_cons_of_mem _ h2
                  · exact Or.inr h2
          · -- x is the last element of the first list
            rename_i hc2
            have hk := cmpE_eq.1 hc2
            simp only [Except.ok.injEq] at h1; subst h1
            have htail : ∀ s ∈ xs, KLt h e s := fun s hs => (hxs.1 s hs).congr_left hk.symm
            refine ⟨fun hn => ⟨?_, ?_⟩, ?_⟩
            · intro p hp
              obtain ⟨s, hs, rfl⟩ := List.mem_map.1 hp
              rcases hn with hn | hn
              · refine ⟨by omega, fun j g hg => ⟨fun _ => ?_, fun hj => ?_⟩⟩
                · rcases le_last hF he hg with rfl | h2
                  · exact htail s hs
                  · exact h2.trans (htail s hs)
                · have := getElem?_lt hg; simp at hj; omega
              · exact absurd (htail s hs) (hn e he s (List.mem_cons_of_mem _ hs) x List.mem_cons_self hk)
            · rw [List.map_map]
              exact List.pairwise_map.2 (List.pairwise_of_forall (by simp))
            · intro s hs
              rcases List.mem_cons.1 hs with rfl | hs
              · exact Or.inr (Or.inl ⟨e, List.mem_of_getLast? he, hk⟩)
              · left; rw [List.map_map]; simpa [Function.comp_def] using hs
      · rename_i hc
        have hxf : KLt h x f := hc
        have hpl : ∀ s ∈ x :: xs, KLt h s f → Placed h F 0 (s, fl) := by
          intro s hs hsf
          refine ⟨by omega, fun j g hg => ⟨fun hj => ?_, fun hj => ?_⟩⟩
          · exact hinv s hs j g (by simpa using hj) hg
          · simp at hj
            rcases Nat.lt_or_ge fl j with h2 | h2
            · exact hsf.trans (KLt.of_get hF h2 hf hg)
            · obtain rfl : j = fl := by omega
              rw [hf] at hg; cases hg; exact hsf
        have hlast : ∀ s ∈ x :: xs, s = (x :: xs).getLast (by simp) ∨ KLt h s ((x :: xs).getLast (by simp)) := by
          intro s hs
          obtain ⟨i, hi⟩ := List.getElem?_of_mem hs
          exact le_last hS (List.getLast?_eq_getLast_of_ne_nil (by simp)) hi
        split at h1
        · rename_i hc2
          simp only [Except.ok.injEq] at h1; subst h1
          refine ⟨fun _ => ⟨?_, ?_⟩, ?_⟩
          · intro p hp
            obtain ⟨s, hs, rfl⟩ := List.mem_map.1 hp
            refine hpl s hs ?_
            rcases hlast s hs with h2 | h2
            · rw [h2]; exact hc2
            · exact h2.trans hc2
          · rw [List.map_map]
            exact List.pairwise_map.2 (List.pairwise_of_forall (by simp))
          · intro s hs
            left; rw [List.map_map]; simpa [Function.comp_def] using hs
        · obtain ⟨m', e', hsub⟩ := addMids_total (h := h) (F := F) (by rintro rfl; simp at hf) sn xs fl
          rw [e'] at h1
          simp only [Except.map, Except.ok.injEq] at h1
          subst h1
          obtain ⟨i1, i2⟩ := ih fl m' hfl hxs.2 hinv' e'
          refine ⟨fun hn => ?_, ?_⟩
          · obtain ⟨j1, j2⟩ := i1 (hn.imp id NoTail.tail)
            refine ⟨?_, ?_⟩
            · intro p hp
              rcases List.mem_cons.1 hp with rfl | hp
              · exact hpl x List.mem_cons_self hxf
              · exact j1 p hp
            · rw [List.map_cons, List.pairwise_cons]
              refine ⟨?_, j2⟩
              intro q hq
              obtain ⟨p, hp, rfl⟩ := List.mem_map.1 hq
              refine mono_of_placed j1 (hpl x List.mem_cons_self hxf) (by omega) ?_ p hp
              intro e he; exact hxs.1 _ (hsub.subset (List.mem_map_of_mem he))
          · intro s hs
            rcases List.mem_cons.1 hs with rfl | hs
            · left; simp
            · rcases lift (i2 s hs) with h2 | h2
              · left; exact List.mem_cons_of_mem _ h2
              · exact Or.inr h2
        · rename_i hc2
          have hk := cmpE_eq.1 hc2
          simp only [Except.ok.injEq] at h1; subst h1
          refine ⟨fun _ => ⟨?_, ?_⟩, ?_⟩
          · intro p hp
            obtain ⟨s, hs, rfl⟩ := List.mem_map.1 hp
            have hsm := (List.dropLast_sublist _).subset hs
            refine hpl s hsm ?_
            have hsd : KLt h s ((x :: xs).getLast (by simp)) := by
              have := List.dropLast_append_getLast (l := x :: xs) (by simp)
              rw [← this, List.pairwise_append] at hS
              exact hS.2.2 s hs _ (by simp)
            exact hsd.congr_right hk
          · rw [List.map_map]
            exact List.pairwise_map.2 (List.pairwise_of_forall (by simp))
          · intro s hs
            have := List.dropLast_append_getLast (l := x :: xs) (by simp)
            rw [← this, List.mem_append] at hs
            rcases hs with hs | hs
            · left; rw [List.map_map]; simpa [Function.comp_def] using hs
            · right; left
              simp only [List.mem_singleton] at hs
              exact ⟨f, List.mem_of_getElem? hf, by rw [hs]; exact hk⟩

end Visdom
