import Verif.Props.Exchange
import Verif.Props.FoundOne
/-!
# C104 and C105 when two elements have changed places
-/
namespace Visdom
open Spec

section
variable {h h' : Heap} {r : Nat} {D : Nat → Prop} {e : Ext} {a p b q w : Nat}

theorem other_cases (a b y : Nat) : other a b y = a ∨ other a b y = b ∨ other a b y = y := by
  unfold other; split_ifs <;> simp

theorem other_mem {l : List Nat} (ha : a ∈ l) (hb : b ∈ l) {y : Nat} : other a b y ∈ l ↔ y ∈ l := by
  unfold other; split_ifs with h1 h2
  · subst h1; exact ⟨fun _ => ha, fun _ => hb⟩
  · subst h2; exact ⟨fun _ => hb, fun _ => ha⟩
  · exact Iff.rfl

/-- Two children of one node change places: their list is a rearrangement of the list before. -/
theorem other_perm {l : List Nat} (hl : l.Nodup) (ha : a ∈ l) (hb : b ∈ l) : (l.map (other a b)).Perm l := by
  have hinj : Function.Injective (other a b) := fun x y hxy => by rw [← other_other a b x, hxy, other_other]
  refine (List.perm_ext_iff_of_nodup (hl.map hinj) hl).2 fun y => ?_
  rw [List.mem_map]
  constructor
  · rintro ⟨z, hz, rfl⟩; exact (other_mem ha hb).2 hz
  · exact fun hy => ⟨other a b y, (other_mem ha hb).2 hy, other_other a b y⟩

/-- **C104, two children of one element change places** (`C99_exchange`): every search by names, classes and attributes with descendant combinators finds the same
elements; those which are not below different children of that element come in the same order. -/
theorem C104_exchanged (ok : HeapOk h D) (hD : ¬ D r) (wf : TreeWF h r) (tb : Tables h) (x : Exchangeable h D a p b p w)
    {S : List Nat} (hS : Nodes h r S) (hs : DocSorted h r S) (hT : ∀ a ∈ S, ∀ b ∈ S, Together h p a b)
    {cx : Complex} (ho : Own cx) (hd : ∀ s ∈ cx, s.1 = Comb.childrenAll) (env env' : Env) :
    ∃ h1 h2 h3 res res', insertAll e .beforeBegin [w] h [a] = .ok h1 ∧ insertAll e .beforeBegin [a] h1 [b] = .ok h2 ∧ replaceAll e [b] h2 [w] = .ok (h3, [b]) ∧
      find h env S [cx] = .ok res ∧ find h3 env' S [cx] = .ok res' ∧ res'.Perm res ∧ DocSorted h3 r res' ∧
      ∀ P : Nat → Bool, (∀ a b, P a = true → P b = true → Together h p a b) → res'.filter P = res.filter P := by
  obtain ⟨h1, h2, h3, r1, r2, r3, k, -, -, -, -, d, ok3, z⟩ := C99_exchange (e := e) ok x
  have m : Shuffled h h3 r p := by
    refine ⟨?_, fun y hy hyp => ?_, d⟩
    · rw [k p x.first.1]
      exact other_perm (ok.kids_nodup x.first.1) x.first.2.1 x.second.2.1
    · have hDy := within_live ok hD hy
      rw [k y hDy]
      refine (List.map_congr_left fun c hc => ?_).trans (List.map_id _)
      have hca : c ≠ a := by rintro rfl; exact hyp (ok.kid_unique hDy x.first.1 hc x.first.2.1)
      have hcb : c ≠ b := by rintro rfl; exact hyp (ok.kid_unique hDy x.first.1 hc x.second.2.1)
      unfold other
      rw [if_neg hca, if_neg hcb]
      rfl
  obtain ⟨res, res', f1, f2, f3⟩ := C104_shuffled ok3 hD wf z (fun y hy => tb y (wf.bound y hy)) m hS hs hT ho hd env env'
  exact ⟨h1, h2, h3, res, res', r1, r2, r3, f1, f2, f3⟩

theorem exchange_into (hrr : ∀ y, Within h r y → h'.kids y = (h.kids y).map (other a b)) (ha : Within h r a) (hb : Within h r b)
    {y : Nat} (hw : Within h' r y) : Within h r y := by
  induction hw with
  | self => exact .self
  | @step z c _ hc ih =>
    rw [hrr z ih, List.mem_map] at hc
    obtain ⟨d, hd, rfl⟩ := hc
    rcases other_cases a b d with h1 | h1 | h1 <;> rw [h1]
    · exact ha
    · exact hb
    · exact ih.step hd

/-- The way down to the parent of `b` stays. -/
theorem exchange_way (ok : HeapOk h D) (hD : ¬ D r) (x : Exchangeable h D a p b q w) (hk : ∀ y, ¬ D y → h'.kids y = (h.kids y).map (other a b))
    (hq : Within h r q) : Within h' r a := by
  have hpb := ok.kid_parent x.second.1 x.second.2.1
  have key : ∀ y, Within h r y → Within h y q → Within h' r y := by
    intro y hy
    induction hy with
    | self => exact fun _ => .self
    | @step z c hz hc ih =>
      intro hcq
      refine (ih ((Within.self.step hc).trans hcq)).step ?_
      have hDc := within_live ok hD (hz.step hc)
      have hca : c ≠ a := by
        rintro rfl
        refine x.apart.1 ((above_iff hpb).2 ?_)
        exact within_above ok hDc hcq
      have hcb : c ≠ b := by
        rintro rfl
        exact ok.not_above_self c ((above_iff hpb).2 (within_above ok hDc hcq))
      rw [hk z (within_live ok hD hz), List.mem_map]
      exact ⟨c, hc, by unfold other; rw [if_neg hca, if_neg hcb]⟩
  refine (key q hq .self).step ?_
  rw [hk q x.second.1, List.mem_map]
  exact ⟨b, x.second.2.1, by unfold other; rw [if_neg x.ne.symm, if_pos rfl]⟩

/-- **C105, two elements of the document change places** (`C99_exchange`), wherever they stand: a search with one compound finds the same elements. -/
theorem C105_exchanged (ok : HeapOk h D) (hD : ¬ D r) (wf : TreeWF h r) (tb : Tables h) (x : Exchangeable h D a p b q w) (hp : Within h r p) (hq : Within h r q)
    {ss : List Sim} (ho : Own [(.childrenAll, ss)]) (env env' : Env) :
    ∃ h1 h2 h3 res res', insertAll e .beforeBegin [w] h [a] = .ok h1 ∧ insertAll e .beforeBegin [a] h1 [b] = .ok h2 ∧ replaceAll e [b] h2 [w] = .ok (h3, [b]) ∧
      find h env [r] [[(.childrenAll, ss)]] = .ok res ∧ find h3 env' [r] [[(.childrenAll, ss)]] = .ok res' ∧ res'.Perm res ∧ DocSorted h3 r res' := by
  obtain ⟨h1, h2, h3, r1, r2, r3, k, pa, pb, -, ab, d, ok3, z⟩ := C99_exchange (e := e) ok x
  have wf3 : TreeWF h3 r := ok3.tree (by rw [(d r).1]; exact wf.rootKind) hD (by rw [z]; exact wf.bound r .self)
  have ev : Metas h r := fun y hy => tb y (wf.bound y hy)
  have ev3 : Metas h3 r := fun y hy => tables_data d z tb y (wf3.bound y hy)
  have ha3 : Within h3 r a := exchange_way ok hD x k hq
  have x' : Exchangeable h D b q a p w := ⟨x.ne.symm, x.second, x.first, x.apart.symm, x.mark.1, x.mark.2.1, x.mark.2.2.1, x.mark.2.2.2.2.1, x.mark.2.2.2.1,
    x.mark.2.2.2.2.2.2, x.mark.2.2.2.2.2.1⟩
  have hcomm : other b a = other a b := funext fun y => other_comm b a y
  have hb3 : Within h3 r b := exchange_way ok hD x' (fun y hy => by rw [hcomm]; exact k y hy) hp
  have hin : ∀ y, Within h3 r y ↔ Within h r y := fun y =>
    ⟨exchange_into (fun y hy => k y (within_live ok hD hy)) (hp.step x.first.2.1) (hq.step x.second.2.1),
      exchange_into (a := a) (b := b) (fun y hy => by
        rw [k y (within_live ok3 hD hy), List.map_map]
        exact (List.map_id'' (fun c => other_other a b c) _).symm) ha3 hb3⟩
  obtain ⟨res, hf⟩ := C19_find_basic_descendants (env := env) wf ev ho.basic (by simp) (nodes_root wf) (docSorted_single r)
  obtain ⟨res', hf'⟩ := C19_find_basic_descendants (env := env') wf3 ev3 ho.basic (by simp) (nodes_root wf3) (docSorted_single r)
  obtain ⟨o2, n2⟩ := C18_find_descendants wf3 ev3 (basic_findOk ho.basic (by simp)) (by simp) (nodes_root wf3) (docSorted_single r) hf'
  have n1 := (C18_find_descendants wf ev (basic_findOk ho.basic (by simp)) (by simp) (nodes_root wf) (docSorted_single r) hf).2
  refine ⟨h1, h2, h3, res, res', r1, r2, r3, hf, hf', (List.perm_ext_iff_of_nodup n2 n1).2 fun y => ?_, o2⟩
  rw [one_compound wf ev ho hf, one_compound wf3 ev3 ho hf', hin, isElem_data d,
    own_cmpd ⟨(d y).1, (d y).2.1, (d y).2.2.1⟩ (ho.2 (.childrenAll, ss) (by simp)).2.2]

end

/-! ## The hypotheses are satisfiable -/

/-- The `p` and the `ul` with its items change places; then the `p` and the second item, which have different parents. -/
example : (∃ h1 h2 h3 res', insertAll ext0 .beforeBegin [7] places [2] = .ok h1 ∧ insertAll ext0 .beforeBegin [2] h1 [4] = .ok h2 ∧ replaceAll ext0 [4] h2 [7] = .ok (h3, [4]) ∧
      find h3 env0 [0] [divLi] = .ok res' ∧ res'.Perm [5, 6]) ∧
    ∃ h1 h2 h3 res', insertAll ext0 .beforeBegin [7] places [2] = .ok h1 ∧ insertAll ext0 .beforeBegin [2] h1 [6] = .ok h2 ∧ replaceAll ext0 [6] h2 [7] = .ok (h3, [6]) ∧
      find h3 env0 [0] [[(.childrenAll, [ty "li"])]] = .ok res' ∧ res'.Perm [5, 6] ∧ res' = [6, 5] := by
  have w1 : Within places 0 1 := .step (p := 0) .self (by decide)
  have w4 : Within places 0 4 := .step (p := 1) w1 (by decide)
  constructor
  · obtain ⟨h1, h2, h3, res, res', r1, r2, r3, f1, f2, f3, -⟩ := C104_exchanged (e := ext0) places_ok id places_wf places_tables places_siblings (nodes_root places_wf)
      (docSorted_single 0) (together_root places_wf w1) divLi_own (by decide) env0 env0
    have hf : find places env0 [0] [divLi] = .ok [5, 6] := by decide
    rw [hf] at f1; cases f1
    exact ⟨h1, h2, h3, res', r1, r2, r3, f2, f3⟩
  · obtain ⟨h1, h2, h3, res, res', r1, r2, r3, f1, f2, f3, -⟩ := C105_exchanged (e := ext0) places_ok id places_wf places_tables (places_exchangeable (.inl rfl)) w1 w4
      (ss := [ty "li"]) ⟨by decide, by decide⟩ env0 env0
    have hf : find places env0 [0] [[(.childrenAll, [ty "li"])]] = .ok [5, 6] := by decide
    rw [hf] at f1; cases f1
    refine ⟨h1, h2, h3, res', r1, r2, r3, f2, f3, ?_⟩
    have e1 : h1 = (match insertAll ext0 .beforeBegin [7] places [2] with | .ok h => h | .error _ => places) := by rw [r1]
    have e2 : h2 = (match insertAll ext0 .beforeBegin [2] h1 [6] with | .ok h => h | .error _ => places) := by rw [r2]
    have e3 : h3 = (match replaceAll ext0 [6] h2 [7] with | .ok h => h.1 | .error _ => places) := by rw [r3]
    subst e1
    subst e2
    have hf' : find h3 env0 [0] [[(.childrenAll, [ty "li"])]] = .ok [6, 5] := by rw [e3]; decide
    rw [hf'] at f2
    exact (Except.ok.inj f2).symm

end Visdom
