import Verif.Proofs.FindGood
/-!
# Lemmas for the theorems about `find`
-/
namespace Visdom
open Spec Classical
variable {h : Heap} {r : Nat} {env : Env} {tot : Bool}

theorem find_single {S : List Nat} (hne : S ≠ []) (cx : Complex) :
    find h env S [cx] = findProc h S (optimizeGroup true (cplxCmpds h env cx)) := by
  unfold find findSelector findSel
  rw [if_neg (by simpa using hne)]
  simp only [List.map_cons, List.map_nil, findProcs, addElems_nil]
  cases hp : findProc h S (optimizeGroup true (cplxCmpds h env cx)) with
  | error e => rfl
  | ok l =>
    simp only
    split
    · next he => rw [List.isEmpty_iff.1 he]
    · rfl

theorem find_nil (sel : List Complex) : find h env [] sel = .ok [] := rfl

theorem sel_empty {A : Nat → Prop} (hA : ∀ x, ¬ A x) {st : List (Comb × (Nat → Bool))} {e : Nat} : ¬ Sel h r A st e := by
  induction st generalizing A with
  | nil => exact hA e
  | cons s st ih =>
    refine ih (A := Img h r A s) ?_
    rintro x ⟨_, _, y, hy, _⟩
    exact hA y hy

theorem basic_ok {s : Sim} (hb : s.basic = true) (q : ListQ) (v : Via) : s.Ok h r env tot q v := by
  cases s
  case attrTest k t w => rw [Sim.Ok]; rintro rfl; cases hb
  all_goals first
    | (cases hb; done)
    | (unfold Sim.Ok; exact True.intro)

theorem basic_cmpdOk {ss : List Sim} (hne : ss ≠ []) (hb : ∀ t ∈ ss, t.basic = true) (q : ListQ) (v : Via) :
    CmpdOk h r env tot q v ss :=
  ⟨hne, fun s hs => ⟨fun _ => basic_ok (hb s hs) q v, Or.inr (basic_ok (hb s hs) q .list)⟩⟩

theorem basic_plainOk {ss : List Sim} (hne : ss ≠ []) (hb : ∀ t ∈ ss, t.basic = true) (q : ListQ) (v : Via) :
    PlainOk h r env tot q v ss := by
  cases ss with
  | nil => exact absurd rfl hne
  | cons s ss => exact ⟨basic_ok (hb s (by simp)) q v, fun t ht => basic_ok (hb t (by simp [ht])) q .list⟩

theorem basic_steps {C : ListQ → Via → List Sim → Prop}
    (hC : ∀ ss : List Sim, ss ≠ [] → (∀ t ∈ ss, t.basic = true) → ∀ q v, C q v ss) {ph : Phase} {cx : Complex}
    (hb : ∀ s ∈ cx, Comb.down s.1 = true ∧ s.2 ≠ [] ∧ ∀ t ∈ s.2, t.basic = true)
    (hcalm : tot = true → calmSteps ph cx = true) : StepsOk tot C ph cx := by
  induction cx generalizing ph with
  | nil => exact trivial
  | cons s l ih =>
    obtain ⟨c, ss⟩ := s
    obtain ⟨h1, h2, h3⟩ := hb (c, ss) List.mem_cons_self
    refine ⟨h1, hC ss h2 h3 _ _, ?_, ih (fun s hs => hb s (List.mem_cons_of_mem _ hs)) ?_⟩
    · intro ht hc
      have := hcalm ht
      simp only [calmSteps, Bool.and_eq_true, Bool.or_eq_true, beq_iff_eq, bne_iff_ne, ne_eq] at this
      exact this.1.1.resolve_left (fun h' => h' hc)
    · intro ht
      have := hcalm ht
      simp only [calmSteps, Bool.and_eq_true] at this
      exact this.2

theorem heaviest_lt {cx : Complex} (hne : cx ≠ []) : heaviest cx < cx.length := by
  unfold heaviest
  simp only
  have hmem : ∀ ws : List Nat, ws ≠ [] → ws.foldr max 0 ∈ ws := by
    intro ws
    induction ws with
    | nil => intro hc; exact absurd rfl hc
    | cons w ws ih =>
      intro _
      rw [List.foldr_cons]
      by_cases hw : ws = []
      · subst hw; simp
      · rcases Nat.le_total w (ws.foldr max 0) with hle | hle
        · rw [Nat.max_eq_right hle]; exact List.mem_cons_of_mem _ (ih hw)
        · rw [Nat.max_eq_left hle]; exact List.mem_cons_self
  have := List.idxOf_lt_length_of_mem (hmem (cx.map fun s => (s.2.map Sim.prio).sum) (by simpa using hne))
  simpa using this

theorem basic_findOk {ph : Phase} {cx : Complex} (hb : Basic cx) (hcalm : tot = true → calm ph cx = true) :
    FindOk h r env tot ph cx := by
  obtain ⟨hne, hb⟩ := hb
  refine ⟨hne, ?_⟩
  unfold calm at hcalm
  split
  · next hl =>
    rw [if_pos hl] at hcalm
    have hlt := heaviest_lt hne
    refine ⟨?_, ?_, ?_⟩
    · intro s hs
      obtain ⟨h1, h2, h3⟩ := hb s (List.mem_of_mem_take hs)
      exact ⟨h1, h2, fun t ht => basic_ok (h3 t ht) _ _⟩
    · intro ht
      have := hcalm ht
      simp only [Bool.and_eq_true, Bool.or_eq_true, beq_iff_eq] at this
      exact this.1
    · have hd := List.drop_eq_getElem_cons hlt
      obtain ⟨h1, h2, h3⟩ := hb _ (List.getElem_mem hlt)
      refine ⟨cx[heaviest cx].1, cx[heaviest cx].2, _, hd, h1, basic_cmpdOk h2 h3 _ _, ?_⟩
      refine basic_steps (fun ss h2 h3 q v => basic_cmpdOk h2 h3 q v) (fun s hs => hb s (List.mem_of_mem_drop hs)) ?_
      intro ht
      have := hcalm ht
      simp only [Bool.and_eq_true] at this
      exact this.2
  · next hl =>
    rw [if_neg hl] at hcalm
    exact basic_steps (fun ss h2 h3 q v => basic_cmpdOk h2 h3 q v) hb hcalm

/-- Selectors made of descendant steps only, from a sorted list. -/
theorem desc_after : ∀ (cs : List Comb), (∀ c ∈ cs, c = .childrenAll) → Phase.after .sorted cs = .sorted := by
  intro cs
  induction cs with
  | nil => intro _; rfl
  | cons c cs ih =>
    intro hc
    rw [hc c List.mem_cons_self]
    exact ih fun d hd => hc d (List.mem_cons_of_mem _ hd)

theorem desc_calm : ∀ (cs : Complex), (∀ s ∈ cs, s.1 = .childrenAll) → calmSteps .sorted cs = true := by
  intro cs
  induction cs with
  | nil => intro _; rfl
  | cons s cs ih =>
    intro hc
    obtain ⟨c, ss⟩ := s
    obtain rfl : c = .childrenAll := hc _ List.mem_cons_self
    exact ih fun d hd => hc d (List.mem_cons_of_mem _ hd)

theorem desc_resultPhase {cx : Complex} (hd : ∀ s ∈ cx, s.1 = Comb.childrenAll) : resultPhase .sorted cx = .sorted := by
  unfold resultPhase
  split
  · refine desc_after _ fun c hc => ?_
    obtain ⟨s, hs, rfl⟩ := List.mem_map.1 hc
    exact hd s (List.mem_of_mem_drop hs)
  · refine desc_after _ fun c hc => ?_
    obtain ⟨s, hs, rfl⟩ := List.mem_map.1 hc
    exact hd s hs

theorem desc_calm_cx {cx : Complex} (hd : ∀ s ∈ cx, s.1 = Comb.childrenAll) : calm .sorted cx = true := by
  unfold calm
  split
  · rw [Bool.and_eq_true]
    exact ⟨rfl, desc_calm _ fun s hs => hd s (List.mem_of_mem_drop hs)⟩
  · exact desc_calm _ hd

theorem inv_order (wf : TreeWF h r) {ph : Phase} {l : List Nat} (hl : Elems h r l) (hi : Inv h r ph l) :
    (ph = .anti ∨ ph = .sorted → DocSorted h r l ∧ l.Nodup) ∧ (ph = .sib ∨ ph = .down → l.Nodup) := by
  have hw : ∀ x ∈ l, Within h r x := fun x hx => (hl x hx).1
  refine ⟨?_, ?_⟩
  · rintro (rfl | rfl)
    · have := AntiSorted.docSorted hi; exact ⟨this, docSorted_nodup wf hw this⟩
    · exact ⟨hi, docSorted_nodup wf hw hi⟩
  · rintro (rfl | rfl)
    · exact Spec.SibAsc.nodup hi
    · exact Spec.SibAsc.nodup hi.1

/-- Everything about `find` with one complex selector. -/
theorem find_all (wf : TreeWF h r) (ev : Metas h r) {ph : Phase} {cx : Complex} (hok : FindOk h r env tot ph cx)
    {S : List Nat} (hS : Nodes h r S) (hi : Inv h r ph S) :
    (∀ res, find h env S [cx] = .ok res → Elems h r res ∧ (S ≠ [] → Inv h r (resultPhase ph cx) res) ∧
      ∀ e, e ∈ res ↔ Sel h r (· ∈ S) (steps h r env cx) e) ∧
    (tot = true → ∃ res, find h env S [cx] = .ok res) := by
  by_cases hne : S = []
  · subst hne
    rw [find_nil]
    refine ⟨fun res hr => ?_, fun _ => ⟨_, rfl⟩⟩
    obtain rfl := Except.ok.inj hr
    refine ⟨fun x hx => absurd hx List.not_mem_nil, fun hc => absurd rfl hc, fun e => ?_⟩
    constructor
    · intro he; cases he
    · intro he; exact absurd he (sel_empty (by simp))
  · rw [find_single hne]
    obtain ⟨g1, g2⟩ := find_good wf ev hok
    refine ⟨fun res hr => ?_, fun ht => findProc_answers wf g1 (g2 ht) hS hne hi⟩
    obtain ⟨r1, r2, r3⟩ := findProc_decides wf g1 hS hne hi hr
    exact ⟨r1, fun _ => r2, r3⟩

/-! ## Lists of selectors -/

theorem findProcs_union (wf : TreeWF h r) (ev : Metas h r) {ph : Phase} {sel : List Complex} {S : List Nat} (hne : S ≠ [])
    (hok : ∀ cx ∈ sel, FindOk h r env tot ph cx ∧ (resultPhase ph cx = .anti ∨ resultPhase ph cx = .sorted))
    (hS : Nodes h r S) (hi : Inv h r ph S) {F : List Nat} (hF : ∀ x ∈ F, Within h r x) (sF : DocSorted h r F)
    (ha : NoSpill h r (fun _ => True) (· ∈ F) (sel.map fun c x => Sel h r (· ∈ S) (steps h r env c) x)) :
    (∀ res, findProcs h S (findSel h env sel) F = .ok res → DocSorted h r res ∧ (∀ x ∈ res, Within h r x) ∧
      ∀ e, e ∈ res ↔ e ∈ F ∨ ∃ cx ∈ sel, Sel h r (· ∈ S) (steps h r env cx) e) ∧
    (tot = true → ∃ res, findProcs h S (findSel h env sel) F = .ok res) := by
  induction sel generalizing F with
  | nil =>
    refine ⟨fun res hr => ?_, fun _ => ⟨_, rfl⟩⟩
    obtain rfl := Except.ok.inj hr
    exact ⟨sF, hF, fun e => by simp⟩
  | cons cx sel ih =>
    obtain ⟨hok1, hph⟩ := hok cx List.mem_cons_self
    have ih := fun {F : List Nat} => ih (F := F) (fun c hc => hok c (List.mem_cons_of_mem _ hc))
    rw [List.map_cons, NoSpill] at ha
    obtain ⟨g1, g2⟩ := find_good wf ev hok1
    have key : ∀ group, findProc h S (optimizeGroup true (cplxCmpds h env cx)) = .ok group →
        ∃ l, addElems h F group = .ok l ∧ DocSorted h r l ∧ (∀ x ∈ l, Within h r x) ∧
          (∀ x, x ∈ l ↔ x ∈ F ∨ Sel h r (· ∈ S) (steps h r env cx) x) := by
      intro group hgr
      obtain ⟨r1, r2, r3⟩ := findProc_decides wf g1 hS hne hi hgr
      obtain ⟨hs, _⟩ := (inv_order wf r1 r2).1 hph
      obtain ⟨l, e, hsl, _, hm⟩ := C15_add_union_partial wf hF (fun x hx => (r1 x hx).1) sF hs
        (spill_tail wf ha.1 hF sF (fun x => by simp) (fun x hx => ⟨trivial, (r3 x).1 hx⟩))
      refine ⟨l, e, hsl, fun x hx => ?_, fun x => by rw [hm, r3]⟩
      rcases (hm x).1 hx with hx | hx
      · exact hF x hx
      · exact (r1 x hx).1
    have hd' : ∀ l : List Nat, (∀ x, x ∈ l ↔ x ∈ F ∨ Sel h r (· ∈ S) (steps h r env cx) x) →
        NoSpill h r (fun _ => True) (· ∈ l) (sel.map fun c x => Sel h r (· ∈ S) (steps h r env c) x) := by
      intro l hl
      have : (· ∈ l) = fun x => x ∈ F ∨ Sel h r (· ∈ S) (steps h r env cx) x := funext fun x => propext (hl x)
      rw [this]
      exact ha.2
    unfold findSel
    simp only [List.map_cons, findProcs]
    constructor
    · intro res hr
      cases hgr : findProc h S (optimizeGroup true (cplxCmpds h env cx)) with
      | error e => rw [hgr] at hr; cases hr
      | ok group =>
        simp only [hgr] at hr
        obtain ⟨l, e, hsl, hwl, hm⟩ := key group hgr
        have hrec : findProcs h S (findSel h env sel) l = .ok res := by
          by_cases he : group.isEmpty = true
          · rw [if_pos he] at hr
            have hg0 : group = [] := List.isEmpty_iff.1 he
            rw [hg0] at e
            have : l = F := by
              unfold addElems at e
              by_cases hFe : F.isEmpty = true
              · rw [if_pos hFe] at e
                rw [← Except.ok.inj e, List.isEmpty_iff.1 hFe]
              · rw [if_neg hFe] at e
                exact (Except.ok.inj e).symm
            rw [this]
            exact hr
          · rw [if_neg he, e] at hr
            exact hr
        obtain ⟨i1, i2, i3⟩ := (ih hwl hsl (hd' l hm)).1 res hrec
        refine ⟨i1, i2, fun x => ?_⟩
        rw [i3, hm]
        simp only [List.mem_cons, exists_eq_or_imp, or_assoc]
    · intro ht
      obtain ⟨group, hgr⟩ := findProc_answers wf g1 (g2 ht) hS hne hi
      simp only [hgr]
      obtain ⟨l, e, hsl, hwl, hm⟩ := key group hgr
      split
      · next he =>
        have : l = F := by
          rw [List.isEmpty_iff.1 he] at e
          unfold addElems at e
          by_cases hFe : F.isEmpty = true
          · rw [if_pos hFe] at e
            rw [← Except.ok.inj e, List.isEmpty_iff.1 hFe]
          · rw [if_neg hFe] at e
            exact (Except.ok.inj e).symm
        rw [← this]
        exact (ih hwl hsl (hd' l hm)).2 ht
      · rw [e]
        exact (ih hwl hsl (hd' l hm)).2 ht

end Visdom
