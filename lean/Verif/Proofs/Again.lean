import Verif.Spec.Again
import Verif.Proofs.Kept
import Verif.Proofs.Agree
import Verif.Proofs.Apart
import Verif.Proofs.Navigate
/-!
# Nodes that are not touched keep their parents; searches among them
-/
namespace Visdom
open Spec

/-! ### Parents -/

/-- The parents of all nodes outside `M` are the same. -/
def ParentKept (M : List Nat) (h h' : Heap) : Prop := ∀ y, y ∉ M → h'.parent y = h.parent y

theorem ParentKept.refl {M : List Nat} {h : Heap} : ParentKept M h h := fun _ _ => rfl
theorem ParentKept.trans {M : List Nat} {h h1 h2 : Heap} (a : ParentKept M h h1) (b : ParentKept M h1 h2) : ParentKept M h h2 :=
  fun y hy => (b y hy).trans (a y hy)
theorem ParentKept.mono {M N : List Nat} {h h' : Heap} (a : ParentKept M h h') (hs : ∀ x ∈ M, x ∈ N) : ParentKept N h h' :=
  fun y hy => a y fun hm => hy (hs y hm)

section
variable {M : List Nat} {h h' : Heap} {e : Ext} {D : Nat → Prop}

theorem parentKept_resetIndex (i : Nat) (l : List Nat) : ParentKept M h (h.resetIndex i l) := fun y _ => (resetIndex_fields l h i).2.2.1 y
theorem parentKept_setChilds (x : Nat) (c : Option (List Nat)) : ParentKept M h (h.setChilds x c) := fun y _ => setChilds_parent ..
theorem parentKept_setParent {p : Nat} : ParentKept M h (h.setParent p M) := fun y hy => by
  rw [(setParent_fields p M h).2.2.1 y, if_neg hy]

theorem parentKept_content (x : Nat) (c : Option (List Char)) : ParentKept M h (h.upd x fun n => { n with content := c }) :=
  fun y _ => (upd_content_fields x c h).2.1 y

theorem parentKept_removeChild {p x : Nat} (he : h.removeChild p x = .ok h') : ParentKept M h h' := by
  unfold Heap.removeChild at he
  split at he
  · split at he
    · cases he; exact .refl
    · split at he
      · cases he
      · split at he
        · cases he
        · split at he
          · cases he; exact parentKept_setChilds _ _
          · split at he
            · cases he
            · cases he; exact (parentKept_resetIndex _ _).trans (parentKept_setChilds _ _)
  · cases he; exact .refl

theorem parentKept_detach {x : Nat} (he : h.detach x = .ok h') : ParentKept M h h' := by
  unfold Heap.detach at he
  split at he
  · cases he; exact .refl
  · exact parentKept_removeChild he

theorem parentKept_takeNodes {n : Nat} {l : List Nat} (he : h.takeNodes e n = .ok (h', l)) :
    ParentKept M h h' ∧ (¬ IsDoc e h n → ∀ x ∈ l, x ∈ moved h n) := by
  unfold Heap.takeNodes at he
  split at he
  · rename_i hf
    cases he
    refine ⟨.refl, fun _ x hx => ?_⟩
    have : (h.node n).kind = .root := by
      unfold Heap.isFragment Heap.isRoot at hf
      simp at hf
      exact hf.1
    unfold moved
    rwa [if_pos this]
  · rename_i hf
    cases hd : h.detach n with
    | error x => rw [hd] at he; cases he
    | ok h2 =>
      rw [hd] at he
      cases he
      refine ⟨parentKept_detach hd, fun hdoc x hx => ?_⟩
      unfold moved
      split
      · rename_i hk
        refine absurd ⟨hk, ?_⟩ hdoc
        unfold Heap.isFragment Heap.isRoot at hf
        simpa [hk] using hf
      · exact hx

theorem parentKept_insertBeside {b : Bool} {t : Nat} {l : List Nat} (he : h.insertBeside b t l = .ok h') : ParentKept l h h' := by
  unfold Heap.insertBeside at he
  dsimp only at he
  generalize (if b = true then h.index t + 1 else h.index t) = i at he
  split at he
  · cases he; exact parentKept_resetIndex _ _
  · split at he
    · cases he
    · split at he
      · cases he; exact parentKept_resetIndex _ _
      · rename_i cs _
        generalize (if i < cs.length then cs.drop i else []) = B at he
        generalize (if i < cs.length then cs.take i else cs) = A at he
        split at he
        · cases he
        · split at he
          · cases he
            exact ((parentKept_resetIndex _ _).trans parentKept_setParent).trans (parentKept_setChilds _ _)
          · cases he
            exact ((((parentKept_resetIndex _ _).trans parentKept_setParent).trans (parentKept_setChilds _ _)).trans (parentKept_resetIndex _ _)).trans
              (parentKept_setChilds _ _)

theorem parentKept_insertInside {b : Bool} {t : Nat} {l : List Nat} (he : h.insertInside b t l = .ok h') : ParentKept l h h' := by
  unfold Heap.insertInside at he
  dsimp only at he
  split at he
  · split at he
    · cases he
    · split at he
      · cases he; exact (parentKept_setParent.trans (parentKept_resetIndex _ _)).trans (parentKept_setChilds _ _)
      · split at he
        · cases he
        · cases he
          exact ((parentKept_setParent.trans (parentKept_resetIndex _ _)).trans (parentKept_resetIndex _ _)).trans (parentKept_setChilds _ _)
  · cases he; exact (parentKept_setParent.trans (parentKept_resetIndex _ _)).trans (parentKept_setChilds _ _)

theorem parentKept_placeNodes {pos : InsertPosition} {t : Nat} {l : List Nat} (he : h.placeNodes e pos t l = .ok h') : ParentKept l h h' := by
  unfold Heap.placeNodes at he
  dsimp only at he
  split at he
  · cases he
  · rename_i nodes ha
    have hsub : ∀ x ∈ nodes, x ∈ l := by
      split at ha
      · cases hr : removeNotAllowed (e.allow (h.tagNames t)) l with
        | error x => rw [hr] at ha; cases ha
        | ok r =>
          obtain ⟨l', b⟩ := r
          rw [hr] at ha
          cases ha
          exact fun c hc => removeNotAllowed_mem hr c hc
      · cases ha; exact fun c hc => hc
    split at he
    · cases he; exact .refl
    · split at he
      · exact (parentKept_insertInside he).mono hsub
      · exact (parentKept_insertBeside he).mono hsub

theorem parentKept_insertAdjacent {pos : InsertPosition} {t n : Nat} (hdoc : Accepted e h t n → ¬ IsDoc e h n) (ok : HeapOk h D)
    (he : h.insertAdjacent e pos t n = .ok h') : ParentKept (moved h n) h h' := by
  obtain ⟨v1, v2⟩ := Accepted.validate (e := e) ok (t := t) (n := n)
  unfold Heap.insertAdjacent at he
  by_cases ha : Accepted e h t n
  · rw [v1 ha] at he
    dsimp only at he
    cases ht : h.takeNodes e n with
    | error x => rw [ht] at he; cases he
    | ok r =>
      obtain ⟨h1, l⟩ := r
      rw [ht] at he
      obtain ⟨k1, k2⟩ := parentKept_takeNodes (M := moved h n) ht
      exact k1.trans ((parentKept_placeNodes he).mono (k2 (hdoc ha)))
  · rw [v2 ha] at he
    cases he
    exact .refl

theorem parentKept_replaceWith {t n t' : Nat} (hdoc : ¬ IsDoc e h n) (he : h.replaceWith e t n = .ok (h', t')) : ParentKept (moved h n) h h' := by
  unfold Heap.replaceWith at he
  dsimp only at he
  split at he
  · cases he
  · rename_i h1 nodes ht
    obtain ⟨k1, k2⟩ := parentKept_takeNodes (M := moved h n) ht
    refine k1.trans ?_
    generalize (if h.isFragment e n = true then (match h.kids n with | [c] => some c | _ => none) else some n) = sg at he
    split at he
    · cases he; exact .refl
    · refine ParentKept.mono ?_ (k2 hdoc)
      cases hp : h1.parent t with
      | none => rw [hp] at he; cases he; exact .refl
      | some p =>
        simp only [hp] at he
        by_cases htp : t = p
        · rw [if_pos htp] at he; cases he
        · rw [if_neg htp] at he
          cases hcs : (h1.node p).childs with
          | none => rw [hcs] at he; cases he; exact .refl
          | some cs =>
            simp only [hcs] at he
            by_cases c1 : t ∈ nodes ∨ p ∈ nodes
            · rw [if_pos c1] at he; cases he
            · rw [if_neg c1] at he
              by_cases c2 : h1.index t < cs.length ∧ (t ∈ cs.drop (h1.index t + 1) ∨ p ∈ cs.drop (h1.index t + 1))
              · rw [if_pos c2] at he; cases he
              · rw [if_neg c2] at he
                by_cases c3 : cs.length < h1.index t + 1
                · rw [if_pos c3] at he; cases he
                · rw [if_neg c3] at he
                  cases he
                  exact (((parentKept_resetIndex _ _).trans (parentKept_resetIndex _ _)).trans parentKept_setParent).trans (parentKept_setChilds _ _)

theorem parentKept_setText {x : Nat} {s : List Char} {y : Nat} (hy : y < h.size) : (h.setText e x s).parent y = h.parent y := by
  unfold Heap.setText
  split
  · split
    · exact parentKept_content (M := []) _ _ y (by simp)
    · split
      · exact setChilds_parent ..
      · simp only [Heap.alloc]
        rw [setChilds_parent]
        unfold Heap.parent
        simp only
        rw [if_neg (by omega)]
  · split
    · rfl
    · exact parentKept_content (M := []) _ _ y (by simp)
  · split
    · rfl
    · exact parentKept_content (M := []) _ _ y (by simp)
  · split
    · rfl
    · exact parentKept_content (M := []) _ _ y (by simp)
  · rfl

theorem parentKept_setHtml (P : ParseOk e) (ok : HeapOk h D) {x : Nat} {s : List Char} {y : Nat} (hy : y < h.size) (he : h.setHtml e x s = .ok h') :
    h'.parent y = h.parent y := by
  unfold Heap.setHtml at he
  dsimp only at he
  split at he
  · cases he; rfl
  · rename_i t _
    split at he
    · cases he
    · split at he
      · cases he; exact parentKept_content (M := []) _ _ y (by simp)
      · split at he
        · cases he
        · rename_i h1 r hp
          have hold : h1.parent y = h.parent y := by
            unfold Heap.parent
            rw [(P h s h1 r hp).2.1 y hy]
          rw [← hold]
          split at he
          · cases he; exact setChilds_parent ..
          · rename_i parsed hch
            obtain ⟨_, _, _, _, _, hnew, _⟩ := parsed_taken P hp ok hch
            split at he
            · cases he
            · rename_i nodes na hna
              have hyn : y ∉ nodes := fun hm => by
                have := hnew y (removeNotAllowed_mem hna y hm); omega
              have k0 : ParentKept nodes h1 (h1.setChilds r (some [])) := parentKept_setChilds _ _
              have k1 : ParentKept nodes h1 ((h1.setChilds r (some [])).setParent t nodes) := k0.trans parentKept_setParent
              split at he
              · cases he
                refine (?_ : ParentKept nodes h1 _) y hyn
                split
                · exact (k1.trans (parentKept_resetIndex _ _)).trans (parentKept_setChilds _ _)
                · exact k1.trans (parentKept_setChilds _ _)
              · split at he
                · cases he; exact k1 y hyn
                · split at he
                  · cases he
                  · split at he
                    · cases he
                    · split at he
                      · cases he
                      · cases he
                        refine (?_ : ParentKept nodes h1 _) y hyn
                        split
                        · exact ((k1.trans (parentKept_resetIndex _ _)).trans (parentKept_resetIndex _ _)).trans (parentKept_setChilds _ _)
                        · exact (k1.trans (parentKept_resetIndex _ _)).trans (parentKept_setChilds _ _)

/-- A node that the call does not touch keeps its parent. -/
theorem untouched_parent (P : ParseOk e) (ok : HeapOk h D) {op : Op} (u : Usable e h D op) (hr : op.run e h = .ok h') {y : Nat} (hy : y < h.size)
    (ht : ¬ Touched e h y op) : h'.parent y = h.parent y := by
  unfold Touched at ht
  rw [not_or] at ht
  cases op with
  | remove x => exact parentKept_detach (M := []) hr y (by simp)
  | removeText x =>
    simp only [Op.run, Heap.removeText] at hr
    split at hr
    · cases hr; rfl
    · split at hr
      · cases hr
      · split at hr
        · cases hr; rfl
        · split at hr
          · cases hr
          · split at hr
            · cases hr
            · cases hr
              exact ((parentKept_setChilds (M := []) _ _).trans (parentKept_resetIndex _ _)) y (by simp)
  | insert pos t n => exact parentKept_insertAdjacent (fun ha => ha.2.1) ok hr y ht.2
  | replace t n =>
    simp only [Op.run] at hr
    cases hw : h.replaceWith e t n with
    | error x => rw [hw] at hr; cases hr
    | ok r =>
      obtain ⟨h1, t1⟩ := r
      rw [hw] at hr
      cases hr
      exact parentKept_replaceWith u.2.2.2.2.1 hw y ht.2
  | setText x s => cases hr; exact parentKept_setText hy
  | appendText x s =>
    simp only [Op.run, Heap.appendText] at hr
    split at hr
    · cases hr; exact parentKept_content (M := []) _ _ y (by simp)
    · cases hr
  | prependText x s =>
    simp only [Op.run, Heap.prependText] at hr
    split at hr
    · cases hr; exact parentKept_content (M := []) _ _ y (by simp)
    · cases hr
  | setHtml x s => exact parentKept_setHtml P ok hy hr
  | load s =>
    simp only [Op.run] at hr
    cases hp : e.parse h s with
    | error x => rw [hp] at hr; cases hr
    | ok r =>
      obtain ⟨h1, r⟩ := r
      rw [hp] at hr
      cases hr
      unfold Heap.parent
      rw [(P _ _ _ _ hp).2.1 y hy]

/-- Nodes in place that no call of the history touches keep their parents and stay in place. -/
theorem untouched_history (P : ParseOk e) (ops : List Op) : ∀ (h h' : Heap) (D : Nat → Prop), HeapOk h D → History e h D ops → runAll e h ops = .ok h' →
    ∀ y, y < h.size → Attached h D y → ¬ TouchedAny e h ops y → h'.parent y = h.parent y ∧ Attached h' (UsedAll e h D ops) y := by
  induction ops with
  | nil => intro h h' D _ _ hr y _ ha _; cases hr; exact ⟨rfl, ha⟩
  | cons op ops ih =>
    intro h h' D ok hh hr y hy ha ht
    obtain ⟨h1, st⟩ := op_step ok P op hh.1
    simp only [TouchedAny, st.run, not_or] at ht
    simp only [runAll, st.run] at hr
    have hp := untouched_parent P ok hh.1 st.run hy ht.1
    obtain ⟨k1, k2⟩ := ih h1 h' _ st.ok (hh.2 h1 st.run) hr y (Nat.lt_of_lt_of_le hy st.size)
      (st.attached y hy ha fun hl => ht.1 (.inl hl)) ht.2
    refine ⟨k1.trans hp, ?_⟩
    simp only [UsedAll, st.run]
    exact k2

end

/-! ### Searches -/

/-- In both trees the nodes of `V` have the same parents, up to the root, and the same names and attributes. -/
structure KeptPaths (h h' : Heap) (r : Nat) (V : Nat → Prop) : Prop where
  within : ∀ y, V y → Within h r y
  within' : ∀ y, V y → Within h' r y
  up : ∀ y, V y → y ≠ r → ∃ p, V p ∧ y ∈ h.kids p ∧ y ∈ h'.kids p
  data : ∀ y, V y → (h'.node y).kind = (h.node y).kind ∧ (h'.node y).name = (h.node y).name ∧ (h'.node y).attrs = (h.node y).attrs

section
variable {h h' : Heap} {r : Nat} {V : Nat → Prop}

theorem KeptPaths.symm (k : KeptPaths h h' r V) : KeptPaths h' h r V :=
  ⟨k.within', k.within, fun y hy hne => let ⟨p, h1, h2, h3⟩ := k.up y hy hne; ⟨p, h1, h3, h2⟩,
    fun y hy => let ⟨h1, h2, h3⟩ := k.data y hy; ⟨h1.symm, h2.symm, h3.symm⟩⟩

/-- What is above a node of `V` is above it in both trees. -/
theorem KeptPaths.above (k : KeptPaths h h' r V) (wf : TreeWF h r) {y e : Nat} (hy : Within h r y) (hw : Within h y e) (he : V e) :
    V y ∧ Within h' y e := by
  induction hw with
  | self => exact ⟨he, .self⟩
  | @step p c hp hc ih =>
    have hpw := hy.trans hp
    obtain ⟨q, h1, h2, h3⟩ := k.up c he (child_ne_root wf hpw hc)
    have e1 := parent_of_child wf hpw hc
    have e2 := parent_of_child wf (k.within q h1) h2
    rw [e1] at e2
    cases e2
    obtain ⟨i1, i2⟩ := ih h1
    exact ⟨i1, i2.step h3⟩

theorem KeptPaths.rel (k : KeptPaths h h' r V) (wf : TreeWF h r) {c : Comb} (hc : c = .childrenAll ∨ c = .children) {y e : Nat} (hy : Within h r y)
    (he : V e) (hr : Rel h r c y e) : V y ∧ Rel h' r c y e := by
  rcases hc with rfl | rfl
  · obtain ⟨c, hc, hw⟩ := hr
    obtain ⟨k1, k2⟩ := k.above wf (hy.step hc) hw he
    obtain ⟨q, h1, h2, h3⟩ := k.up c k1 (child_ne_root wf hy hc)
    have e1 := parent_of_child wf hy hc
    have e2 := parent_of_child wf (k.within q h1) h2
    rw [e1] at e2
    cases e2
    exact ⟨h1, c, h3, k2⟩
  · obtain ⟨q, h1, h2, h3⟩ := k.up e he (child_ne_root wf hy hr)
    have e1 := parent_of_child wf hy hr
    have e2 := parent_of_child wf (k.within q h1) h2
    rw [e1] at e2
    cases e2
    exact ⟨h1, h3⟩

/-- The same selection in both trees, as far as the nodes of `V` are concerned. -/
theorem KeptPaths.sel (k : KeptPaths h h' r V) (wf : TreeWF h r) (wf' : TreeWF h' r) {st st' : List (Comb × (Nat → Bool))}
    (hs : List.Forall₂ (fun s t => s.1 = t.1 ∧ (s.1 = .childrenAll ∨ s.1 = .children) ∧ ∀ x, V x → s.2 x = t.2 x) st st') :
    ∀ {A A' : Nat → Prop}, (∀ y, A y → Within h r y) → (∀ y, A' y → Within h' r y) → (∀ y, V y → (A y ↔ A' y)) →
      ∀ x, V x → (Sel h r A st x ↔ Sel h' r A' st' x) := by
  induction hs with
  | nil => intro A A' _ _ hAA x hx; exact hAA x hx
  | @cons s t st st' hst _ ih =>
    intro A A' hA hA' hAA x hx
    obtain ⟨c1, c2, c3⟩ := hst
    refine ih (A := Img h r A s) (A' := Img h' r A' t) ?_ ?_ (fun e he => ?_) x hx
    · rintro y ⟨_, _, z, hz, hr⟩; exact rel_inside (hA z hz) hr
    · rintro y ⟨_, _, z, hz, hr⟩; exact rel_inside (hA' z hz) hr
    · have hel : h'.isElem e = h.isElem e := by unfold Heap.isElem; rw [(k.data e he).1]
      constructor
      · rintro ⟨h1, h2, y, hy, hr⟩
        obtain ⟨k1, k2⟩ := k.rel wf c2 (hA y hy) he hr
        exact ⟨by rw [hel]; exact h1, by rw [← c3 e he]; exact h2, y, (hAA y k1).1 hy, c1 ▸ k2⟩
      · rintro ⟨h1, h2, y, hy, hr⟩
        rw [← c1] at hr
        obtain ⟨k1, k2⟩ := k.symm.rel wf' c2 (hA' y hy) he hr
        exact ⟨by rw [← hel]; exact h1, by rw [c3 e he]; exact h2, y, (hAA y k1).2 hy, k2⟩

/-- Tests that look at an element alone. -/
theorem own_sat {r' : Nat} {env env' : Env} {x : Nat} (hd : (h'.node x).kind = (h.node x).kind ∧ (h'.node x).name = (h.node x).name ∧
    (h'.node x).attrs = (h.node x).attrs) {s : Sim} (hs : s.own = true) : Sim.Sat h' r' env' s x ↔ Sim.Sat h r env s x := by
  obtain ⟨h1, h2, h3⟩ := hd
  cases s <;> simp only [Sim.own, Bool.false_eq_true] at hs <;> simp only [Sim.Sat, Named, HasAttr, Heap.isElem, h1, h2, h3]

theorem own_cmpd {r' : Nat} {env env' : Env} {x : Nat} (hd : (h'.node x).kind = (h.node x).kind ∧ (h'.node x).name = (h.node x).name ∧
    (h'.node x).attrs = (h.node x).attrs) : ∀ {ss : List Sim}, (∀ s ∈ ss, s.own = true) → (cmpdSat h' r' env' ss x ↔ cmpdSat h r env ss x)
  | [], _ => by simp only [cmpdSat]
  | s :: ss, hs => by
    simp only [cmpdSat]
    rw [own_sat hd (hs s (by simp)), own_cmpd hd fun t ht => hs t (by simp [ht])]

theorem own_steps {env env' : Env} (hd : ∀ y, V y → (h'.node y).kind = (h.node y).kind ∧ (h'.node y).name = (h.node y).name ∧
    (h'.node y).attrs = (h.node y).attrs) : ∀ {cx : Complex}, (∀ s ∈ cx, ∀ t ∈ s.2, t.own = true) →
      List.Forall₂ (fun s t => s.1 = t.1 ∧ s.1 ∈ cx.map (·.1) ∧ ∀ x, V x → s.2 x = t.2 x) (steps h r env cx) (steps h' r env' cx)
  | [], _ => by simp only [steps]; exact .nil
  | (c, ss) :: l, ho => by
    simp only [steps, step]
    refine .cons ⟨rfl, by simp, fun x hx => ?_⟩ ((own_steps hd (cx := l) fun s hs => ho s (by simp [hs])).imp ?_)
    · exact decide_eq_decide.2 (own_cmpd (hd x hx) (ho (c, ss) (by simp))).symm
    · rintro s t ⟨h1, h2, h3⟩
      exact ⟨h1, by simp [h2], h3⟩

theorem Spec.Own.basic {cx : Complex} (ho : Own cx) : Basic cx :=
  ⟨ho.1, fun s hs => ⟨(ho.2 s hs).1, (ho.2 s hs).2.1, fun t ht => by
    have := (ho.2 s hs).2.2 t ht
    cases t <;> simp_all [Sim.own, Sim.basic]⟩⟩

/-- Before and after, a downward selector of such tests means the same among the nodes of `V`. -/
theorem KeptPaths.own (k : KeptPaths h h' r V) (wf : TreeWF h r) (wf' : TreeWF h' r) {env env' : Env} {cx : Complex} (ho : Own cx) (hd : Downward cx)
    {S : List Nat} (hS : ∀ s ∈ S, V s) {x : Nat} (hx : V x) :
    Sel h r (· ∈ S) (steps h r env cx) x ↔ Sel h' r (· ∈ S) (steps h' r env' cx) x := by
  refine k.sel wf wf' ((own_steps k.data (fun s hs => (ho.2 s hs).2.2)).imp ?_) (fun y hy => k.within y (hS y hy)) (fun y hy => k.within' y (hS y hy))
    (fun _ _ => Iff.rfl) x hx
  rintro s t ⟨h1, h2, h3⟩
  obtain ⟨u, hu, he⟩ := List.mem_map.1 h2
  exact ⟨h1, he ▸ hd u hu, h3⟩

end
end Visdom
