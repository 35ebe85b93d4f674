import Verif.Spec.Deeds
import Verif.Proofs.Kept
import Verif.Proofs.SetAttrs
import Verif.Proofs.Apart
/-!
# Mixed histories; the nodes a call changes
-/
namespace Visdom
open Spec

/-! ## Attributes -/

theorem setAttribute_wf {x : AttrExt} {m m' : Meta} (wf : MetaWF m) {n : List Char} {v : Option (List Char)} (he : setAttribute x m n v = .ok m') :
    MetaWF m' := by
  obtain ⟨m1, h1, h2, -⟩ := setAttribute_spec x wf n v
  rw [h1] at he; cases he; exact h2

theorem removeAttribute_wf {m m' : Meta} (wf : MetaWF m) {n : List Char} (he : removeAttribute m n = .ok m') : MetaWF m' := by
  obtain ⟨m1, h1, h2, -⟩ := removeAttribute_spec wf n
  rw [h1] at he; cases he; exact h2

theorem addClassOne_wf {x : AttrExt} {m m' : Meta} (wf : MetaWF m) {s : List Char} (he : addClassOne x m s = .ok m') : MetaWF m' := by
  unfold addClassOne at he
  cases hc : classValue m with
  | error q => rw [hc] at he; cases he
  | ok v =>
    rw [hc] at he
    cases v with
    | none => exact setAttribute_wf wf he
    | some c => exact setAttribute_wf wf he

theorem removeClass_wf {x : AttrExt} {m m' : Meta} (wf : MetaWF m) {s : List Char} (he : removeClass x m s = .ok m') : MetaWF m' := by
  unfold removeClass at he
  dsimp only at he
  split at he
  · cases he; exact wf
  · cases hc : classValue m with
    | error q => rw [hc] at he; cases he
    | ok v =>
      rw [hc] at he
      cases v with
      | none => cases he; exact wf
      | some c =>
        simp only [bind, Except.bind] at he
        split at he
        · cases he; exact wf
        · cases hr : retainByIndex (getClassList c) (removedIndexs (getClassList c) (getClassList (trim s))) with
          | error q => rw [hr] at he; cases he
          | ok l => rw [hr] at he; exact setAttribute_wf wf he

theorem toggleClass_wf {x : AttrExt} {m m' : Meta} (wf : MetaWF m) {s : List Char} (he : toggleClass x m s = .ok m') : MetaWF m' := by
  unfold toggleClass at he
  dsimp only at he
  split at he
  · cases he; exact wf
  · cases hc : classValue m with
    | error q => rw [hc] at he; cases he
    | ok v =>
      rw [hc] at he
      cases v with
      | none => exact setAttribute_wf wf he
      | some c =>
        simp only [bind, Except.bind] at he
        split at he
        · cases he
        · split at he
          · cases he; exact wf
          · exact setAttribute_wf wf he

section
variable {h h1 h2 : Heap} {e : Ext}

theorem changeAll_only {reads : Bool} {f : Meta → R Meta} : ∀ (X : List Nat) (h : Heap), Heap.changeAll reads f h X = .ok h1 →
    OnlyAttrs h h1 ∧ (∀ x, x ∉ X → h1.node x = h.node x) ∧ ((∀ m m', MetaWF m → f m = .ok m' → MetaWF m') → Tables h → Tables h1)
  | [], h, he => by cases he; exact ⟨.refl _, fun _ _ => rfl, fun _ t => t⟩
  | x :: X, h, he => by
    simp only [Heap.changeAll] at he
    cases hc : h.changeAttrs reads f x with
    | error q => rw [hc] at he; cases he
    | ok g =>
      rw [hc] at he
      obtain ⟨a, b, c⟩ := changeAll_only X g he
      have key : OnlyAttrs h g ∧ (∀ y, y ≠ x → g.node y = h.node y) ∧ ((∀ m m', MetaWF m → f m = .ok m' → MetaWF m') → Tables h → Tables g) := by
        unfold Heap.changeAttrs at hc
        split at hc
        · rename_i hel
          split at hc
          · cases hc
          · rename_i m hm
            cases hc
            refine ⟨onlyAttrs_upd x m, fun y hy => by rw [upd_node, if_neg hy], fun hf t y hy hey => ?_⟩
            rw [upd_node]
            split
            · rename_i hyx
              subst hyx
              exact hf _ _ (t y hy hel) hm
            · rename_i hyx
              refine t y hy ?_
              rw [← (onlyAttrs_upd x m).isElem]; exact hey
        · split at hc
          · cases hc
          · cases hc; exact ⟨.refl _, fun _ _ => rfl, fun _ t => t⟩
      refine ⟨key.1.trans a, fun y hy => ?_, fun hf t => c hf (key.2.2 hf t)⟩
      simp only [List.mem_cons, not_or] at hy
      rw [b y hy.2, key.2.1 y hy.1]

theorem attrCall_only {a : AttrExt} {c : AttrCall} (he : c.run a h = .ok h1) :
    OnlyAttrs h h1 ∧ (∀ x, x ∉ c.nodes → h1.node x = h.node x) ∧ (Tables h → Tables h1) := by
  cases c with
  | setAttr X n v =>
    obtain ⟨p, q, r⟩ := changeAll_only X h he
    exact ⟨p, q, r fun m m' wf hm => setAttribute_wf wf hm⟩
  | removeAttr X n =>
    obtain ⟨p, q, r⟩ := changeAll_only X h he
    exact ⟨p, q, r fun m m' wf hm => removeAttribute_wf wf hm⟩
  | addClass X s =>
    simp only [AttrCall.run, Heap.addClass] at he
    split at he
    · cases he; exact ⟨.refl _, fun _ _ => rfl, fun t => t⟩
    · obtain ⟨p, q, r⟩ := changeAll_only X h he
      exact ⟨p, q, r fun m m' wf hm => addClassOne_wf wf hm⟩
  | removeClass X s =>
    simp only [AttrCall.run, Heap.removeClass] at he
    split at he
    · cases he; exact ⟨.refl _, fun _ _ => rfl, fun t => t⟩
    · obtain ⟨p, q, r⟩ := changeAll_only X h he
      exact ⟨p, q, r fun m m' wf hm => removeClass_wf wf hm⟩
  | toggleClass X s =>
    simp only [AttrCall.run, Heap.toggleClass] at he
    split at he
    · cases he; exact ⟨.refl _, fun _ _ => rfl, fun t => t⟩
    · obtain ⟨p, q, r⟩ := changeAll_only X h he
      exact ⟨p, q, r fun m m' wf hm => toggleClass_wf wf hm⟩

theorem Spec.OnlyAttrs.parent (a : OnlyAttrs h h1) (x : Nat) : h1.parent x = h.parent x := by
  simp only [Heap.parent, (a.fields x).2.2.2.2.1]

theorem Spec.OnlyAttrs.heapOk (a : OnlyAttrs h h1) {D : Nat → Prop} (ok : HeapOk h D) : HeapOk h1 D := by
  have hi : ∀ x, h1.index x = h.index x := fun x => by rw [Heap.index, Heap.index, a.node x]
  refine ⟨fun p i c hp hc => ?_, fun p c hp hc => ?_, fun x hx => ?_, fun x h2 h3 => ?_, fun x p hp => ?_, ?_, fun x hx => ?_⟩
  · rw [a.kids] at hc; rw [a.parent, hi]; exact ok.link p i c hp hc
  · rw [a.kids] at hc; rw [(a.fields c).1]; exact ok.kid p c hp hc
  · rw [(a.fields x).1] at hx; rw [a.parent]; exact ok.top x hx
  · rw [(a.fields x).1] at h2 h3; rw [a.kids]; exact ok.leaf x h2 h3
  · rw [a.parent] at hp; rw [a.size]; exact ok.bound x p hp
  · have : (fun p x => h1.parent x = some p) = fun p x => h.parent x = some p := by funext p x; rw [a.parent]
    rw [this]; exact ok.ground
  · rw [(a.fields x).1, a.size]; exact ok.dead x hx

theorem deeds_ready {a : AttrExt} (P : ParseOk e) (T : ParseTables e) {D D' : Nat → Prop} {ds : List Deed} (hd : Deeds e a h D ds h1 D') :
    HeapOk h D → Tables h → HeapOk h1 D' ∧ Tables h1 ∧ h.size ≤ h1.size ∧
      ∀ x, x < h.size → (h1.node x).kind = (h.node x).kind ∧ (h1.node x).name = (h.node x).name ∧ (h1.node x).root = (h.node x).root := by
  induction hd with
  | nil => exact fun ok t => ⟨ok, t, Nat.le_refl _, fun x _ => ⟨rfl, rfl, rfl⟩⟩
  | @tree h D op g ds h' D' hu hr _ ih =>
    intro ok t
    have hh : History e h D [op] := ⟨hu, fun _ _ => trivial⟩
    obtain ⟨g', hg', okg⟩ := history_ok P [op] h D ok hh
    have hr1 : runAll e h [op] = .ok g := by simp only [runAll, hr]
    rw [hr1] at hg'
    cases hg'
    have hD : UsedAll e h D [op] = fun x => Used e h D x op := by
      funext x; simp only [UsedAll, hr]
    rw [hD] at okg
    obtain ⟨s1, s2, s3⟩ := runAll_same P [op] h g hr1
    obtain ⟨i1, i2, i3, i4⟩ := ih okg (s3 T t)
    refine ⟨i1, i2, Nat.le_trans s1 i3, fun x hx => ?_⟩
    obtain ⟨j1, j2, j3⟩ := i4 x (Nat.lt_of_lt_of_le hx s1)
    obtain ⟨k1, k2, -, k4⟩ := s2 x hx
    exact ⟨j1.trans k1, j2.trans k2, j3.trans k4⟩
  | @attrs h D c g ds h' D' hr _ ih =>
    intro ok t
    obtain ⟨o, -, ot⟩ := attrCall_only hr
    obtain ⟨i1, i2, i3, i4⟩ := ih (o.heapOk ok) (ot t)
    refine ⟨i1, i2, by rw [← o.size]; exact i3, fun x hx => ?_⟩
    obtain ⟨j1, j2, j3⟩ := i4 x (by rw [o.size]; exact hx)
    rw [j1, j2, j3, o.node x]
    exact ⟨rfl, rfl, rfl⟩

/-! ## Which nodes a call changes -/

/-- Nothing changes outside of `T`. -/
def Frame (T : Nat → Prop) (h h1 : Heap) : Prop := ∀ z, ¬ T z → h1.node z = h.node z

variable {T : Nat → Prop}

theorem Frame.refl : Frame T h h := fun _ _ => rfl

theorem Frame.trans (a : Frame T h h1) (b : Frame T h1 h2) : Frame T h h2 := fun z hz => (b z hz).trans (a z hz)

theorem frame_upd {x : Nat} (hx : T x) (f : Node → Node) : Frame T h (h.upd x f) := fun z hz => by
  rw [upd_node, if_neg]; rintro rfl; exact hz hx

theorem frame_resetIndex : ∀ (l : List Nat) (s : Nat) (h : Heap), (∀ x ∈ l, T x) → Frame T h (h.resetIndex s l)
  | [], _, _, _ => .refl
  | x :: l, s, h, hl => (frame_upd (hl x (by simp)) _).trans (frame_resetIndex l (s + 1) _ fun y hy => hl y (by simp [hy]))

theorem frame_setParent (p : Nat) : ∀ (l : List Nat) (h : Heap), (∀ x ∈ l, T x) → Frame T h (h.setParent p l)
  | [], _, _ => .refl
  | x :: l, h, hl => (frame_upd (hl x (by simp)) _).trans (frame_setParent p l _ fun y hy => hl y (by simp [hy]))

theorem frame_setChilds {x : Nat} (hx : T x) (cs : Option (List Nat)) : Frame T h (h.setChilds x cs) := frame_upd hx _

theorem kids_some {x : Nat} {cs : List Nat} (hc : (h.node x).childs = some cs) : h.kids x = cs := by unfold Heap.kids; rw [hc]; rfl

theorem frame_removeChild {p x : Nat} (hp : T p) (hk : ∀ c ∈ h.kids p, T c) (he : h.removeChild p x = .ok h1) :
    Frame T h h1 ∧ (∀ y, h1.parent y = h.parent y) ∧ ∀ y c, c ∈ h1.kids y → c ∈ h.kids y := by
  unfold Heap.removeChild at he
  have key : ∀ (g : Heap) (cs : List Nat) (i : Nat), (h.node p).childs = some cs → (∀ y, (g.node y).childs = (h.node y).childs) →
      ∀ y c, c ∈ (g.setChilds p (some (cs.eraseIdx i))).kids y → c ∈ h.kids y := by
    intro g cs i hcs hg y c hc
    unfold Heap.kids Heap.setChilds at hc
    rw [upd_node] at hc
    split at hc
    · rename_i hy
      subst hy
      rw [kids_some hcs]
      exact List.mem_of_mem_eraseIdx hc
    · rw [hg y] at hc; exact hc
  have kpar : ∀ (g : Heap) (cs : List Nat), (∀ y, g.parent y = h.parent y) → ∀ y, (g.setChilds p (some cs)).parent y = h.parent y := by
    intro g cs hg y
    rw [← hg y]
    simp only [Heap.parent, Heap.setChilds, upd_node]
    split <;> rfl
  split at he
  · split at he
    · cases he; exact ⟨.refl, fun _ => rfl, fun _ _ h => h⟩
    · rename_i cs hcs
      split at he
      · cases he
      split at he
      · cases he
      · split at he
        · cases he
          exact ⟨frame_setChilds hp _, kpar h _ fun _ => rfl, key h cs _ hcs fun _ => rfl⟩
        · split at he
          · cases he
          · cases he
            obtain ⟨-, f2, f3, -⟩ := resetIndex_fields (cs.drop (h.index x + 1)) h (h.index x)
            refine ⟨(frame_resetIndex _ _ _ fun c hc => ?_).trans (frame_setChilds hp _), kpar _ _ f3, key _ cs _ hcs f2⟩
            exact hk c (by rw [kids_some hcs]; exact List.mem_of_mem_drop hc)
  · cases he; exact ⟨.refl, fun _ => rfl, fun _ _ h => h⟩

theorem frame_detach {x : Nat} (hp : ∀ p, h.parent x = some p → T p ∧ ∀ c ∈ h.kids p, T c) (he : h.detach x = .ok h1) :
    Frame T h h1 ∧ (∀ y, h1.parent y = h.parent y) ∧ ∀ y c, c ∈ h1.kids y → c ∈ h.kids y := by
  unfold Heap.detach at he
  split at he
  · cases he; exact ⟨.refl, fun _ => rfl, fun _ _ h => h⟩
  · rename_i p hpar
    exact frame_removeChild (hp p hpar).1 (hp p hpar).2 he

theorem frame_takeNodes {n : Nat} {l : List Nat} (hn : T n) (hk : ∀ c ∈ h.kids n, T c)
    (hp : ∀ p, h.parent n = some p → T p ∧ ∀ c ∈ h.kids p, T c) (he : h.takeNodes e n = .ok (h1, l)) :
    Frame T h h1 ∧ (∀ y, h1.parent y = h.parent y) ∧ (∀ y c, c ∈ h1.kids y → c ∈ h.kids y) ∧ ∀ c ∈ l, T c := by
  unfold Heap.takeNodes at he
  split at he
  · cases he; exact ⟨.refl, fun _ => rfl, fun _ _ h => h, hk⟩
  · cases hd : h.detach n with
    | error x => rw [hd] at he; cases he
    | ok g =>
      rw [hd] at he
      cases he
      obtain ⟨a, b, c⟩ := frame_detach hp hd
      exact ⟨a, b, c, fun c hc => by rw [List.mem_singleton.1 hc]; exact hn⟩

theorem frame_insertBeside {b : Bool} {t : Nat} {l : List Nat} (hl : ∀ c ∈ l, T c)
    (hp : ∀ p, h.parent t = some p → T p ∧ ∀ c ∈ h.kids p, T c) (he : h.insertBeside b t l = .ok h1) : Frame T h h1 := by
  unfold Heap.insertBeside at he
  dsimp only at he
  generalize (if b = true then h.index t + 1 else h.index t) = i at he
  obtain ⟨-, f2, f3, -⟩ := resetIndex_fields l h i
  have k1 : Frame T h (h.resetIndex i l) := frame_resetIndex l i h hl
  split at he
  · cases he; exact k1
  · rename_i p hpar
    rw [f3] at hpar
    obtain ⟨hpT, hkT⟩ := hp p hpar
    split at he
    · cases he
    split at he
    · cases he; exact k1
    · rename_i cs hcs
      rw [f2] at hcs
      rw [kids_some hcs] at hkT
      split at he
      · cases he
      · have hnx : ∀ c ∈ (if i < cs.length then cs.drop i else []), T c := fun c hc => by
          split at hc
          · exact hkT c (List.mem_of_mem_drop hc)
          · simp at hc
        generalize (if i < cs.length then cs.drop i else []) = nexts at he hnx
        generalize (if i < cs.length then cs.take i else cs) = prevs at he
        have k3 := (k1.trans (frame_setParent p l _ hl)).trans (frame_setChilds hpT (some (prevs ++ l)))
        split at he <;> cases he
        · exact k3
        · exact (k3.trans (frame_resetIndex _ _ _ hnx)).trans (frame_setChilds hpT _)

theorem frame_insertInside {b : Bool} {t : Nat} {l : List Nat} (ht : T t) (hl : ∀ c ∈ l, T c) (hk : ∀ c ∈ h.kids t, T c)
    (he : h.insertInside b t l = .ok h1) : Frame T h h1 := by
  unfold Heap.insertInside at he
  dsimp only at he
  obtain ⟨-, f2, -⟩ := setParent_fields t l h
  have k1 : Frame T h (h.setParent t l) := frame_setParent t l h hl
  split at he
  · rename_i cs hcs
    rw [f2] at hcs
    rw [kids_some hcs] at hk
    split at he
    · cases he
    · split at he
      · cases he; exact (k1.trans (frame_resetIndex _ _ _ hl)).trans (frame_setChilds ht _)
      · split at he <;> cases he
        exact ((k1.trans (frame_resetIndex _ _ _ hl)).trans (frame_resetIndex _ _ _ hk)).trans (frame_setChilds ht _)
  · cases he; exact (k1.trans (frame_resetIndex _ _ _ hl)).trans (frame_setChilds ht _)

theorem frame_placeNodes {pos : InsertPosition} {t : Nat} {l : List Nat} (ht : T t) (hl : ∀ c ∈ l, T c) (hk : ∀ c ∈ h.kids t, T c)
    (hp : ∀ p, h.parent t = some p → T p ∧ ∀ c ∈ h.kids p, T c) (he : h.placeNodes e pos t l = .ok h1) : Frame T h h1 := by
  unfold Heap.placeNodes at he
  dsimp only at he
  split at he
  · cases he
  · rename_i nodes hn
    have hno : ∀ c ∈ nodes, T c := by
      split at hn
      · cases hr : removeNotAllowed (e.allow (h.tagNames t)) l with
        | error x => rw [hr] at hn; cases hn
        | ok v =>
          rw [hr] at hn
          obtain ⟨v1, v2⟩ := v
          cases hn
          exact fun c hc => hl c (removeNotAllowed_mem hr c hc)
      · cases hn; exact hl
    split at he
    · cases he; exact .refl
    · split at he
      · exact frame_insertInside ht hno hk he
      · exact frame_insertBeside hno hp he

/-- The given nodes and what is next to them may be touched. -/
structure Around (T : Nat → Prop) (h : Heap) (x : Nat) : Prop where
  self : T x
  kids : ∀ c ∈ h.kids x, T c
  parent : ∀ p, h.parent x = some p → T p ∧ ∀ c ∈ h.kids p, T c

theorem frame_insertAdjacent {pos : InsertPosition} {t n : Nat} (ht : Around T h t) (hn : Around T h n)
    (he : h.insertAdjacent e pos t n = .ok h1) : Frame T h h1 := by
  unfold Heap.insertAdjacent at he
  split at he
  · cases he
  · cases he; exact .refl
  · split at he
    · cases he
    · rename_i g nodes hk
      obtain ⟨k, kp, kk, hl⟩ := frame_takeNodes hn.self hn.kids hn.parent hk
      exact k.trans (frame_placeNodes ht.self hl (fun c hc => ht.kids c (kk t c hc))
        (fun p hp => ⟨(ht.parent p (by rw [← kp]; exact hp)).1, fun c hc => (ht.parent p (by rw [← kp]; exact hp)).2 c (kk p c hc)⟩) he)

theorem frame_replaceWith {t n : Nat} {r : Heap × Nat} (ht : Around T h t) (hn : Around T h n) (he : h.replaceWith e t n = .ok r) :
    Frame T h r.1 := by
  unfold Heap.replaceWith at he
  dsimp only at he
  generalize ((if h.isFragment e n then (match h.kids n with | [c] => some c | _ => none) else some n) : Option Nat) = sg at he
  split at he
  · cases he
  · rename_i g nodes hk
    obtain ⟨k, kp, kk, hl⟩ := frame_takeNodes hn.self hn.kids hn.parent hk
    split at he
    · cases he; exact k
    · split at he
      · cases he; exact k
      · rename_i p hp
        rw [kp] at hp
        obtain ⟨pT, cT⟩ := ht.parent p hp
        split at he
        · cases he
        split at he
        · cases he; exact k
        · rename_i cs hc
          have cT' : ∀ c ∈ cs, T c := fun c hcc => cT c (kk p c (by rw [kids_some hc]; exact hcc))
          repeat' split at he
          all_goals cases he
          exact (((k.trans (frame_resetIndex _ _ _ hl)).trans
            (frame_resetIndex _ _ _ fun c hcc => cT' c (List.mem_of_mem_drop hcc))).trans (frame_setParent _ _ _ hl)).trans (frame_setChilds pT _)

theorem frame_setText {x : Nat} (hx : T x) (hs : T h.size) (s : List Char) : Frame T h (h.setText e x s) := by
  unfold Heap.setText
  split
  · split
    · exact frame_upd hx _
    · split
      · exact frame_setChilds hx _
      · refine Frame.trans (h1 := (h.alloc { kind := .text, content := some (e.encode s), parent := some x }).1) (fun z hz => ?_) (frame_setChilds hx _)
        simp only [Heap.alloc]
        rw [if_neg]
        rintro rfl
        exact hz hs
  all_goals first
    | exact .refl
    | (split
       · exact .refl
       · exact frame_upd hx _)

theorem frame_setHtml (P : ∀ h s h' r, e.parse h s = .ok (h', r) → h.size ≤ h'.size ∧ h.size ≤ r ∧ (∀ y < h.size, h'.node y = h.node y) ∧
      ∀ c ∈ h'.kids r, h.size ≤ c) {x : Nat} {s : List Char} (hx : Around T h x) (hx' : x < h.size)
    (hb : ∀ p, h.parent x = some p → p < h.size) (hn : ∀ z, h.size ≤ z → T z) (he : h.setHtml e x s = .ok h1) : Frame T h h1 := by
  unfold Heap.setHtml at he
  dsimp only at he
  split at he
  · cases he; exact .refl
  · rename_i t htg
    have ht : T t ∧ t < h.size ∧ (h.isElem x = false → ∀ c ∈ h.kids t, T c) := by
      unfold Heap.htmlTarget at htg
      split at htg
      · rename_i hk
        cases htg
        exact ⟨hx.self, hx', fun h2 => by simp [Heap.isElem, hk] at h2⟩
      · exact ⟨(hx.parent t htg).1, hb t htg, fun _ => (hx.parent t htg).2⟩
      · exact ⟨(hx.parent t htg).1, hb t htg, fun _ => (hx.parent t htg).2⟩
      · cases htg
    split at he
    · cases he
    · split at he
      · cases he; exact frame_upd ht.1 _
      · split at he
        · cases he
        · rename_i g root hp
          obtain ⟨ps, pr, po, pc⟩ := P h s g root hp
          have k : Frame T h g := fun z hz => po z (Nat.lt_of_not_le fun hge => hz (hn z hge))
          split at he
          · cases he; exact k.trans (frame_setChilds ht.1 _)
          · rename_i parsed hc
            have hps : ∀ c ∈ parsed, T c := fun c hcc => hn c (pc c (by rw [kids_some hc]; exact hcc))
            have hrt : t ≠ root := by have := ht.2.1; omega
            have k2 := k.trans (frame_setChilds (hn root pr) (some []))
            have hgt : ((g.setChilds root (some [])).node t).childs = (h.node t).childs := by
              simp only [Heap.setChilds, upd_node, if_neg hrt]
              rw [po t ht.2.1]
            generalize g.setChilds root (some []) = g2 at he k2 hgt
            split at he
            · cases he
            · rename_i nodes na hna
              have hno : ∀ c ∈ nodes, T c := fun c h2 => hps c (removeNotAllowed_mem hna c h2)
              have k3 := k2.trans (frame_setParent t nodes g2 hno)
              have hgt3 : ((g2.setParent t nodes).node t).childs = (h.node t).childs := by
                rw [(setParent_fields t nodes g2).2.1 t]; exact hgt
              generalize g2.setParent t nodes = g3 at he k3 hgt3
              split at he
              · cases he
                have k4 : Frame T h (if na = true then g3.resetIndex 0 nodes else g3) := by
                  split
                  · exact k3.trans (frame_resetIndex nodes 0 g3 hno)
                  · exact k3
                exact k4.trans (frame_setChilds ht.1 _)
              · rename_i hne
                split at he
                · cases he; exact k3
                · rename_i cs hcs
                  have hcz : ∀ c ∈ cs, T c := fun c hcc => ht.2.2 (by simpa using hne) c (by
                    rw [hgt3] at hcs; rw [kids_some hcs]; exact hcc)
                  split at he
                  · cases he
                  · split at he
                    · cases he
                    split at he
                    · cases he
                    · cases he
                      have k4 : Frame T h (if g3.index x < cs.length - 1 then
                          g3.resetIndex (g3.index x + nodes.length) (cs.drop (g3.index x + 1)) else g3) := by
                        split
                        · exact k3.trans (frame_resetIndex _ _ g3 fun c h2 => hcz c (List.mem_of_mem_drop h2))
                        · exact k3
                      exact (k4.trans (frame_resetIndex nodes (g3.index x) _ hno)).trans (frame_setChilds ht.1 _)

theorem frame_removeText {x : Nat} (hx : Around T h x) (he : h.removeText x = .ok h1) : Frame T h h1 := by
  unfold Heap.removeText at he
  dsimp only at he
  split at he
  · cases he; exact .refl
  · rename_i p hp
    obtain ⟨pT, cT⟩ := hx.parent p hp
    split at he
    · cases he
    split at he
    · cases he; exact .refl
    · rename_i cs hcs
      rw [kids_some hcs] at cT
      split at he
      · cases he
      · split at he
        · cases he
        · cases he
          exact (frame_setChilds pT _).trans (frame_resetIndex _ _ _ fun c hc => cT c
            (List.mem_of_mem_eraseIdx (List.mem_of_mem_drop hc)))

end
end Visdom
