import Verif.Proofs.Deeds
/-!
# What calls leave alone in every heap
-/
namespace Visdom
open Spec

/-- Only links have changed. -/
structure DataKept (h h' : Heap) : Prop where
  size : h'.size = h.size
  same : SameData h h'

section
variable {h h1 h2 : Heap} {e : Ext}

theorem DataKept.refl (h : Heap) : DataKept h h := ⟨rfl, .refl h⟩

theorem DataKept.trans (a : DataKept h h1) (b : DataKept h1 h2) : DataKept h h2 := ⟨b.size.trans a.size, a.same.trans b.same⟩

theorem data_resetIndex (s : Nat) (l : List Nat) : DataKept h (h.resetIndex s l) :=
  ⟨(resetIndex_fields l h s).1, (resetIndex_fields l h s).2.2.2.1⟩

theorem data_setParent (p : Nat) (l : List Nat) : DataKept h (h.setParent p l) :=
  ⟨(setParent_fields p l h).1, (setParent_fields p l h).2.2.2.1⟩

theorem data_setChilds (x : Nat) (cs : Option (List Nat)) : DataKept h (h.setChilds x cs) := ⟨rfl, setChilds_data h x cs⟩

theorem data_removeChild {p x : Nat} (he : h.removeChild p x = .ok h1) : DataKept h h1 := by
  unfold Heap.removeChild at he
  repeat' split at he
  all_goals cases he
  · exact .refl _
  · exact data_setChilds _ _
  · exact (data_resetIndex _ _).trans (data_setChilds _ _)
  · exact .refl _

theorem data_detach {x : Nat} (he : h.detach x = .ok h1) : DataKept h h1 := by
  unfold Heap.detach at he
  split at he
  · cases he; exact .refl _
  · exact data_removeChild he

theorem data_takeNodes {n : Nat} {l : List Nat} (he : h.takeNodes e n = .ok (h1, l)) : DataKept h h1 := by
  unfold Heap.takeNodes at he
  split at he
  · cases he; exact .refl _
  · cases hd : h.detach n with
    | error x => rw [hd] at he; cases he
    | ok g => rw [hd] at he; cases he; exact data_detach hd

theorem data_insertBeside {b : Bool} {t : Nat} {l : List Nat} (he : h.insertBeside b t l = .ok h1) : DataKept h h1 := by
  unfold Heap.insertBeside at he
  dsimp only at he
  generalize (if b = true then h.index t + 1 else h.index t) = i at he
  split at he
  · cases he; exact data_resetIndex _ _
  · split at he
    · cases he
    split at he
    · cases he; exact data_resetIndex _ _
    · split at he
      · cases he
      · rename_i cs _ _
        generalize (if i < cs.length then cs.drop i else []) = nexts at he
        generalize (if i < cs.length then cs.take i else cs) = prevs at he
        split at he <;> cases he
        · exact (data_resetIndex _ _).trans ((data_setParent _ _).trans (data_setChilds _ _))
        · exact (data_resetIndex _ _).trans ((data_setParent _ _).trans ((data_setChilds _ _).trans
            ((data_resetIndex _ _).trans (data_setChilds _ _))))

theorem data_insertInside {b : Bool} {t : Nat} {l : List Nat} (he : h.insertInside b t l = .ok h1) : DataKept h h1 := by
  unfold Heap.insertInside at he
  dsimp only at he
  split at he
  · split at he
    · cases he
    · split at he
      · cases he; exact (data_setParent _ _).trans ((data_resetIndex _ _).trans (data_setChilds _ _))
      · split at he <;> cases he
        exact (data_setParent _ _).trans ((data_resetIndex _ _).trans ((data_resetIndex _ _).trans (data_setChilds _ _)))
  · cases he; exact (data_setParent _ _).trans ((data_resetIndex _ _).trans (data_setChilds _ _))

theorem data_placeNodes {pos : InsertPosition} {t : Nat} {l : List Nat} (he : h.placeNodes e pos t l = .ok h1) : DataKept h h1 := by
  unfold Heap.placeNodes at he
  dsimp only at he
  split at he
  · cases he
  · split at he
    · cases he; exact .refl _
    · split at he
      · exact data_insertInside he
      · exact data_insertBeside he

theorem data_insertAdjacent {pos : InsertPosition} {t n : Nat} (he : h.insertAdjacent e pos t n = .ok h1) : DataKept h h1 := by
  unfold Heap.insertAdjacent at he
  split at he
  · cases he
  · cases he; exact .refl _
  · split at he
    · cases he
    · rename_i hd; exact (data_takeNodes hd).trans (data_placeNodes he)

theorem data_replaceWith {t n k : Nat} (he : h.replaceWith e t n = .ok (h1, k)) : DataKept h h1 := by
  unfold Heap.replaceWith at he
  dsimp only [Except.map] at he
  split at he
  · cases he
  · rename_i g l hd
    refine (data_takeNodes hd).trans ?_
    split at he
    · cases he; exact .refl _
    · split at he
      · cases he
      · rename_i g1 hres
        cases he
        repeat' split at hres
        all_goals cases hres
        · exact .refl _
        · exact .refl _
        · exact (data_resetIndex _ _).trans ((data_resetIndex _ _).trans ((data_setParent _ _).trans (data_setChilds _ _)))

theorem data_removeText {x : Nat} (he : h.removeText x = .ok h1) : DataKept h h1 := by
  unfold Heap.removeText at he
  dsimp only at he
  repeat' split at he
  all_goals cases he
  · exact .refl _
  · exact .refl _
  · exact (data_setChilds _ _).trans (data_resetIndex _ _)


/-- Old nodes keep what they are; outside of `A` they keep their attributes, outside of `C` their contents. -/
structure Ident (A C : Nat → Prop) (h h' : Heap) : Prop where
  size : h.size ≤ h'.size
  same : ∀ z, z < h.size → (h'.node z).kind = (h.node z).kind ∧ (h'.node z).name = (h.node z).name ∧ (h'.node z).root = (h.node z).root
  attrs : ∀ z, z < h.size → ¬ A z → (h'.node z).attrs = (h.node z).attrs
  content : ∀ z, z < h.size → ¬ C z → (h'.node z).content = (h.node z).content

variable {A C : Nat → Prop}

theorem Ident.refl (h : Heap) : Ident A C h h := ⟨Nat.le_refl _, fun _ _ => ⟨rfl, rfl, rfl⟩, fun _ _ _ => rfl, fun _ _ _ => rfl⟩

theorem Ident.trans (a : Ident A C h h1) (b : Ident A C h1 h2) : Ident A C h h2 := by
  refine ⟨Nat.le_trans a.size b.size, fun z hz => ?_, fun z hz h3 => ?_, fun z hz h3 => ?_⟩
  · obtain ⟨a1, a2, a3⟩ := a.same z hz
    obtain ⟨b1, b2, b3⟩ := b.same z (Nat.lt_of_lt_of_le hz a.size)
    exact ⟨b1.trans a1, b2.trans a2, b3.trans a3⟩
  · rw [b.attrs z (Nat.lt_of_lt_of_le hz a.size) h3, a.attrs z hz h3]
  · rw [b.content z (Nat.lt_of_lt_of_le hz a.size) h3, a.content z hz h3]

theorem DataKept.ident (k : DataKept h h1) : Ident A C h h1 :=
  ⟨Nat.le_of_eq k.size.symm, fun z _ => ⟨(k.same z).1, (k.same z).2.1, (k.same z).2.2.2.2⟩, fun z _ _ => (k.same z).2.2.1,
    fun z _ _ => (k.same z).2.2.2.1⟩

theorem ident_content {x : Nat} (hx : C x) (c : Option (List Char)) : Ident A C h (h.upd x fun n => { n with content := c }) := by
  refine ⟨Nat.le_refl _, fun z _ => ?_, fun z _ _ => ?_, fun z _ h3 => ?_⟩
  · rw [upd_node]; split <;> exact ⟨rfl, rfl, rfl⟩
  · rw [upd_node]; split <;> rfl
  · rw [upd_node, if_neg]; rintro rfl; exact h3 hx

theorem ident_old (hs : h.size ≤ h1.size) (ho : ∀ y < h.size, h1.node y = h.node y) : Ident A C h h1 :=
  ⟨hs, fun z hz => by rw [ho z hz]; exact ⟨rfl, rfl, rfl⟩, fun z hz _ => by rw [ho z hz], fun z hz _ => by rw [ho z hz]⟩

theorem ident_setText {x : Nat} (hx : C x) (s : List Char) : Ident A C h (h.setText e x s) := by
  unfold Heap.setText
  split
  · split
    · exact ident_content hx _
    · split
      · exact (data_setChilds _ _).ident
      · refine Ident.trans (h1 := (h.alloc { kind := .text, content := some (e.encode s), parent := some x }).1)
          (ident_old (Nat.le_succ _) fun y hy => ?_) (data_setChilds _ _).ident
        simp only [Heap.alloc, if_neg (Nat.ne_of_lt hy)]
  all_goals first
    | exact .refl _
    | (split
       · exact .refl _
       · exact ident_content hx _)

/-- The node is an element whose content is raw text. -/
def RawTag (e : Ext) (h : Heap) (z : Nat) : Prop := h.isElem z = true ∧ e.contentTag (h.node z).name = true

theorem ident_setHtml (P : ∀ h s h' r, e.parse h s = .ok (h', r) → h.size ≤ h'.size ∧ ∀ y < h.size, h'.node y = h.node y)
    (hC : ∀ z, RawTag e h z → C z) {x : Nat} {s : List Char} (he : h.setHtml e x s = .ok h1) : Ident A C h h1 := by
  unfold Heap.setHtml at he
  dsimp only at he
  split at he
  · cases he; exact .refl _
  · split at he
    · cases he
    · rename_i t _ hel
      split at he
      · rename_i hct; cases he; exact ident_content (hC t ⟨by simpa using hel, hct⟩) _
      · split at he
        · cases he
        · rename_i g r hp
          have k : Ident A C h g := ident_old (P h s g r hp).1 (P h s g r hp).2
          refine k.trans (DataKept.ident ?_)
          split at he
          · cases he; exact data_setChilds _ _
          · split at he
            · cases he
            · split at he
              · cases he
                refine DataKept.trans ?_ (data_setChilds _ _)
                split
                · exact (data_setChilds _ _).trans ((data_setParent _ _).trans (data_resetIndex _ _))
                · exact (data_setChilds _ _).trans (data_setParent _ _)
              · split at he
                · cases he; exact (data_setChilds _ _).trans (data_setParent _ _)
                · split at he
                  · cases he
                  · split at he
                    · cases he
                    split at he
                    · cases he
                    · cases he
                      refine DataKept.trans ?_ ((data_resetIndex _ _).trans (data_setChilds _ _))
                      split
                      · exact (data_setChilds _ _).trans ((data_setParent _ _).trans (data_resetIndex _ _))
                      · exact (data_setChilds _ _).trans (data_setParent _ _)

theorem ident_removeAll : ∀ (X : List Nat) (h : Heap), removeAll h X = .ok h1 → Ident A C h h1
  | [], h, he => by cases he; exact .refl _
  | x :: X, h, he => by
    simp only [removeAll] at he
    split at he
    · cases he
    · rename_i g hg; exact (data_detach hg).ident.trans (ident_removeAll X g he)

theorem ident_insertLoop {pos : InsertPosition} {t : Nat} : ∀ (Y : List Nat) (h : Heap), insertLoop e pos t h Y = .ok h1 → Ident A C h h1
  | [], h, he => by cases he; exact .refl _
  | x :: X, h, he => by
    simp only [insertLoop] at he
    split at he
    · cases he
    · rename_i g hg; exact (data_insertAdjacent hg).ident.trans (ident_insertLoop X g he)

theorem ident_insertAll {pos : InsertPosition} {Y : List Nat} : ∀ (X : List Nat) (h : Heap), insertAll e pos Y h X = .ok h1 → Ident A C h h1
  | [], h, he => by cases he; exact .refl _
  | x :: X, h, he => by
    simp only [insertAll] at he
    split at he
    · cases he
    · rename_i g hg; exact (ident_insertLoop _ _ hg).trans (ident_insertAll X g he)

theorem ident_replaceLoop : ∀ (Y : List Nat) (h : Heap) (t : Nat) (r : Heap × Nat), replaceLoop e t h Y = .ok r → Ident A C h r.1
  | [], h, t, r, he => by cases he; exact .refl _
  | x :: X, h, t, r, he => by
    simp only [replaceLoop] at he
    split at he
    · cases he
    · rename_i g t' hg; exact (data_replaceWith hg).ident.trans (ident_replaceLoop X g t' r he)

theorem ident_replaceAll {Y : List Nat} : ∀ (X : List Nat) (h : Heap) (r : Heap × List Nat), replaceAll e Y h X = .ok r → Ident A C h r.1
  | [], h, r, he => by cases he; exact .refl _
  | x :: X, h, r, he => by
    simp only [replaceAll] at he
    split at he
    · cases he
    · rename_i g t' hg
      split at he
      · cases he
      · rename_i g2 l hg2
        cases he
        exact (ident_replaceLoop _ _ _ _ hg).trans (ident_replaceAll X g (g2, l) hg2)

theorem ident_setTextAll (s : List Char) : ∀ (X : List Nat) (h : Heap), (∀ x ∈ X, C x) → Ident A C h (setTextAll h e X s)
  | [], h, _ => .refl _
  | x :: X, h, hX => (ident_setText (hX x (by simp)) s).trans (ident_setTextAll s X _ fun y hy => hX y (by simp [hy]))

/-- Contents of the node `z` may be written by `set_html`, or it is not an element with raw text. -/
def HtmlOk (e : Ext) (C : Nat → Prop) (h : Heap) (z : Nat) : Prop := ∀ y, RawTag e h y → y = z → C y

theorem ident_htmlOk {z : Nat} (hz : z < h.size) (k : Ident A C h h1) (hC : HtmlOk e C h z) : HtmlOk e C h1 z := by
  rintro y hr rfl
  obtain ⟨k1, k2, -⟩ := k.same y hz
  refine hC y ⟨?_, ?_⟩ rfl
  · simpa only [Heap.isElem, k1] using hr.1
  · simpa only [k2] using hr.2

theorem ident_setHtmlAll (P : ∀ h s h' r, e.parse h s = .ok (h', r) → h.size ≤ h'.size ∧ ∀ y < h.size, h'.node y = h.node y) {s : List Char}
    {z : Nat} (hC : ∀ y, y ≠ z → C y) : ∀ (X : List Nat) (h : Heap), z < h.size → HtmlOk e C h z → setHtmlAll e s h X = .ok h1 → Ident A C h h1
  | [], h, _, _, he => by cases he; exact .refl _
  | x :: X, h, hz, hH, he => by
    simp only [setHtmlAll] at he
    split at he
    · cases he
    · rename_i g hg
      have k : Ident A C h g := ident_setHtml P (fun y hy => by
        by_cases e : y = z
        · exact hH y hy e
        · exact hC y e) hg
      exact k.trans (ident_setHtmlAll P hC X g (Nat.lt_of_lt_of_le hz k.size) (ident_htmlOk hz k hH) he)

theorem ident_changeAll {reads : Bool} {f : Meta → R Meta} {X : List Nat} (hX : ∀ x ∈ X, A x) (he : Heap.changeAll reads f h X = .ok h1) :
    Ident A C h h1 := by
  obtain ⟨o, b, -⟩ := changeAll_only X h he
  refine ⟨Nat.le_of_eq o.size.symm, fun z _ => by rw [o.node z]; exact ⟨rfl, rfl, rfl⟩, fun z _ h3 => ?_, fun z _ _ => by rw [o.node z]⟩
  rw [b z fun hz => h3 (hX z hz)]

theorem ident_copyAll {cp : Copier} (hc : ∀ h x, h.size ≤ (cp h x).1.size ∧ ∀ y < h.size, (cp h x).1.node y = h.node y) :
    ∀ (X : List Nat) (h : Heap), Ident A C h (copyAll cp h X).1
  | [], h => .refl _
  | x :: X, h => (ident_old (hc h x).1 (hc h x).2).trans (ident_copyAll hc X _)

theorem ident_call {w : World} (ok : w.Adds) {z : Nat} (hC : ∀ y, y ≠ z → C y) {c : Call} (hz : z < h.size) (hA : ∀ x ∈ c.writesAttrs, A x)
    (hT : ∀ x ∈ c.writesText, C x) (hH : c.isHtml = true → HtmlOk w.ext C h z) (he : c.run w h = .ok h1) : Ident A C h h1 := by
  have P : ∀ h s h' r, w.ext.parse h s = .ok (h', r) → h.size ≤ h'.size ∧ ∀ y < h.size, h'.node y = h.node y :=
    fun h s h' r hp => ⟨(ok.parse h s h' r hp).1, (ok.parse h s h' r hp).2.2.1⟩
  cases c with
  | one op =>
    simp only [Call.run] at he
    cases op with
    | remove x => exact (data_detach he).ident
    | removeText x => exact (data_removeText he).ident
    | insert pos t n => exact (data_insertAdjacent he).ident
    | replace t n =>
      simp only [Op.run] at he
      cases hd : h.replaceWith w.ext t n with
      | error x => rw [hd] at he; cases he
      | ok p => rw [hd] at he; cases he; exact (data_replaceWith (k := p.2) hd).ident
    | setText x s => cases he; exact ident_setText (hT x (by simp [Call.writesText])) s
    | appendText x s =>
      simp only [Op.run, Heap.appendText] at he
      split at he
      · cases he; exact ident_content (hT x (by simp [Call.writesText])) _
      · cases he
    | prependText x s =>
      simp only [Op.run, Heap.prependText] at he
      split at he
      · cases he; exact ident_content (hT x (by simp [Call.writesText])) _
      · cases he
    | setHtml x s =>
      exact ident_setHtml P (fun y hy => by
        by_cases e : y = z
        · exact hH rfl y hy e
        · exact hC y e) he
    | load s =>
      simp only [Op.run] at he
      cases hd : w.ext.parse h s with
      | error x => rw [hd] at he; cases he
      | ok p => rw [hd] at he; cases he; exact ident_old (P h s p.1 p.2 hd).1 (P h s p.1 p.2 hd).2
  | remove X => exact ident_removeAll X h he
  | insert pos X Y => exact ident_insertAll X h he
  | replace X Y =>
    simp only [Call.run] at he
    cases hd : replaceAll w.ext Y h X with
    | error x => rw [hd] at he; cases he
    | ok p => rw [hd] at he; cases he; exact ident_replaceAll X h p hd
  | setText X s => cases he; exact ident_setTextAll s X h hT
  | setHtml X s => exact ident_setHtmlAll P hC X h hz (hH rfl) he
  | setAttr X n v => exact ident_changeAll hA he
  | removeAttr X n => exact ident_changeAll hA he
  | addClass X s =>
    simp only [Call.run, Heap.addClass] at he
    split at he
    · cases he; exact .refl _
    · exact ident_changeAll hA he
  | removeClass X s =>
    simp only [Call.run, Heap.removeClass] at he
    split at he
    · cases he; exact .refl _
    · exact ident_changeAll hA he
  | toggleClass X s =>
    simp only [Call.run, Heap.toggleClass] at he
    split at he
    · cases he; exact .refl _
    · exact ident_changeAll hA he
  | clone X => cases he; exact ident_copyAll ok.copy X h

theorem ident_callAll {w : World} (ok : w.Adds) {z : Nat} (hC : ∀ y, y ≠ z → C y) : ∀ (cs : List Call) (h : Heap), z < h.size →
    (∀ c ∈ cs, ∀ x ∈ c.writesAttrs, A x) → (∀ c ∈ cs, ∀ x ∈ c.writesText, C x) → (∀ c ∈ cs, c.isHtml = true → HtmlOk w.ext C h z) →
    callAll w h cs = .ok h1 → Ident A C h h1
  | [], h, _, _, _, _, he => by cases he; exact .refl _
  | c :: cs, h, hz, hA, hT, hH, he => by
    simp only [callAll] at he
    split at he
    · cases he
    · rename_i g hg
      have k : Ident A C h g := ident_call ok hC hz (hA c (by simp)) (hT c (by simp)) (hH c (by simp)) hg
      exact k.trans (ident_callAll ok hC cs g (Nat.lt_of_lt_of_le hz k.size) (fun c hc => hA c (by simp [hc])) (fun c hc => hT c (by simp [hc]))
        (fun c hc hh => ident_htmlOk hz k (hH c (by simp [hc]) hh)) he)

/-! ## Links -/

/-- Old nodes keep their links. -/
structure LinksKept (h h' : Heap) : Prop where
  size : h.size ≤ h'.size
  same : ∀ z, z < h.size → (h'.node z).childs = (h.node z).childs ∧ (h'.node z).parent = (h.node z).parent ∧ (h'.node z).index = (h.node z).index

theorem LinksKept.refl (h : Heap) : LinksKept h h := ⟨Nat.le_refl _, fun _ _ => ⟨rfl, rfl, rfl⟩⟩

theorem LinksKept.trans (a : LinksKept h h1) (b : LinksKept h1 h2) : LinksKept h h2 := by
  refine ⟨Nat.le_trans a.size b.size, fun z hz => ?_⟩
  obtain ⟨a1, a2, a3⟩ := a.same z hz
  obtain ⟨b1, b2, b3⟩ := b.same z (Nat.lt_of_lt_of_le hz a.size)
  exact ⟨b1.trans a1, b2.trans a2, b3.trans a3⟩

theorem links_content {x : Nat} (c : Option (List Char)) : LinksKept h (h.upd x fun n => { n with content := c }) :=
  ⟨Nat.le_refl _, fun z _ => by rw [upd_node]; split <;> exact ⟨rfl, rfl, rfl⟩⟩

theorem links_old (hs : h.size ≤ h1.size) (ho : ∀ y < h.size, h1.node y = h.node y) : LinksKept h h1 :=
  ⟨hs, fun z hz => by rw [ho z hz]; exact ⟨rfl, rfl, rfl⟩⟩

theorem links_copyAll {cp : Copier} (hc : ∀ h x, h.size ≤ (cp h x).1.size ∧ ∀ y < h.size, (cp h x).1.node y = h.node y) :
    ∀ (X : List Nat) (h : Heap), LinksKept h (copyAll cp h X).1
  | [], h => .refl _
  | x :: X, h => (links_old (hc h x).1 (hc h x).2).trans (links_copyAll hc X _)

theorem links_only (o : OnlyAttrs h h1) : LinksKept h h1 := ⟨Nat.le_of_eq o.size.symm, fun z _ => by rw [o.node z]; exact ⟨rfl, rfl, rfl⟩⟩

theorem links_call {w : World} (ok : w.Adds) {c : Call} (hk : c.keepsLinks = true) (he : c.run w h = .ok h1) : LinksKept h h1 := by
  cases c with
  | one op =>
    simp only [Call.run] at he
    cases op with
    | appendText x s =>
      simp only [Op.run, Heap.appendText] at he
      split at he
      · cases he; exact links_content _
      · cases he
    | prependText x s =>
      simp only [Op.run, Heap.prependText] at he
      split at he
      · cases he; exact links_content _
      · cases he
    | load s =>
      simp only [Op.run] at he
      cases hd : w.ext.parse h s with
      | error x => rw [hd] at he; cases he
      | ok p => rw [hd] at he; cases he; exact links_old (ok.parse h s p.1 p.2 hd).1 (ok.parse h s p.1 p.2 hd).2.2.1
    | _ => cases hk
  | setAttr X n v => exact links_only (attrCall_only (c := .setAttr X n v) he).1
  | removeAttr X n => exact links_only (attrCall_only (a := w.attr) (c := .removeAttr X n) he).1
  | addClass X s => exact links_only (attrCall_only (c := .addClass X s) he).1
  | removeClass X s => exact links_only (attrCall_only (c := .removeClass X s) he).1
  | toggleClass X s => exact links_only (attrCall_only (c := .toggleClass X s) he).1
  | clone X => cases he; exact links_copyAll ok.copy X h
  | _ => cases hk

theorem links_callAll {w : World} (ok : w.Adds) : ∀ (cs : List Call) (h : Heap), (∀ c ∈ cs, c.keepsLinks = true) → callAll w h cs = .ok h1 →
    LinksKept h h1
  | [], h, _, he => by cases he; exact .refl _
  | c :: cs, h, hk, he => by
    simp only [callAll] at he
    split at he
    · cases he
    · rename_i g hg
      exact (links_call ok (hk c (by simp)) hg).trans (links_callAll ok cs g (fun c hc => hk c (by simp [hc])) he)

theorem frame_op (P : ∀ h s h' r, e.parse h s = .ok (h', r) → h.size ≤ h'.size ∧ h.size ≤ r ∧ (∀ y < h.size, h'.node y = h.node y) ∧
      ∀ c ∈ h'.kids r, h.size ≤ c) {T : Nat → Prop} {op : Op} (hg : ∀ x ∈ op.given, Around T h x)
    (hb : ∀ x ∈ op.given, x < h.size ∧ ∀ p, h.parent x = some p → p < h.size) (hn : ∀ z, h.size ≤ z → T z) (he : op.run e h = .ok h1) :
    Frame T h h1 := by
  cases op with
  | remove x => exact (frame_detach (hg x (by simp [Op.given])).parent he).1
  | removeText x => exact frame_removeText (hg x (by simp [Op.given])) he
  | insert pos t n => exact frame_insertAdjacent (hg t (by simp [Op.given])) (hg n (by simp [Op.given])) he
  | replace t n =>
    simp only [Op.run] at he
    cases hd : h.replaceWith e t n with
    | error x => rw [hd] at he; cases he
    | ok p => rw [hd] at he; cases he; exact frame_replaceWith (hg t (by simp [Op.given])) (hg n (by simp [Op.given])) hd
  | setText x s => cases he; exact frame_setText (hg x (by simp [Op.given])).self (hn _ (Nat.le_refl _)) s
  | appendText x s =>
    simp only [Op.run, Heap.appendText] at he
    split at he
    · cases he; exact frame_upd (hg x (by simp [Op.given])).self _
    · cases he
  | prependText x s =>
    simp only [Op.run, Heap.prependText] at he
    split at he
    · cases he; exact frame_upd (hg x (by simp [Op.given])).self _
    · cases he
  | setHtml x s =>
    exact frame_setHtml P (hg x (by simp [Op.given])) (hb x (by simp [Op.given])).1 (hb x (by simp [Op.given])).2 hn he
  | load s =>
    simp only [Op.run] at he
    cases hd : e.parse h s with
    | error x => rw [hd] at he; cases he
    | ok p =>
      rw [hd] at he; cases he
      exact fun z hz => (P h s p.1 p.2 hd).2.2.1 z (Nat.lt_of_not_le fun hge => hz (hn z hge))

end
end Visdom
