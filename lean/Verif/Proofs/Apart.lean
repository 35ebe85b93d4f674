import Verif.Spec.Apart
import Verif.Proofs.Steps
/-!
# Calls stay in their part of the heap
-/
namespace Visdom
open Spec

/-- No link leads from outside into `Z`. -/
def Out (h : Heap) (Z : Nat → Prop) : Prop :=
  (∀ x, ¬ Z x → (∀ p, h.parent x = some p → ¬ Z p) ∧ ∀ c ∈ h.kids x, ¬ Z c) ∧ ∀ x, Z x → x < h.size

/-- `Z` is untouched, and nothing leads into it. -/
structure Keep (Z : Nat → Prop) (h h' : Heap) : Prop where
  size : h.size ≤ h'.size
  same : ∀ y, Z y → h'.node y = h.node y
  out : Out h' Z

section
variable {h h1 h2 : Heap} {e : Ext} {Z : Nat → Prop}

theorem Keep.refl (o : Out h Z) : Keep Z h h := ⟨Nat.le_refl _, fun _ _ => rfl, o⟩

theorem Keep.trans (a : Keep Z h h1) (b : Keep Z h1 h2) : Keep Z h h2 :=
  ⟨a.size.trans b.size, fun y hy => (b.same y hy).trans (a.same y hy), b.out⟩

theorem keep_upd (o : Out h Z) {x : Nat} (hx : ¬ Z x) {f : Node → Node}
    (hp : (f (h.node x)).parent = h.parent x ∨ ∀ p, (f (h.node x)).parent = some p → ¬ Z p)
    (hk : (f (h.node x)).childs.getD [] = h.kids x ∨ ∀ c ∈ (f (h.node x)).childs.getD [], ¬ Z c) : Keep Z h (h.upd x f) := by
  refine ⟨Nat.le_refl _, fun y hy => ?_, fun y hy => ⟨fun p h1 => ?_, fun c h1 => ?_⟩, o.2⟩
  · rw [upd_node, if_neg (by rintro rfl; exact hx hy)]
  · unfold Heap.parent at h1
    rw [upd_node] at h1
    split at h1
    · rename_i e1
      subst e1
      rcases hp with hp | hp
      · exact (o.1 y hy).1 p (hp ▸ h1)
      · exact hp p h1
    · exact (o.1 y hy).1 p h1
  · unfold Heap.kids at h1
    rw [upd_node] at h1
    split at h1
    · rename_i e1
      subst e1
      rcases hk with hk | hk
      · exact (o.1 y hy).2 c (hk ▸ h1)
      · exact hk c h1
    · exact (o.1 y hy).2 c h1

theorem keep_resetIndex : ∀ (l : List Nat) (s : Nat) (h : Heap), Out h Z → (∀ x ∈ l, ¬ Z x) → Keep Z h (h.resetIndex s l)
  | [], _, h, o, _ => .refl o
  | x :: l, s, h, o, hl => by
    have k : Keep Z h (h.upd x fun n => { n with index := s }) := keep_upd o (hl x (by simp)) (.inl rfl) (.inl rfl)
    exact k.trans (keep_resetIndex l (s + 1) _ k.out fun y hy => hl y (by simp [hy]))

theorem keep_setParent {p : Nat} (hp : ¬ Z p) : ∀ (l : List Nat) (h : Heap), Out h Z → (∀ x ∈ l, ¬ Z x) → Keep Z h (h.setParent p l)
  | [], h, o, _ => .refl o
  | x :: l, h, o, hl => by
    have k : Keep Z h (h.upd x fun n => { n with parent := some p }) :=
      keep_upd o (hl x (by simp)) (.inr fun q hq => by cases hq; exact hp) (.inl rfl)
    exact k.trans (keep_setParent hp l _ k.out fun y hy => hl y (by simp [hy]))

theorem keep_setChilds (o : Out h Z) {x : Nat} (hx : ¬ Z x) {cs : Option (List Nat)} (hc : ∀ c ∈ cs.getD [], ¬ Z c) :
    Keep Z h (h.setChilds x cs) := keep_upd o hx (.inl rfl) (.inr hc)

theorem Out.kids' (o : Out h Z) {x : Nat} (hx : ¬ Z x) {cs : List Nat} (hc : (h.node x).childs = some cs) : ∀ c ∈ cs, ¬ Z c :=
  fun c h1 => (o.1 x hx).2 c (by unfold Heap.kids; rw [hc]; exact h1)

theorem Out.parent' (o : Out h Z) {x p : Nat} (hx : ¬ Z x) (hp : h.parent x = some p) : ¬ Z p := (o.1 x hx).1 p hp

theorem keep_removeChild (o : Out h Z) {p x : Nat} (hp : ¬ Z p) (he : h.removeChild p x = .ok h1) : Keep Z h h1 := by
  unfold Heap.removeChild at he
  repeat' split at he
  all_goals cases he
  · exact .refl o
  · rename_i cs hc _ _ _
    exact keep_setChilds o hp fun c h2 => o.kids' hp hc c (List.mem_of_mem_eraseIdx h2)
  · rename_i cs hc _ _ _ _
    have k := keep_resetIndex (cs.drop (h.index x + 1)) (h.index x) h o fun c h2 => o.kids' hp hc c (List.mem_of_mem_drop h2)
    exact k.trans (keep_setChilds k.out hp fun c h2 => o.kids' hp hc c (List.mem_of_mem_eraseIdx h2))
  · exact .refl o

theorem keep_detach (o : Out h Z) {x : Nat} (hx : ¬ Z x) (he : h.detach x = .ok h1) : Keep Z h h1 := by
  unfold Heap.detach at he
  split at he
  · cases he; exact .refl o
  · rename_i p hp
    exact keep_removeChild o (o.parent' hx hp) he

theorem keep_takeNodes (o : Out h Z) {n : Nat} {l : List Nat} (hn : ¬ Z n) (he : h.takeNodes e n = .ok (h1, l)) :
    Keep Z h h1 ∧ ∀ c ∈ l, ¬ Z c := by
  unfold Heap.takeNodes at he
  split at he
  · cases he; exact ⟨.refl o, (o.1 n hn).2⟩
  · cases hd : h.detach n with
    | error x => rw [hd] at he; cases he
    | ok g => rw [hd] at he; cases he; exact ⟨keep_detach o hn hd, by simpa using hn⟩

theorem keep_insertBeside (o : Out h Z) {b : Bool} {t : Nat} {l : List Nat} (ht : ¬ Z t) (hl : ∀ c ∈ l, ¬ Z c)
    (he : h.insertBeside b t l = .ok h1) : Keep Z h h1 := by
  unfold Heap.insertBeside at he
  dsimp only at he
  generalize (if b = true then h.index t + 1 else h.index t) = i at he
  have k := keep_resetIndex l i h o hl
  generalize h.resetIndex i l = g at he k
  split at he
  · cases he; exact k
  · rename_i p hp
    have hpz := k.out.parent' ht hp
    split at he
    · cases he
    split at he
    · cases he; exact k
    · rename_i cs hc
      split at he
      · cases he
      · have hcs := k.out.kids' hpz hc
        have hn : ∀ c ∈ (if i < cs.length then cs.drop i else []), ¬ Z c := by
          intro c h2
          split at h2
          · exact hcs c (List.mem_of_mem_drop h2)
          · cases h2
        have hv : ∀ c ∈ (if i < cs.length then cs.take i else cs), ¬ Z c := by
          intro c h2
          split at h2
          · exact hcs c (List.mem_of_mem_take h2)
          · exact hcs c h2
        generalize (if i < cs.length then cs.drop i else []) = nexts at he hn
        generalize (if i < cs.length then cs.take i else cs) = prevs at he hv
        have k2 := k.trans (keep_setParent hpz l g k.out hl)
        have k3 := k2.trans (keep_setChilds k2.out hpz (cs := some (prevs ++ l)) fun c h2 => by
          rcases List.mem_append.1 h2 with h2 | h2
          · exact hv c h2
          · exact hl c h2)
        split at he
        · cases he; exact k3
        · cases he
          have k4 := k3.trans (keep_resetIndex nexts (i + l.length) _ k3.out hn)
          refine k4.trans (keep_setChilds k4.out hpz fun c h2 => ?_)
          simp only [Option.getD_some, List.mem_append] at h2
          rcases h2 with (h2 | h2) | h2
          · exact hv c h2
          · exact hl c h2
          · exact hn c h2

theorem keep_insertInside (o : Out h Z) {b : Bool} {t : Nat} {l : List Nat} (ht : ¬ Z t) (hl : ∀ c ∈ l, ¬ Z c)
    (he : h.insertInside b t l = .ok h1) : Keep Z h h1 := by
  unfold Heap.insertInside at he
  dsimp only at he
  have k := keep_setParent ht l h o hl
  generalize h.setParent t l = g at he k
  split at he
  · rename_i cs hc
    have hcs := k.out.kids' ht hc
    repeat' split at he
    all_goals cases he
    · have k2 := k.trans (keep_resetIndex l cs.length g k.out hl)
      refine k2.trans (keep_setChilds k2.out ht fun c h2 => ?_)
      simp only [Option.getD_some, List.mem_append] at h2
      exact h2.elim (hcs c) (hl c)
    · have k2 := k.trans (keep_resetIndex l 0 g k.out hl)
      have k3 := k2.trans (keep_resetIndex cs l.length _ k2.out hcs)
      refine k3.trans (keep_setChilds k3.out ht fun c h2 => ?_)
      simp only [Option.getD_some, List.mem_append] at h2
      exact h2.elim (hl c) (hcs c)
  · cases he
    have k2 := k.trans (keep_resetIndex l 0 g k.out hl)
    exact k2.trans (keep_setChilds k2.out ht hl)

theorem removeNotAllowed_mem {al : Nat → Bool} {l l' : List Nat} {b : Bool} (he : removeNotAllowed al l = .ok (l', b)) :
    ∀ c ∈ l', c ∈ l := by
  obtain ⟨b', hb, -⟩ := removeNotAllowed_eq al l
  rw [hb] at he
  cases he
  exact fun c hc => (List.mem_filter.1 hc).1

theorem keep_placeNodes (o : Out h Z) {pos : InsertPosition} {t : Nat} {l : List Nat} (ht : ¬ Z t) (hl : ∀ c ∈ l, ¬ Z c)
    (he : h.placeNodes e pos t l = .ok h1) : Keep Z h h1 := by
  unfold Heap.placeNodes at he
  dsimp only at he
  split at he
  · cases he
  · rename_i nodes hn
    have hno : ∀ c ∈ nodes, ¬ Z c := by
      split at hn
      · cases hr : removeNotAllowed (e.allow (h.tagNames t)) l with
        | error x => rw [hr] at hn; cases hn
        | ok v =>
          rw [hr] at hn
          obtain ⟨v1, v2⟩ := v
          cases hn
          exact fun c hc => hl c (removeNotAllowed_mem hr c hc)
      · cases hn; exact hl
    split at he
    · cases he; exact .refl o
    · split at he
      · exact keep_insertInside o ht hno he
      · exact keep_insertBeside o ht hno he

theorem keep_insertAdjacent (o : Out h Z) {pos : InsertPosition} {t n : Nat} (ht : ¬ Z t) (hn : ¬ Z n)
    (he : h.insertAdjacent e pos t n = .ok h1) : Keep Z h h1 := by
  unfold Heap.insertAdjacent at he
  split at he
  · cases he
  · cases he; exact .refl o
  · split at he
    · cases he
    · rename_i g nodes hk
      obtain ⟨k, hl⟩ := keep_takeNodes o hn hk
      exact k.trans (keep_placeNodes k.out ht hl he)

theorem keep_replaceWith (o : Out h Z) {t n : Nat} {r : Heap × Nat} (ht : ¬ Z t) (hn : ¬ Z n)
    (he : h.replaceWith e t n = .ok r) : Keep Z h r.1 ∧ ¬ Z r.2 := by
  unfold Heap.replaceWith at he
  dsimp only at he
  have hs : ¬ Z (((if h.isFragment e n then (match h.kids n with | [c] => some c | _ => none) else some n) : Option Nat).getD t) := by
    split
    · split
      · rename_i c hk
        exact (o.1 n hn).2 c (by rw [hk]; simp)
      · exact ht
    · exact hn
  generalize ((if h.isFragment e n then (match h.kids n with | [c] => some c | _ => none) else some n) : Option Nat) = sg at he hs
  split at he
  · cases he
  · rename_i g nodes hk
    obtain ⟨k, hl⟩ := keep_takeNodes o hn hk
    split at he
    · cases he; exact ⟨k, ht⟩
    · split at he
      · cases he; exact ⟨k, hs⟩
      · rename_i p hp
        have hpz := k.out.parent' ht hp
        split at he
        · cases he
        split at he
        · cases he; exact ⟨k, hs⟩
        · rename_i cs hc
          have hcs := k.out.kids' hpz hc
          repeat' split at he
          all_goals cases he
          have k2 := k.trans (keep_resetIndex nodes (g.index t) g k.out hl)
          have k3 := k2.trans (keep_resetIndex (cs.drop (g.index t + 1)) (g.index t + nodes.length) _ k2.out
            fun c h2 => hcs c (List.mem_of_mem_drop h2))
          have k4 := k3.trans (keep_setParent hpz nodes _ k3.out hl)
          refine ⟨k4.trans (keep_setChilds k4.out hpz fun c h2 => ?_), hs⟩
          simp only [Option.getD_some, List.mem_append] at h2
          rcases h2 with (h2 | h2) | h2
          · exact hcs c (List.mem_of_mem_take h2)
          · exact hl c h2
          · exact hcs c (List.mem_of_mem_drop h2)

theorem keep_added (o : Out h Z) (a : Added h h1) : Keep Z h h1 := by
  refine ⟨a.size, fun y hy => a.old y (o.2 y hy), fun y hy => ?_, fun y hy => Nat.lt_of_lt_of_le (o.2 y hy) a.size⟩
  by_cases hb : y < h.size
  · unfold Heap.parent Heap.kids
    rw [a.old y hb]
    exact o.1 y hy
  · by_cases hc : h1.size ≤ y
    · unfold Heap.parent Heap.kids
      rw [a.rest y hc]
      exact o.1 y hy
    · have h2 := a.new y (by omega) (by omega)
      exact ⟨fun p hp hz => by have := o.2 p hz; have := (h2.1 p hp).1; omega,
        fun c hc hz => by have := o.2 c hz; have := (h2.2 c hc).1; omega⟩

theorem keep_alloc (o : Out h Z) (n : Node) (hp : ∀ p, n.parent = some p → ¬ Z p) (hk : n.childs = none) : Keep Z h (h.alloc n).1 := by
  refine ⟨Nat.le_succ _, fun y hy => ?_, fun y hy => ?_, fun y hy => Nat.lt_succ_of_lt (o.2 y hy)⟩
  · have := o.2 y hy
    simp only [Heap.alloc]
    rw [if_neg (by omega)]
  · unfold Heap.parent Heap.kids
    simp only [Heap.alloc]
    split
    · exact ⟨hp, by simp [hk]⟩
    · exact o.1 y hy

theorem keep_setText (o : Out h Z) {x : Nat} (hx : ¬ Z x) (s : List Char) : Keep Z h (h.setText e x s) := by
  unfold Heap.setText
  split
  · split
    · exact keep_upd o hx (.inl rfl) (.inl rfl)
    · split
      · exact keep_setChilds o hx (by simp)
      · dsimp only
        have k := keep_alloc o { kind := .text, content := some (e.encode s), parent := some x } (fun p hp => by cases hp; exact hx) rfl
        refine k.trans (keep_setChilds k.out hx fun c hc => ?_)
        simp only [Option.getD_some, List.mem_singleton] at hc
        subst hc
        exact fun hz => absurd (o.2 _ hz) (by simp [Heap.alloc])
  · split
    · exact .refl o
    · exact keep_upd o hx (.inl rfl) (.inl rfl)
  · split
    · exact .refl o
    · exact keep_upd o hx (.inl rfl) (.inl rfl)
  · split
    · exact .refl o
    · exact keep_upd o hx (.inl rfl) (.inl rfl)
  · exact .refl o

theorem keep_setHtml (o : Out h Z) (P : ∀ h s h' r, e.parse h s = .ok (h', r) → Added h h' ∧ h.size ≤ r ∧ r < h'.size) {x : Nat}
    {s : List Char} (hx : ¬ Z x) (he : h.setHtml e x s = .ok h1) : Keep Z h h1 := by
  unfold Heap.setHtml at he
  dsimp only at he
  split at he
  · cases he; exact .refl o
  · rename_i t htg
    have ht : ¬ Z t := by
      unfold Heap.htmlTarget at htg
      split at htg
      · cases htg; exact hx
      · exact o.parent' hx htg
      · exact o.parent' hx htg
      · cases htg
    split at he
    · cases he
    · split at he
      · cases he; exact keep_upd o ht (.inl rfl) (.inl rfl)
      · split at he
        · cases he
        · rename_i g root hp
          obtain ⟨pa, pr, -⟩ := P h s g root hp
          have k := keep_added o pa
          have hr : ¬ Z root := fun hz => by have := o.2 _ hz; omega
          split at he
          · cases he; exact k.trans (keep_setChilds k.out ht (by simp))
          · rename_i parsed hc
            have hps := k.out.kids' hr hc
            have k2 := k.trans (keep_setChilds k.out hr (cs := some []) (by simp))
            generalize g.setChilds root (some []) = g2 at he k2
            split at he
            · cases he
            · rename_i nodes na hna
              have hn : ∀ c ∈ nodes, ¬ Z c := fun c h2 => hps c (removeNotAllowed_mem hna c h2)
              have k3 := k2.trans (keep_setParent ht nodes g2 k2.out hn)
              generalize g2.setParent t nodes = g3 at he k3
              split at he
              · cases he
                have k4 : Keep Z h (if na = true then g3.resetIndex 0 nodes else g3) := by
                  split
                  · exact k3.trans (keep_resetIndex nodes 0 g3 k3.out hn)
                  · exact k3
                refine k4.trans (keep_setChilds k4.out ht ?_)
                split
                · simp
                · exact hn
              · split at he
                · cases he; exact k3
                · rename_i cs hcs
                  have hcz := k3.out.kids' ht hcs
                  split at he
                  · cases he
                  · split at he
                    · cases he
                    split at he
                    · cases he
                    · cases he
                      have k4 : Keep Z h (if g3.index x < cs.length - 1 then
                          g3.resetIndex (g3.index x + nodes.length) (cs.drop (g3.index x + 1)) else g3) := by
                        split
                        · exact k3.trans (keep_resetIndex _ _ g3 k3.out fun c h2 => hcz c (List.mem_of_mem_drop h2))
                        · exact k3
                      have k5 := k4.trans (keep_resetIndex nodes (g3.index x) _ k4.out hn)
                      refine k5.trans (keep_setChilds k5.out ht fun c h2 => ?_)
                      simp only [Option.getD_some, List.mem_append] at h2
                      rcases h2 with (h2 | h2) | h2
                      · exact hcz c (List.mem_of_mem_take h2)
                      · exact hn c h2
                      · exact hcz c (List.mem_of_mem_drop h2)

theorem keep_removeText (o : Out h Z) {x : Nat} (hx : ¬ Z x) (he : h.removeText x = .ok h1) : Keep Z h h1 := by
  unfold Heap.removeText at he
  split at he
  · cases he; exact .refl o
  · rename_i p hp
    have hpz := o.parent' hx hp
    split at he
    · cases he
    split at he
    · cases he; exact .refl o
    · rename_i cs hc
      have hcs := o.kids' hpz hc
      split at he
      · cases he
      · dsimp only at he
        split at he
        · cases he
        · cases he
          have k := keep_setChilds o hpz (cs := some (cs.eraseIdx (h.index x))) fun c h2 => hcs c (List.mem_of_mem_eraseIdx h2)
          exact k.trans (keep_resetIndex _ _ _ k.out fun c h2 => hcs c (List.mem_of_mem_eraseIdx (List.mem_of_mem_drop h2)))

theorem keep_op (o : Out h Z) (P : ∀ h s h' r, e.parse h s = .ok (h', r) → Added h h' ∧ h.size ≤ r ∧ r < h'.size) {op : Op}
    (hg : ∀ x ∈ op.given, ¬ Z x) (he : op.run e h = .ok h1) : Keep Z h h1 := by
  cases op with
  | remove x => exact keep_detach o (hg x (by simp [Op.given])) he
  | removeText x => exact keep_removeText o (hg x (by simp [Op.given])) he
  | insert pos t n => exact keep_insertAdjacent o (hg t (by simp [Op.given])) (hg n (by simp [Op.given])) he
  | replace t n =>
    simp only [Op.run] at he
    cases hr : h.replaceWith e t n with
    | error x => rw [hr] at he; cases he
    | ok v =>
      rw [hr] at he
      cases he
      exact (keep_replaceWith o (hg t (by simp [Op.given])) (hg n (by simp [Op.given])) hr).1
  | setText x s => cases he; exact keep_setText o (hg x (by simp [Op.given])) s
  | appendText x s =>
    simp only [Op.run, Heap.appendText] at he
    split at he
    · cases he; exact keep_upd o (hg x (by simp [Op.given])) (.inl rfl) (.inl rfl)
    · cases he
  | prependText x s =>
    simp only [Op.run, Heap.prependText] at he
    split at he
    · cases he; exact keep_upd o (hg x (by simp [Op.given])) (.inl rfl) (.inl rfl)
    · cases he
  | setHtml x s => exact keep_setHtml o P (hg x (by simp [Op.given])) he
  | load s =>
    simp only [Op.run] at he
    cases hr : e.parse h s with
    | error x => rw [hr] at he; cases he
    | ok v =>
      rw [hr] at he
      cases he
      exact keep_added o (P h s v.1 v.2 hr).1

theorem keep_removeAll : ∀ (X : List Nat) (h : Heap), Out h Z → (∀ x ∈ X, ¬ Z x) → removeAll h X = .ok h1 → Keep Z h h1
  | [], h, o, _, he => by cases he; exact .refl o
  | x :: X, h, o, hX, he => by
    simp only [removeAll] at he
    split at he
    · cases he
    · rename_i g hd
      have k := keep_detach o (hX x (by simp)) hd
      exact k.trans (keep_removeAll X g k.out (fun y hy => hX y (by simp [hy])) he)

theorem keep_insertLoop {pos : InsertPosition} {t : Nat} (ht : ¬ Z t) : ∀ (Y : List Nat) (h : Heap), Out h Z → (∀ x ∈ Y, ¬ Z x) →
    insertLoop e pos t h Y = .ok h1 → Keep Z h h1
  | [], h, o, _, he => by cases he; exact .refl o
  | n :: Y, h, o, hY, he => by
    simp only [insertLoop] at he
    split at he
    · cases he
    · rename_i g hd
      have k := keep_insertAdjacent o ht (hY n (by simp)) hd
      exact k.trans (keep_insertLoop ht Y g k.out (fun y hy => hY y (by simp [hy])) he)

theorem keep_insertAll {pos : InsertPosition} {Y : List Nat} (hY : ∀ x ∈ Y, ¬ Z x) : ∀ (X : List Nat) (h : Heap), Out h Z →
    (∀ x ∈ X, ¬ Z x) → insertAll e pos Y h X = .ok h1 → Keep Z h h1
  | [], h, o, _, he => by cases he; exact .refl o
  | t :: X, h, o, hX, he => by
    simp only [insertAll] at he
    split at he
    · cases he
    · rename_i g hd
      have k := keep_insertLoop (hX t (by simp)) Y.reverse h o (fun y hy => hY y (List.mem_reverse.1 hy)) hd
      exact k.trans (keep_insertAll hY X g k.out (fun y hy => hX y (by simp [hy])) he)

theorem keep_replaceLoop : ∀ (Y : List Nat) (h : Heap) (t : Nat) (r : Heap × Nat), Out h Z → ¬ Z t → (∀ x ∈ Y, ¬ Z x) →
    replaceLoop e t h Y = .ok r → Keep Z h r.1
  | [], h, t, r, o, _, _, he => by cases he; exact .refl o
  | n :: Y, h, t, r, o, ht, hY, he => by
    simp only [replaceLoop] at he
    split at he
    · cases he
    · rename_i g t' hd
      obtain ⟨k, kt⟩ := keep_replaceWith o ht (hY n (by simp)) hd
      exact k.trans (keep_replaceLoop Y g t' r k.out kt (fun y hy => hY y (by simp [hy])) he)

theorem keep_replaceAll {Y : List Nat} (hY : ∀ x ∈ Y, ¬ Z x) : ∀ (X : List Nat) (h : Heap) (r : Heap × List Nat), Out h Z →
    (∀ x ∈ X, ¬ Z x) → replaceAll e Y h X = .ok r → Keep Z h r.1
  | [], h, r, o, _, he => by cases he; exact .refl o
  | t :: X, h, r, o, hX, he => by
    simp only [replaceAll] at he
    split at he
    · cases he
    · rename_i g t' hd
      have k := keep_replaceLoop Y.reverse h t _ o (hX t (by simp)) (fun y hy => hY y (List.mem_reverse.1 hy)) hd
      split at he
      · cases he
      · rename_i g2 l hd2
        cases he
        exact k.trans (keep_replaceAll hY X g (g2, l) k.out (fun y hy => hX y (by simp [hy])) hd2)

theorem keep_setTextAll (s : List Char) : ∀ (X : List Nat) (h : Heap), Out h Z → (∀ x ∈ X, ¬ Z x) → Keep Z h (setTextAll h e X s)
  | [], h, o, _ => .refl o
  | x :: X, h, o, hX => by
    have k := keep_setText (e := e) o (hX x (by simp)) s
    exact k.trans (keep_setTextAll s X _ k.out fun y hy => hX y (by simp [hy]))

theorem keep_setHtmlAll (P : ∀ h s h' r, e.parse h s = .ok (h', r) → Added h h' ∧ h.size ≤ r ∧ r < h'.size) {s : List Char} :
    ∀ (X : List Nat) (h : Heap), Out h Z → (∀ x ∈ X, ¬ Z x) → setHtmlAll e s h X = .ok h1 → Keep Z h h1
  | [], h, o, _, he => by cases he; exact .refl o
  | x :: X, h, o, hX, he => by
    simp only [setHtmlAll] at he
    split at he
    · cases he
    · rename_i g hd
      have k := keep_setHtml o P (hX x (by simp)) hd
      exact k.trans (keep_setHtmlAll P X g k.out (fun y hy => hX y (by simp [hy])) he)

theorem keep_changeAll {reads : Bool} {f : Meta → R Meta} : ∀ (X : List Nat) (h : Heap), Out h Z → (∀ x ∈ X, ¬ Z x) →
    Heap.changeAll reads f h X = .ok h1 → Keep Z h h1
  | [], h, o, _, he => by cases he; exact .refl o
  | x :: X, h, o, hX, he => by
    simp only [Heap.changeAll] at he
    split at he
    · cases he
    · rename_i g hd
      have k : Keep Z h g := by
        unfold Heap.changeAttrs at hd
        split at hd
        · split at hd
          · cases hd
          · cases hd; exact keep_upd o (hX x (by simp)) (.inl rfl) (.inl rfl)
        · split at hd
          · cases hd
          · cases hd; exact .refl o
      exact k.trans (keep_changeAll X g k.out (fun y hy => hX y (by simp [hy])) he)

theorem keep_copyAll {cp : Copier} (hc : ∀ h x, Added h (cp h x).1) : ∀ (X : List Nat) (h : Heap), Out h Z → Keep Z h (copyAll cp h X).1
  | [], h, o => .refl o
  | x :: X, h, o => by
    have k := keep_added o (hc h x)
    exact k.trans (keep_copyAll hc X _ k.out)

theorem keep_call {w : World} (ok : w.Ok) (o : Out h Z) {c : Call} (hg : ∀ x ∈ c.given, ¬ Z x) (he : c.run w h = .ok h1) :
    Keep Z h h1 := by
  cases c with
  | one op => exact keep_op o ok.parse hg he
  | remove X => exact keep_removeAll X h o hg he
  | insert pos X Y =>
    exact keep_insertAll (fun y hy => hg y (List.mem_append_right _ hy)) X h o (fun y hy => hg y (List.mem_append_left _ hy)) he
  | replace X Y =>
    simp only [Call.run] at he
    cases hr : replaceAll w.ext Y h X with
    | error x => rw [hr] at he; cases he
    | ok v =>
      rw [hr] at he
      cases he
      exact keep_replaceAll (fun y hy => hg y (List.mem_append_right _ hy)) X h v o (fun y hy => hg y (List.mem_append_left _ hy)) hr
  | setText X s => cases he; exact keep_setTextAll s X h o hg
  | setHtml X s => exact keep_setHtmlAll ok.parse X h o hg he
  | setAttr X n v => exact keep_changeAll X h o hg he
  | removeAttr X n => exact keep_changeAll X h o hg he
  | addClass X s =>
    simp only [Call.run, Heap.addClass] at he
    split at he
    · cases he; exact .refl o
    · exact keep_changeAll X h o hg he
  | removeClass X s =>
    simp only [Call.run, Heap.removeClass] at he
    split at he
    · cases he; exact .refl o
    · exact keep_changeAll X h o hg he
  | toggleClass X s =>
    simp only [Call.run, Heap.toggleClass] at he
    split at he
    · cases he; exact .refl o
    · exact keep_changeAll X h o hg he
  | clone X => cases he; exact keep_copyAll ok.added X h o

theorem keep_callAll {w : World} (ok : w.Ok) : ∀ (cs : List Call) (h : Heap), Out h Z → (∀ c ∈ cs, ∀ x ∈ c.given, ¬ Z x) →
    callAll w h cs = .ok h1 → Keep Z h h1
  | [], h, o, _, he => by cases he; exact .refl o
  | c :: cs, h, o, hg, he => by
    simp only [callAll] at he
    split at he
    · cases he
    · rename_i g hd
      have k := keep_call ok o (hg c (by simp)) hd
      exact k.trans (keep_callAll ok cs g k.out (fun c' hc => hg c' (by simp [hc])) he)

theorem Spec.Separate.out (a : Separate h Z) : Out h Z :=
  ⟨fun x hx => ⟨fun p hp hz => hx ((a.parent x p hp).2 hz), fun c hc hz => hx ((a.kids x c hc).2 hz)⟩, a.bound⟩

theorem Keep.apart (k : Keep Z h h1) (a : Separate h Z) : Separate h1 Z := by
  refine ⟨fun x p hp => ?_, fun x c hc => ?_, k.out.2⟩
  · by_cases hx : Z x
    · unfold Heap.parent at hp
      rw [k.same x hx] at hp
      exact a.parent x p hp
    · exact iff_of_false hx ((k.out.1 x hx).1 p hp)
  · by_cases hx : Z x
    · unfold Heap.kids at hc
      rw [k.same x hx] at hc
      exact a.kids x c hc
    · exact iff_of_false hx ((k.out.1 x hx).2 c hc)

end
end Visdom
