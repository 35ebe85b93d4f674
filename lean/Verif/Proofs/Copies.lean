import Verif.Spec.Copies
import Verif.Proofs.Checked
/-!
# Queries on copies: the parts that look at the tree
-/
namespace Visdom
open Spec

/-- Both panic in the same way, or both answer and the answers are related. -/
inductive ERel {α β : Type} (P : α → β → Prop) : R α → R β → Prop
  | err (p : Panic) : ERel P (.error p) (.error p)
  | ok {a : α} {b : β} : P a b → ERel P (.ok a) (.ok b)

theorem ERel.map {α β γ δ : Type} {P : α → β → Prop} {Q : γ → δ → Prop} {a : R α} {b : R β} (hab : ERel P a b) {u : α → γ} {v : β → δ}
    (hu : ∀ x y, P x y → Q (u x) (v y)) : ERel Q (a.map u) (b.map v) := by
  cases hab with
  | err p => exact .err p
  | ok hp => exact .ok (hu _ _ hp)

theorem ERel.eq {α : Type} {a b : R α} (hab : ERel (· = ·) a b) : b = a := by
  cases hab with
  | err p => rfl
  | ok hp => rw [hp]

theorem ERel.of_eq {α : Type} {a b : R α} (hab : b = a) : ERel (· = ·) a b := by
  subst hab
  cases b with
  | error p => exact .err p
  | ok x => exact .ok rfl

variable {h h' : Heap} {T : Nat → Prop} {f : Nat → Nat} {env env' : Env}

theorem Spec.Among.kid {x c : Nat} (hx : Among h T x) (hc : c ∈ h.kids x) : Among h T c := by
  obtain ⟨r, hr, hw⟩ := hx
  exact ⟨r, hr, hw.step hc⟩

/-- The second list consists of the copies of the first one. -/
def LRel (h : Heap) (T : Nat → Prop) (f : Nat → Nat) (l l' : List Nat) : Prop := l' = l.map f ∧ ∀ x ∈ l, Among h T x

/-- Calls of a callback that correspond. -/
def SRel (h : Heap) (T : Nat → Prop) (f : Nat → Nat) (l l' : List (Nat × Bool × Bool)) : Prop :=
  l' = l.map (fun e => (f e.1, e.2)) ∧ ∀ e ∈ l, Among h T e.1

theorem LRel.nil : LRel h T f [] [] := ⟨rfl, by simp⟩

theorem LRel.append {a a' b b' : List Nat} (ha : LRel h T f a a') (hb : LRel h T f b b') : LRel h T f (a ++ b) (a' ++ b') := by
  obtain ⟨rfl, h1⟩ := ha
  obtain ⟨rfl, h2⟩ := hb
  refine ⟨by simp, fun x hx => ?_⟩
  rcases List.mem_append.1 hx with hx | hx
  · exact h1 x hx
  · exact h2 x hx

theorem LRel.cons {x : Nat} {b b' : List Nat} (hx : Among h T x) (hb : LRel h T f b b') : LRel h T f (x :: b) (f x :: b') :=
  LRel.append (a := [x]) (a' := [f x]) ⟨rfl, by simpa using hx⟩ hb

theorem LRel.sub {l l' : List Nat} (hs : l.Sublist l') (h2 : ∀ x ∈ l', Among h T x) : LRel h T f l (l.map f) := ⟨rfl, fun x hx => h2 x (hs.subset hx)⟩

theorem LRel.reverse {l l' : List Nat} (hl : LRel h T f l l') : LRel h T f l.reverse l'.reverse := by
  obtain ⟨rfl, h1⟩ := hl
  exact ⟨by rw [List.map_reverse], fun x hx => h1 x (List.mem_reverse.1 hx)⟩

theorem LRel.isEmpty {l l' : List Nat} (hl : LRel h T f l l') : l'.isEmpty = l.isEmpty := by rw [hl.1]; cases l <;> rfl

theorem flatMapR_rel {α α' : Type} (φ : α → α') {F : α → R (List Nat)} {F' : α' → R (List Nat)} : ∀ {l : List α},
    (∀ a ∈ l, ERel (LRel h T f) (F a) (F' (φ a))) → ERel (LRel h T f) (flatMapR F l) (flatMapR F' (l.map φ))
  | [], _ => .ok .nil
  | a :: l, hF => by
    have h1 := hF a List.mem_cons_self
    have h2 := flatMapR_rel φ (l := l) fun b hb => hF b (List.mem_cons_of_mem _ hb)
    rw [List.map_cons, flatMapR, flatMapR]
    generalize F a = A, F' (φ a) = A' at h1
    generalize flatMapR F l = B, flatMapR F' (l.map φ) = B' at h2
    cases h1 with
    | err p => exact .err p
    | ok h3 =>
      cases h2 with
      | err p => exact .err p
      | ok h4 => exact .ok (h3.append h4)

theorem filterR_rel {g g' : Nat → R Bool} : ∀ {l : List Nat}, (∀ x ∈ l, Among h T x) → (∀ x ∈ l, g' (f x) = g x) →
    ERel (LRel h T f) (filterR g l) (filterR g' (l.map f))
  | [], _, _ => .ok .nil
  | a :: l, hl, hg => by
    have h2 := filterR_rel (g := g) (g' := g') (l := l) (fun b hb => hl b (List.mem_cons_of_mem _ hb)) fun b hb => hg b (List.mem_cons_of_mem _ hb)
    have ha := hl a List.mem_cons_self
    rw [List.map_cons, filterR, filterR, hg a List.mem_cons_self]
    generalize filterR g l = B, filterR g' (l.map f) = B' at h2
    cases g a with
    | error p => exact .err p
    | ok b =>
      cases h2 with
      | err p => exact .err p
      | ok h4 => cases b with
        | true => exact .ok (.cons ha h4)
        | false => exact .ok h4

theorem anyR_map {α α' : Type} (φ : α → α') {g : α → R Bool} {g' : α' → R Bool} : ∀ {l : List α}, (∀ x ∈ l, g' (φ x) = g x) →
    anyR g' (l.map φ) = anyR g l
  | [], _ => rfl
  | a :: l, hg => by
    rw [List.map_cons, anyR, anyR, hg a List.mem_cons_self, anyR_map φ fun b hb => hg b (List.mem_cons_of_mem _ hb)]

section
variable (cp : Copies h h' T f env env')
include cp

theorem Spec.Copies.back {x : Nat} (hx : Among h T x) : (T x ∧ h.parent x = none ∧ h'.parent (f x) = none) ∨
    ∃ p, Among h T p ∧ h.parent x = some p ∧ h'.parent (f x) = some (f p) ∧ (h.kids p)[h.index x]? = some x ∧ h'.index (f x) = h.index x := by
  obtain ⟨r, hr, hw⟩ := hx
  cases hw with
  | self => exact .inl ⟨hr, (cp.wf _ hr).rootParent, (cp.wf' _ hr).rootParent⟩
  | @step p _ hp hc =>
    obtain ⟨i, hi⟩ := List.getElem?_of_mem hc
    obtain ⟨h1, h2⟩ := (cp.wf r hr).link p i x hp hi
    have hin : ∀ {y}, Within h r y → Within h' (f r) (f y) := fun hy => by
      induction hy with
      | self => exact .self
      | step hp' hc' ih => exact ih.step (by rw [cp.kids _ ⟨r, hr, hp'⟩]; exact List.mem_map_of_mem hc')
    have hi' : (h'.kids (f p))[i]? = some (f x) := by rw [cp.kids p ⟨r, hr, hp⟩, List.getElem?_map, hi]; rfl
    obtain ⟨h3, h4⟩ := (cp.wf' r hr).link (f p) i (f x) (hin hp) hi'
    exact .inr ⟨p, ⟨r, hr, hp⟩, h1, h3, by rw [h2]; exact hi, by rw [h2, h4]⟩

theorem Spec.Copies.parent {x : Nat} (hx : Among h T x) : h'.parent (f x) = (h.parent x).map f := by
  rcases cp.back hx with ⟨_, h1, h2⟩ | ⟨p, _, h1, h2, _⟩ <;> rw [h1, h2] <;> rfl

theorem Spec.Copies.up {x p : Nat} (hx : Among h T x) (hp : h.parent x = some p) : Among h T p ∧ (h.kids p)[h.index x]? = some x := by
  rcases cp.back hx with ⟨_, h1, h2⟩ | ⟨q, hq, h1, h2, h3, _⟩ <;> rw [h1] at hp <;> cases hp
  exact ⟨hq, h3⟩

theorem Spec.Copies.index {x : Nat} (hx : Among h T x) : h'.index (f x) = h.index x := by
  rcases cp.back hx with ⟨hr, _⟩ | ⟨q, hq, h1, h2, _, h3⟩
  · exact cp.top x hr
  · exact h3

theorem Spec.Copies.isElem {x : Nat} (hx : Among h T x) : h'.isElem (f x) = h.isElem x := by unfold Heap.isElem; rw [(cp.data x hx).1]

theorem Spec.Copies.isRoot {x : Nat} (hx : Among h T x) : h'.isRoot (f x) = h.isRoot x := by unfold Heap.isRoot; rw [(cp.data x hx).1]

theorem Spec.Copies.tagNames {x : Nat} (hx : Among h T x) : tagNames h' (f x) = tagNames h x := by
  unfold Visdom.tagNames; rw [cp.isElem hx, (cp.data x hx).2.1]

theorem Spec.Copies.tagName {x : Nat} (hx : Among h T x) : tagName h' (f x) = tagName h x := by unfold Visdom.tagName; rw [cp.tagNames hx]

theorem Spec.Copies.children {x : Nat} (hx : Among h T x) : h'.children (f x) = (h.children x).map f := by
  rw [Heap.children, Heap.children, cp.kids x hx, List.filter_map]
  congr 1
  exact List.filter_congr fun y hy => cp.isElem (hx.kid hy)

omit cp in
theorem Spec.Among.child {x c : Nat} (hx : Among h T x) (hc : c ∈ h.children x) : Among h T c := hx.kid (List.mem_filter.1 hc).1

theorem Spec.Copies.childLen {x : Nat} (hx : Among h T x) : h'.childLen (f x) = h.childLen x := by
  rw [Heap.childLen, Heap.childLen, cp.kids x hx, List.length_map]

theorem Spec.Copies.inj {x y : Nat} (hx : Among h T x) (hy : Among h T y) : f x = f y ↔ x = y :=
  ⟨cp.apart x y (.inl hx) (.inl hy), fun he => he ▸ rfl⟩

theorem Spec.Copies.mem {x : Nat} (hx : Among h T x) {l : List Nat} (hl : ∀ y ∈ l, Among h T y) : f x ∈ l.map f ↔ x ∈ l := by
  refine ⟨fun hm => ?_, List.mem_map_of_mem⟩
  obtain ⟨y, h1, h2⟩ := List.mem_map.1 hm
  rw [← (cp.inj (hl y h1) hx).1 h2]; exact h1

theorem Spec.Copies.find_elem {l : List Nat} (hl : ∀ y ∈ l, Among h T y) : (l.map f).find? h'.isElem = (l.find? h.isElem).map f := by
  induction l with
  | nil => rfl
  | cons a l ih =>
    rw [List.map_cons, List.find?_cons, List.find?_cons, cp.isElem (hl a List.mem_cons_self)]
    cases h.isElem a with
    | true => rfl
    | false => exact ih fun y hy => hl y (List.mem_cons_of_mem _ hy)

theorem Spec.Copies.filter_elem {l : List Nat} (hl : ∀ y ∈ l, Among h T y) : (l.map f).filter h'.isElem = (l.filter h.isElem).map f := by
  rw [List.filter_map]
  congr 1
  exact List.filter_congr fun y hy => cp.isElem (hl y hy)

omit cp in
theorem drop_among {x i : Nat} (hx : Among h T x) : ∀ y ∈ (h.kids x).drop i, Among h T y := fun _ hy => hx.kid (List.mem_of_mem_drop hy)
omit cp in
theorem take_among {x i : Nat} (hx : Among h T x) : ∀ y ∈ (h.kids x).take i, Among h T y := fun _ hy => hx.kid (List.mem_of_mem_take hy)

theorem Spec.Copies.nextElem {x : Nat} (hx : Among h T x) : h'.nextElem (f x) = (h.nextElem x).map f ∧ ∀ y, h.nextElem x = some y → Among h T y := by
  unfold Heap.nextElem
  rw [cp.parent hx, cp.index hx]
  cases hp : h.parent x with
  | none => exact ⟨rfl, fun y hy => by cases hy⟩
  | some p =>
    have hpa := (cp.up hx hp).1
    simp only [Option.map_some]
    rw [cp.kids p hpa, ← List.map_drop, cp.find_elem (drop_among hpa)]
    exact ⟨rfl, fun y hy => drop_among hpa y (List.mem_of_find?_eq_some hy)⟩

theorem Spec.Copies.nextElems {x : Nat} (hx : Among h T x) : ERel (LRel h T f) (h.nextElems x) (h'.nextElems (f x)) := by
  unfold Heap.nextElems
  rw [cp.parent hx, cp.index hx]
  cases hp : h.parent x with
  | none => exact .ok .nil
  | some p =>
    have hpa := (cp.up hx hp).1
    simp only [Option.map_some]
    rw [cp.kids p hpa, List.length_map]
    split
    · exact .err _
    · refine .ok ⟨by rw [← List.map_drop, cp.filter_elem (drop_among hpa)], fun y hy => drop_among hpa y (List.mem_filter.1 hy).1⟩

theorem Spec.Copies.prevElem {x : Nat} (hx : Among h T x) :
    ERel (fun a b => b = a.map f ∧ ∀ y, a = some y → Among h T y) (h.prevElem x) (h'.prevElem (f x)) := by
  unfold Heap.prevElem
  rw [cp.parent hx, cp.index hx]
  cases hp : h.parent x with
  | none => exact .ok ⟨rfl, fun y hy => by cases hy⟩
  | some p =>
    have hpa := (cp.up hx hp).1
    have hr : ∀ y ∈ ((h.kids p).take (h.index x)).reverse, Among h T y := fun y hy => take_among hpa y (List.mem_reverse.1 hy)
    simp only [Option.map_some]
    rw [cp.kids p hpa, List.length_map]
    split
    · exact .err _
    · refine .ok ⟨by rw [← List.map_take, ← List.map_reverse, cp.find_elem hr], fun y hy => hr y (List.mem_of_find?_eq_some hy)⟩

theorem Spec.Copies.prevElems {x : Nat} (hx : Among h T x) : ERel (LRel h T f) (h.prevElems x) (h'.prevElems (f x)) := by
  unfold Heap.prevElems
  rw [cp.parent hx, cp.index hx]
  cases hp : h.parent x with
  | none => exact .ok .nil
  | some p =>
    have hpa := (cp.up hx hp).1
    simp only [Option.map_some]
    rw [cp.kids p hpa, List.length_map]
    split
    · exact .err _
    · refine .ok ⟨by rw [← List.map_take, cp.filter_elem (take_among hpa)], fun y hy => take_among hpa y (List.mem_filter.1 hy).1⟩

theorem Spec.Copies.siblings {x : Nat} (hx : Among h T x) : ERel (LRel h T f) (h.siblings x) (h'.siblings (f x)) := by
  have hn := cp.nextElems hx
  have hv := cp.prevElems hx
  unfold Heap.siblings
  rw [cp.parent hx, cp.index hx]
  cases hp : h.parent x with
  | none => exact .ok .nil
  | some p =>
    have hpa := (cp.up hx hp).1
    simp only [Option.map_some]
    rw [cp.kids p hpa, List.length_map]
    split
    · exact hn
    · split
      · exact .err _
      · split
        · exact hv
        · split
          · exact .err _
          · refine .ok (LRel.append ⟨by rw [← List.map_take, cp.filter_elem (take_among hpa)], fun y hy => take_among hpa y (List.mem_filter.1 hy).1⟩
              ⟨by rw [← List.map_drop, cp.filter_elem (drop_among hpa)], fun y hy => drop_among hpa y (List.mem_filter.1 hy).1⟩)

/-! ### Steps enough -/

/-- The path to the copy is the path to the node. -/
theorem Spec.Copies.at {r x : Nat} {π : List Nat} (hr : T r) (a : At h r π x) : At h' (f r) π (f x) := by
  induction a with
  | here => exact .here
  | step a hc ih => exact .step ih (by rw [cp.kids _ ⟨r, hr, a.within⟩, List.getElem?_map, hc]; rfl)

omit cp in
/-- Enough steps to walk down from the node on both sides. -/
def DownOk (h h' : Heap) (T : Nat → Prop) (n n' x : Nat) : Prop :=
  ∃ r π, T r ∧ At h r π x ∧ h.size < π.length + n ∧ h'.size < π.length + n'

omit cp in
/-- Enough steps to walk up from the node on both sides. -/
def UpOk (h : Heap) (T : Nat → Prop) (n n' x : Nat) : Prop := ∃ r π, T r ∧ At h r π x ∧ π.length < n ∧ π.length < n'

theorem Spec.Copies.down {x : Nat} (hx : Among h T x) : DownOk h h' T h.fuel h'.fuel x := by
  obtain ⟨r, hr, hw⟩ := hx
  obtain ⟨π, hπ⟩ := hw.path
  exact ⟨r, π, hr, hπ, by unfold Heap.fuel; omega, by unfold Heap.fuel; omega⟩

omit cp in
theorem DownOk.among {n n' x : Nat} (d : DownOk h h' T n n' x) : Among h T x := by
  obtain ⟨r, π, hr, hπ, _⟩ := d
  exact ⟨r, hr, hπ.within⟩

theorem Spec.Copies.down_pos {n n' x : Nat} (d : DownOk h h' T n n' x) : ∃ m m', n = m + 1 ∧ n' = m' + 1 := by
  obtain ⟨r, π, hr, hπ, h1, h2⟩ := d
  have k1 := path_length (cp.wf r hr) hπ
  have k2 := path_length (cp.wf' r hr) (cp.at hr hπ)
  exact ⟨n - 1, n' - 1, by omega, by omega⟩

omit cp in
theorem DownOk.kid {n n' x c : Nat} (d : DownOk h h' T (n + 1) (n' + 1) x) (hc : c ∈ h.kids x) : DownOk h h' T n n' c := by
  obtain ⟨r, π, hr, hπ, h1, h2⟩ := d
  obtain ⟨i, hi⟩ := List.getElem?_of_mem hc
  exact ⟨r, π ++ [i], hr, .step hπ hi, by rw [List.length_append, List.length_singleton]; omega, by rw [List.length_append, List.length_singleton]; omega⟩

omit cp in
theorem DownOk.child {n n' x c : Nat} (d : DownOk h h' T (n + 1) (n' + 1) x) (hc : c ∈ h.children x) : DownOk h h' T n n' c :=
  d.kid (List.mem_filter.1 hc).1

theorem Spec.Copies.upOk {x : Nat} (hx : Among h T x) : UpOk h T h.fuel h'.fuel x := by
  obtain ⟨r, hr, hw⟩ := hx
  obtain ⟨π, hπ⟩ := hw.path
  have k1 := path_length (cp.wf r hr) hπ
  have k2 := path_length (cp.wf' r hr) (cp.at hr hπ)
  exact ⟨r, π, hr, hπ, by unfold Heap.fuel; omega, by unfold Heap.fuel; omega⟩

omit cp in
theorem UpOk.among {n n' x : Nat} (d : UpOk h T n n' x) : Among h T x := by
  obtain ⟨r, π, hr, hπ, _⟩ := d
  exact ⟨r, hr, hπ.within⟩

omit cp in
theorem UpOk.pos {n n' x : Nat} (d : UpOk h T n n' x) : ∃ m m', n = m + 1 ∧ n' = m' + 1 := by
  obtain ⟨r, π, hr, hπ, h1, h2⟩ := d
  exact ⟨n - 1, n' - 1, by omega, by omega⟩

theorem Spec.Copies.upOk_parent {n n' x p : Nat} (d : UpOk h T (n + 1) (n' + 1) x) (hp : h.parent x = some p) : UpOk h T n n' p := by
  obtain ⟨r, π, hr, hπ, h1, h2⟩ := d
  have hx := hπ.within
  obtain ⟨hpw, hpi⟩ := parent_some (cp.wf r hr) hx hp
  obtain ⟨ρ, hρ⟩ := hpw.path
  have := path_unique (cp.wf r hr) hπ (.step hρ hpi)
  subst this
  rw [List.length_append, List.length_singleton] at h1 h2
  exact ⟨r, ρ, hr, hρ, by omega, by omega⟩

theorem Spec.Copies.pathFuel {n n' x : Nat} (d : UpOk h T n n' x) : h'.pathFuel n' (f x) = h.pathFuel n x := by
  induction n generalizing n' x with
  | zero => obtain ⟨_, _, h1, _⟩ := d.pos; cases h1
  | succ n ih =>
    obtain ⟨_, m', _, rfl⟩ := d.pos
    rw [Heap.pathFuel, Heap.pathFuel, cp.parent d.among, cp.index d.among]
    cases hp : h.parent x with
    | none => rfl
    | some p =>
      simp only [Option.map_some]
      rw [ih (cp.upOk_parent d hp)]

theorem Spec.Copies.treeIndexs {x : Nat} (hx : Among h T x) : h'.treeIndexs (f x) = h.treeIndexs x := cp.pathFuel (cp.upOk hx)

end
end Visdom
