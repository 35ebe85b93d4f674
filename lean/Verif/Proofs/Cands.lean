import Verif.Proofs.Desc
import Verif.Spec.Matcher
/-!
# A rule filters candidates that do not depend on the matcher
-/
namespace Visdom
open Spec

/-- The elements a rule with this combinator looks at, in the order of the result. -/
def cands (h : Heap) (c : Comb) (l : List Nat) : R (List Nat) :=
  match c with
  | .childrenAll => overTops h (fun x => .ok (descFuel h h.fuel x)) l
  | .children => .ok (l.flatMap h.children)
  | .parent => .ok (parentsOf h (uniqueSiblingFirst h l))
  | .parentAll => (flatMapR (ancestorsFuel h h.fuel) l).map (sortAndUnique h)
  | .nextAll => flatMapR h.nextElems (uniqueSiblingFirst h l)
  | .next => .ok (l.filterMap h.nextElem)
  | .prevAll => flatMapR h.prevElems (uniqueSiblingLast h l)
  | .prev => flatMapR (fun x => (h.prevElem x).map Option.toList) l
  | .siblings => flatMapR (fun e => if e.2 then .ok (h.children e.1) else h.siblings e.1) (uniqueAllSiblings h l)
  | .chain => .ok l

variable {h : Heap} {r : Nat}

theorem flatMapR_filter {α : Type} {f k : α → R (List Nat)} {P : Nat → Bool} {l : List α} {res : List Nat}
    (hr : flatMapR f l = .ok res)
    (hf : ∀ x ∈ l, ∀ y, f x = .ok y → ∃ z, k x = .ok z ∧ y = z.filter P) :
    ∃ cs, flatMapR k l = .ok cs ∧ res = cs.filter P := by
  induction l generalizing res with
  | nil => simp only [flatMapR, Except.ok.injEq] at hr; exact ⟨[], rfl, by simp [← hr]⟩
  | cons a l ih =>
    simp only [flatMapR] at hr
    split at hr
    · cases hr
    · rename_i x hx
      split at hr
      · cases hr
      · rename_i y hy
        simp only [Except.ok.injEq] at hr
        obtain ⟨z, hz, e1⟩ := hf a List.mem_cons_self x hx
        obtain ⟨cs, hcs, e2⟩ := ih hy fun x hx => hf x (List.mem_cons_of_mem _ hx)
        exact ⟨z ++ cs, by simp only [flatMapR, hz, hcs], by rw [← hr, List.filter_append, e1, e2]⟩

theorem flatMapR_total {α β : Type} {f : α → R (List β)} {l : List α} (hf : ∀ x ∈ l, ∃ y, f x = .ok y) :
    ∃ res, flatMapR f l = .ok res := by
  induction l with
  | nil => exact ⟨[], rfl⟩
  | cons a l ih =>
    obtain ⟨y, hy⟩ := hf a List.mem_cons_self
    obtain ⟨z, hz⟩ := ih fun x hx => hf x (List.mem_cons_of_mem _ hx)
    exact ⟨y ++ z, by simp only [flatMapR, hy, hz]⟩

theorem flatMapR_mem {α β : Type} {f : α → R (List β)} {l : List α} {res : List β} (hr : flatMapR f l = .ok res) :
    (∀ a ∈ l, ∃ y, f a = .ok y) ∧ ∀ e, e ∈ res ↔ ∃ a ∈ l, ∃ y, f a = .ok y ∧ e ∈ y := by
  induction l generalizing res with
  | nil => simp only [flatMapR, Except.ok.injEq] at hr; simp [← hr]
  | cons a l ih =>
    simp only [flatMapR] at hr
    split at hr
    · cases hr
    · rename_i x hx
      split at hr
      · cases hr
      · rename_i y hy
        simp only [Except.ok.injEq] at hr
        obtain ⟨h1, h2⟩ := ih hy
        refine ⟨?_, ?_⟩
        · intro b hb
          rcases List.mem_cons.1 hb with rfl | hb
          · exact ⟨x, hx⟩
          · exact h1 b hb
        · intro e
          rw [← hr, List.mem_append, h2]
          constructor
          · rintro (he | ⟨b, hb, y, hy, he⟩)
            · exact ⟨a, List.mem_cons_self, x, hx, he⟩
            · exact ⟨b, List.mem_cons_of_mem _ hb, y, hy, he⟩
          · rintro ⟨b, hb, y, hy, he⟩
            rcases List.mem_cons.1 hb with rfl | hb
            · rw [hx] at hy; cases hy; exact Or.inl he
            · exact Or.inr ⟨b, hb, y, hy, he⟩

theorem filterR_total {α : Type} {f : α → R Bool} {l : List α} (hf : ∀ x ∈ l, ∃ b, f x = .ok b) :
    ∃ res, filterR f l = .ok res := by
  induction l with
  | nil => exact ⟨[], rfl⟩
  | cons a l ih =>
    obtain ⟨y, hy⟩ := hf a List.mem_cons_self
    obtain ⟨z, hz⟩ := ih fun x hx => hf x (List.mem_cons_of_mem _ hx)
    exact ⟨if y then a :: z else z, by simp only [filterR, hy, hz]⟩

theorem anyR_total {α : Type} {f : α → R Bool} {l : List α} (hf : ∀ x ∈ l, ∃ b, f x = .ok b) :
    ∃ res, anyR f l = .ok res := by
  induction l with
  | nil => exact ⟨false, rfl⟩
  | cons a l ih =>
    obtain ⟨y, hy⟩ := hf a List.mem_cons_self
    cases y with
    | true => exact ⟨true, by simp only [anyR, hy]⟩
    | false =>
      obtain ⟨z, hz⟩ := ih fun x hx => hf x (List.mem_cons_of_mem _ hx)
      exact ⟨z, by simp only [anyR, hy, hz]⟩

theorem markMatched_filter {P : Nat → Bool} {l : List Nat} (hn : l.Nodup) :
    markMatched l (l.filter P) = l.map fun c => (c, P c) := by
  have hnil : ∀ l : List Nat, l.filter P = [] → markMatched l [] = l.map fun c => (c, P c) := by
    intro l hl
    induction l with
    | nil => rfl
    | cons a l ih =>
      rw [List.filter_cons] at hl
      cases hP : P a with
      | true => rw [hP] at hl; simp at hl
      | false =>
        rw [hP] at hl
        simp only [markMatched, List.map_cons, hP, ih (by simpa using hl)]
  induction l with
  | nil => rfl
  | cons a l ih =>
    obtain ⟨hna, hnl⟩ := List.nodup_cons.1 hn
    rw [List.filter_cons]
    cases hP : P a with
    | true => simp only [if_true, markMatched, List.map_cons, hP, ih hnl]
    | false =>
      simp only [Bool.false_eq_true, if_false, List.map_cons, hP]
      cases hf : l.filter P with
      | nil => simp only [markMatched]; rw [hnil l hf]
      | cons b bs =>
        have hb : b ∈ l := (List.mem_filter.1 (hf ▸ List.mem_cons_self)).1
        have hne : a ≠ b := by rintro rfl; exact hna hb
        simp only [markMatched, if_neg hne]
        rw [← hf, ih hnl]

theorem descFuel_leaf {n x : Nat} (hx : ¬ 0 < h.childLen x) : descFuel h n x = [] := by
  have : h.kids x = [] := by
    unfold Heap.childLen at hx
    exact List.length_eq_zero_iff.1 (by omega)
  cases n with
  | zero => rfl
  | succ n => simp [descFuel, Heap.children, this]

variable (wf : TreeWF h r)

/-- Two lists in document order with the same members are equal. -/
theorem docSorted_ext {l1 l2 : List Nat} (h1 : DocSorted h r l1) (h2 : DocSorted h r l2)
    (hw : ∀ x ∈ l1, Within h r x) (hm : ∀ x, x ∈ l1 ↔ x ∈ l2) (wf : TreeWF h r) : l1 = l2 := by
  have hw2 : ∀ x ∈ l2, Within h r x := fun x hx => hw x ((hm x).2 hx)
  have hp : l1.Perm l2 := (List.perm_ext_iff_of_nodup (docSorted_nodup wf hw h1) (docSorted_nodup wf hw2 h2)).2 hm
  induction l1 generalizing l2 with
  | nil => exact (List.perm_nil.1 hp.symm).symm
  | cons a l1 ih =>
    cases l2 with
    | nil => exact absurd (hp.length_eq) (by simp)
    | cons b l2 =>
      obtain ⟨ha, h1'⟩ := List.pairwise_cons.1 h1
      obtain ⟨hb, h2'⟩ := List.pairwise_cons.1 h2
      have hab : a = b := by
        rcases List.mem_cons.1 ((hm a).1 List.mem_cons_self) with e | e
        · exact e
        · rcases List.mem_cons.1 ((hm b).2 List.mem_cons_self) with e' | e'
          · exact e'.symm
          · exact absurd (hb a e) (before_asymm wf (hw a List.mem_cons_self) (hw b (List.mem_cons_of_mem _ e')) (ha b e'))
      subst hab
      have hp' := hp.cons_inv
      rw [ih h1' h2' (fun x hx => hw x (List.mem_cons_of_mem _ hx)) (fun x => hp'.mem_iff)
        (fun x hx => hw2 x (List.mem_cons_of_mem _ hx)) hp']

theorem sortAndUnique_filter (wf : TreeWF h r) {l : List Nat} (hl : ∀ x ∈ l, Within h r x) (P : Nat → Bool) :
    sortAndUnique h (l.filter P) = (sortAndUnique h l).filter P := by
  have hf : ∀ x ∈ l.filter P, Within h r x := fun x hx => hl x (List.mem_filter.1 hx).1
  obtain ⟨a1, _, a3⟩ := C14_sort_and_unique wf hf
  obtain ⟨b1, _, b3⟩ := C14_sort_and_unique wf hl
  refine docSorted_ext a1 (List.Pairwise.sublist List.filter_sublist b1) (fun x hx => hf x ((a3 x).1 hx)) ?_ wf
  intro x
  rw [a3, List.mem_filter, List.mem_filter, b3]

section
variable {Q : List Nat → Prop} {m : Matcher} {c : Comb} {P : Nat → Bool}

theorem filterR_decides {g : Nat → R Bool} (hD : Decides h r Q m c P) (hg : m.one = some g) {l res : List Nat}
    (hl : Elems h r l) (hr : filterR g l = .ok res) : res = l.filter P :=
  filterR_inv hr fun x hx b hb => hD.one g hg x b (hl x hx).1 (hl x hx).2 hb

theorem apply_decides (hD : Decides h r Q m c P) (h1 : c ≠ .childrenAll) (h2 : c ≠ .children) {l res : List Nat}
    (hl : Elems h r l) (hQ : Q l) (hr : m.apply l none = .ok res) : res = l.filter P := by
  unfold Matcher.apply at hr
  cases hall : m.all with
  | some f => rw [hall] at hr; exact hD.all h1 h2 f hall l res hl hQ hr
  | none =>
    rw [hall] at hr
    cases hone : m.one with
    | some g => rw [hone] at hr; exact filterR_decides hD hone hl hr
    | none => rw [hone] at hr; cases hr

theorem getAll_decides (hD : Decides h r Q m c P) (h1 : c ≠ .childrenAll) (h2 : c ≠ .children) {l res : List Nat}
    (hl : Elems h r l) (hQ : Q l) (hr : m.getAll l none = .ok res) : res = l.filter P := by
  unfold Matcher.getAll at hr
  cases hall : m.all with
  | some f => rw [hall] at hr; exact hD.all h1 h2 f hall l res hl hQ hr
  | none => rw [hall] at hr; cases hr

theorem children_elems {x : Nat} (hx : Within h r x) : Elems h r (h.children x) := fun c hc =>
  ⟨.step hx (mem_children.1 hc).1, (mem_children.1 hc).2⟩

theorem dfsOne_decides {g : Nat → R Bool} (hD : Decides h r Q m c P) (hg : m.one = some g) {n x : Nat} {res : List Nat}
    (hx : Within h r x) (hr : dfsOne h g n x = .ok res) : res = (descFuel h n x).filter P := by
  induction n generalizing x res with
  | zero => cases hr
  | succ n ih =>
    simp only [dfsOne] at hr
    simp only [descFuel]
    rw [List.filter_flatMap]
    refine flatMapR_inv hr ?_
    intro c hc y hy
    obtain ⟨hcw, hce⟩ := children_elems hx c hc
    split at hy
    · cases hy
    · rename_i b hb
      have hbP := hD.one g hg c b hcw hce hb
      split at hy
      · cases hy
      · rename_i z hz
        simp only [Except.ok.injEq] at hy
        have hz' : z = (descFuel h n c).filter P := by
          split at hz
          · exact ih hcw hz
          · rename_i hlen
            simp only [Except.ok.injEq] at hz
            rw [descFuel_leaf hlen, ← hz]; rfl
        rw [← hy, List.filter_cons, ← hbP, hz']

theorem dfsSpec_decides {s : Nat → R (List (Nat × Bool × Bool))} (hD : Decides h r Q m c P) (hone : m.one = none)
    (hs : m.spec = some s) (wf : TreeWF h r) {n x : Nat} {res : List Nat} (hx : Within h r x)
    (hr : dfsSpec h s n x = .ok res) : res = (descFuel h n x).filter P := by
  induction n generalizing x res with
  | zero => cases hr
  | succ n ih =>
    simp only [dfsSpec] at hr
    split at hr
    · cases hr
    · rename_i l hl
      rcases hD.spec hone s hs x l hx hl with hmap | ⟨rfl, hfalse⟩
      · subst hmap
        simp only [descFuel]
        rw [List.filter_flatMap]
        have : ∀ (k : Nat × Bool × Bool → R (List Nat)) (w : Nat → Nat × Bool × Bool) (l : List Nat),
            flatMapR k (l.map w) = flatMapR (fun c => k (w c)) l := by
          intro k w l
          induction l with
          | nil => rfl
          | cons a l ih => simp only [List.map_cons, flatMapR, ih]
        rw [this] at hr
        refine flatMapR_inv hr ?_
        intro c hc y hy
        obtain ⟨hcw, hce⟩ := children_elems hx c hc
        simp only [Bool.true_and, decide_eq_true_eq] at hy
        split at hy
        · cases hy
        · rename_i z hz
          simp only [Except.ok.injEq] at hy
          have hz' : z = (descFuel h n c).filter P := by
            split at hz
            · exact ih hcw hz
            · rename_i hlen
              simp only [Except.ok.injEq] at hz
              rw [descFuel_leaf hlen, ← hz]; rfl
          rw [← hy, List.filter_cons, hz']
      · simp only [flatMapR, Except.ok.injEq] at hr
        rw [← hr, eq_comm, List.filter_eq_nil_iff]
        intro e he
        have hin : ∀ (n x : Nat), Within h r x → ∀ e ∈ descFuel h n x, Within h r e ∧ h.isElem e = true := by
          intro n
          induction n with
          | zero => intro x _ e he; cases he
          | succ n ih2 =>
            intro x hx e he
            simp only [descFuel, List.mem_flatMap, List.mem_cons] at he
            obtain ⟨c, hc, rfl | he⟩ := he
            · exact children_elems hx _ hc
            · exact ih2 c (children_elems hx c hc).1 e he
        obtain ⟨h1, h2⟩ := hin _ x hx e he
        rw [hfalse e h1 h2]
        decide

theorem dfsAll_decides {f : List Nat → Option Bool → R (List Nat)} (hD : Decides h r Q m .childrenAll P)
    (hc : m.inCache = false) (hone : m.one = none) (hspec : m.spec = none) (hf : m.all = some f)
    (wf : TreeWF h r) {n x : Nat} {res : List Nat} (hx : Within h r x)
    (hr : dfsAll h f n x = .ok res) : res = (descFuel h n x).filter P := by
  induction n generalizing x res with
  | zero => cases hr
  | succ n ih =>
    simp only [dfsAll] at hr
    simp only [descFuel]
    split at hr
    · rename_i he
      have : h.children x = [] := by simpa using he
      simp only [Except.ok.injEq] at hr
      rw [this, ← hr]; rfl
    · split at hr
      · cases hr
      · rename_i matched hm
        have hm' := hD.child (Or.inl ⟨rfl, hc⟩) hone hspec f hf x matched hx hm
        have hnd : (h.children x).Nodup := (children_sibAsc wf hx).nodup
        rw [hm', markMatched_filter hnd] at hr
        rw [List.filter_flatMap]
        have : ∀ (k : Nat × Bool → R (List Nat)) (w : Nat → Nat × Bool) (l : List Nat),
            flatMapR k (l.map w) = flatMapR (fun c => k (w c)) l := by
          intro k w l
          induction l with
          | nil => rfl
          | cons a l ih => simp only [List.map_cons, flatMapR, ih]
        rw [this] at hr
        refine flatMapR_inv hr ?_
        intro c hc y hy
        obtain ⟨hcw, hce⟩ := children_elems hx c hc
        split at hy
        · cases hy
        · rename_i z hz
          simp only [Except.ok.injEq] at hy
          have hz' : z = (descFuel h n c).filter P := by
            split at hz
            · exact ih hcw hz
            · rename_i hlen
              simp only [Except.ok.injEq] at hz
              rw [descFuel_leaf hlen, ← hz]; rfl
          rw [← hy, List.filter_cons, hz']

theorem overTops_filter {exec k : Nat → R (List Nat)} {l res : List Nat} (hl : ∀ x ∈ l, Within h r x)
    (wf : TreeWF h r) (hr : overTops h exec l = .ok res)
    (hf : ∀ x, Within h r x → ∀ y, exec x = .ok y → ∃ z, k x = .ok z ∧ y = z.filter P) :
    ∃ cs, overTops h k l = .ok cs ∧ res = cs.filter P := by
  unfold overTops at hr ⊢
  split at hr
  · rename_i hlen
    rw [if_pos hlen]
    split at hr
    · cases hr
    · rename_i u hu
      have hsub := (uniqueParents_cover wf hl hu).1
      exact flatMapR_filter hr fun x hx => hf x (hl x (hsub x hx))
  · rename_i hlen
    rw [if_neg hlen]
    exact flatMapR_filter hr fun x hx => hf x (hl x hx)

end

/-- The reduced lists consist of members of the list. -/
theorem uniqueFirst_sub {l : List Nat} (wf : TreeWF h r) (hl : ∀ x ∈ l, Within h r x) :
    ∀ x ∈ uniqueSiblingFirst h l, x ∈ l := by
  rw [uniqueSiblingFirst_eq wf hl]
  exact fun x hx => (firstBy_sublist _ _).subset hx

theorem uniqueLast_sub {l : List Nat} (wf : TreeWF h r) (hl : ∀ x ∈ l, Within h r x) :
    ∀ x ∈ uniqueSiblingLast h l, x ∈ l := by
  rw [uniqueSiblingLast_eq wf hl]
  intro x hx
  exact List.mem_reverse.1 ((firstBy_sublist _ _).subset (List.mem_reverse.1 hx))

theorem parentsOf_elems {l : List Nat} (wf : TreeWF h r) (hl : ∀ x ∈ l, Within h r x) : Elems h r (parentsOf h l) := by
  intro p hp
  unfold parentsOf at hp
  rw [List.mem_filterMap] at hp
  obtain ⟨x, hx, he⟩ := hp
  cases hpar : h.parent x with
  | none => rw [hpar] at he; cases he
  | some q =>
    rw [hpar] at he
    simp only [Option.bind_some] at he
    split at he
    · cases he
    · rename_i hnr
      simp only [Option.some.injEq] at he
      subst he
      obtain ⟨h1, h2⟩ := parent_some wf (hl x hx) hpar
      exact ⟨h1, elem_of_kid wf h1 (List.mem_of_getElem? h2) fun e => hnr ((isRoot_iff wf h1).2 e)⟩

/-- The pairs of `unique_all_siblings` are members of the list, or parents of members. -/
theorem uniqueAll_sub {l : List Nat} : ∀ e ∈ uniqueAllSiblings h l,
    (e.2 = false ∧ e.1 ∈ l) ∨ (e.2 = true ∧ ∃ x ∈ l, h.parent x = some e.1) := by
  have key : ∀ (l : List Nat) (s : AllSibState) (L : List Nat),
      (∀ e ∈ s.kept, (e.2 = false ∧ e.1 ∈ L) ∨ (e.2 = true ∧ ∃ x ∈ L, h.parent x = some e.1)) →
      (∀ e ∈ s.seen, ∃ x ∈ L, h.parent x = some e.2.2.2) → (∀ x ∈ l, x ∈ L) →
      ∀ e ∈ (l.foldl (allSibStep h) s).kept,
        (e.2 = false ∧ e.1 ∈ L) ∨ (e.2 = true ∧ ∃ x ∈ L, h.parent x = some e.1) := by
    intro l
    induction l with
    | nil => intro s L h1 _ _ e he; exact h1 e he
    | cons x l ih =>
      intro s L h1 h2 h3
      rw [List.foldl_cons]
      have hx := h3 x List.mem_cons_self
      have h3' : ∀ y ∈ l, y ∈ L := fun y hy => h3 y (List.mem_cons_of_mem _ hy)
      unfold allSibStep
      cases hp : h.parent x with
      | none => exact ih s L h1 h2 h3'
      | some p =>
        simp only []
        split
        · rename_i a pos changed par hfind
          split
          · exact ih s L h1 h2 h3'
          · refine ih _ L ?_ ?_ h3'
            · intro e he
              rcases List.mem_or_eq_of_mem_set he with he | rfl
              · exact h1 e he
              · exact Or.inr ⟨rfl, h2 _ (List.mem_of_find?_eq_some hfind)⟩
            · intro e he
              simp only [List.mem_map] at he
              obtain ⟨e', he', rfl⟩ := he
              split
              · exact h2 e' he'
              · exact h2 e' he'
        · refine ih _ L ?_ ?_ h3'
          · intro e he
            rcases List.mem_append.1 he with he | he
            · exact h1 e he
            · simp at he; subst he; exact Or.inl ⟨rfl, hx⟩
          · intro e he
            rcases List.mem_append.1 he with he | he
            · exact h2 e he
            · simp at he; subst he; exact ⟨x, hx, hp⟩
  exact key l {} l (by simp) (by simp) (fun x hx => hx)

section
variable {Q : List Nat → Prop} {m : Matcher} {P : Nat → Bool}

theorem elems_of_mem {l : List Nat} (hx : ∀ e, e ∈ l → Within h r e ∧ h.isElem e = true) : Elems h r l := hx

theorem laterSib_within {x y : Nat} (hs : LaterSib h r x y) : Within h r x ∧ Within h r y := by
  obtain ⟨p, i, j, hp, _, hi, hj⟩ := hs
  exact ⟨.step hp (List.mem_of_getElem? hi), .step hp (List.mem_of_getElem? hj)⟩

theorem nextSib_later {x y : Nat} (hs : NextSib h r x y) : LaterSib h r x y := by
  obtain ⟨p, i, j, hp, hij, hi, hj, _⟩ := hs
  exact ⟨p, i, j, hp, hij, hi, hj⟩

/-- The matcher only filters: `selectByRule` returns the candidates that satisfy the predicate. -/
theorem selectByRule_decides (wf : TreeWF h r) {c : Comb} (hD : Decides h r Q m c P)
    (hQ : ∀ l, Elems h r l → DocSorted h r l → Q l) {l res : List Nat}
    (hl : ∀ x ∈ l, Within h r x) (hchain : c = .chain → Elems h r l)
    (hcQ : c = .chain ∨ c = .next ∨ c = .prev ∨ c = .parent → ∀ cs, cands h c l = .ok cs → Q cs)
    (hcache : c = .childrenAll → m.inCache = false)
    (hr : selectByRule h l m c = .ok res) : ∃ cs, cands h c l = .ok cs ∧ res = cs.filter P := by
  cases c with
  | childrenAll =>
    simp only [selectByRule] at hr
    simp only [cands]
    cases hone : m.one with
    | some g =>
      rw [hone] at hr
      exact overTops_filter hl wf hr fun x hx y hy => ⟨_, rfl, dfsOne_decides hD hone hx hy⟩
    | none =>
      rw [hone] at hr
      cases hspec : m.spec with
      | some s =>
        rw [hspec] at hr
        exact overTops_filter hl wf hr fun x hx y hy => ⟨_, rfl, dfsSpec_decides hD hone hspec wf hx hy⟩
      | none =>
        rw [hspec] at hr
        cases hall : m.all with
        | some f =>
          rw [hall] at hr
          exact overTops_filter hl wf hr fun x hx y hy => ⟨_, rfl, dfsAll_decides hD (hcache rfl) hone hspec hall wf hx hy⟩
        | none => rw [hall] at hr; cases hr
  | children =>
    simp only [selectByRule] at hr
    simp only [cands]
    refine ⟨_, rfl, ?_⟩
    rw [List.filter_flatMap]
    cases hone : m.one with
    | some g =>
      rw [hone] at hr
      exact flatMapR_inv hr fun x hx y hy => filterR_decides hD hone (children_elems (hl x hx)) hy
    | none =>
      rw [hone] at hr
      cases hspec : m.spec with
      | some s =>
        rw [hspec] at hr
        refine flatMapR_inv hr fun x hx y hy => ?_
        cases hs : s x with
        | error e => rw [hs] at hy; cases hy
        | ok w =>
          rw [hs] at hy
          simp only [Except.map, Except.ok.injEq] at hy
          rw [← hy]
          rcases hD.spec hone s hspec x w (hl x hx) hs with rfl | ⟨rfl, hfalse⟩
          · rw [List.filter_map, List.map_map]
            simp [Function.comp_def]
          · simp only [List.filter_nil, List.map_nil]
            rw [eq_comm, List.filter_eq_nil_iff]
            intro e he
            obtain ⟨h1, h2⟩ := children_elems (hl x hx) e he
            rw [hfalse e h1 h2]; decide
      | none =>
        rw [hspec] at hr
        cases hall : m.all with
        | some f =>
          rw [hall] at hr
          exact flatMapR_inv hr fun x hx y hy => hD.child (Or.inr rfl) hone hspec f hall x y (hl x hx) hy
        | none => rw [hall] at hr; cases hr
  | parent =>
    simp only [selectByRule] at hr
    have hel : Elems h r (parentsOf h (uniqueSiblingFirst h l)) :=
      parentsOf_elems wf fun x hx => hl x (uniqueFirst_sub wf hl x hx)
    refine ⟨_, rfl, ?_⟩
    cases hone : m.one with
    | some g => rw [hone] at hr; exact filterR_decides hD hone hel hr
    | none =>
      rw [hone] at hr
      exact getAll_decides hD (by simp) (by simp) hel (hcQ (by simp) _ rfl) hr
  | parentAll =>
    simp only [selectByRule] at hr
    simp only [cands]
    split at hr
    · cases hr
    · rename_i all hall
      rw [hall]
      refine ⟨_, rfl, ?_⟩
      have hel : Elems h r all := by
        intro e he
        obtain ⟨a, ha, y, hy, hey⟩ := ((flatMapR_mem hall).2 e).1 he
        obtain ⟨l', hl', hm⟩ := ancestors_ok wf (hl a ha)
        rw [hl'] at hy; cases hy
        obtain ⟨h1, _, h3⟩ := (hm e).1 hey
        exact ⟨h1, h3⟩
      have hw : ∀ x ∈ all, Within h r x := fun x hx => (hel x hx).1
      cases hone : m.one with
      | some g =>
        simp only [hone] at hr
        cases hf : filterR g all with
        | error e => rw [hf] at hr; cases hr
        | ok w =>
          rw [hf] at hr
          simp only [Except.map, Except.ok.injEq] at hr
          rw [← hr, filterR_decides hD hone hel hf, sortAndUnique_filter wf hw]
      | none =>
        rw [hone] at hr
        obtain ⟨s1, _, s3⟩ := C14_sort_and_unique wf hw
        have hel' : Elems h r (sortAndUnique h all) := fun x hx => hel x ((s3 x).1 hx)
        exact getAll_decides hD (by simp) (by simp) hel'
          (hQ _ hel' s1) hr
  | nextAll =>
    simp only [selectByRule] at hr
    simp only [cands]
    refine flatMapR_filter hr fun x hx y hy => ?_
    have hxw := hl x (uniqueFirst_sub wf hl x hx)
    obtain ⟨ns, h1, h2, h3⟩ := nextElems_ok wf hxw
    rw [h1] at hy ⊢
    refine ⟨ns, rfl, ?_⟩
    have hel : Elems h r ns := fun e he => ⟨(laterSib_within ((h2 e).1 he).1).2, ((h2 e).1 he).2⟩
    refine apply_decides hD (by simp) (by simp) hel (hQ _ hel ?_) hy
    rcases h3 with rfl | ⟨p, hp, _, hs⟩
    · exact .nil
    · exact sublist_kids_docSorted hp hs
  | next =>
    simp only [selectByRule] at hr
    have hel : Elems h r (l.filterMap h.nextElem) := by
      intro e he
      obtain ⟨x, hx, hxe⟩ := List.mem_filterMap.1 he
      obtain ⟨h1, h2⟩ := (mem_nextElem wf (hl x hx)).1 hxe
      exact ⟨(laterSib_within (nextSib_later h1)).2, h2⟩
    refine ⟨_, rfl, ?_⟩
    cases hone : m.one with
    | some g => rw [hone] at hr; exact filterR_decides hD hone hel hr
    | none =>
      rw [hone] at hr
      exact apply_decides hD (by simp) (by simp) hel (hcQ (by simp) _ rfl) hr
  | prevAll =>
    simp only [selectByRule] at hr
    simp only [cands]
    refine flatMapR_filter hr fun x hx y hy => ?_
    have hxw := hl x (uniqueLast_sub wf hl x hx)
    obtain ⟨ns, h1, h2, h3⟩ := prevElems_ok wf hxw
    rw [h1] at hy ⊢
    refine ⟨ns, rfl, ?_⟩
    have hel : Elems h r ns := fun e he => ⟨(laterSib_within ((h2 e).1 he).1).1, ((h2 e).1 he).2⟩
    refine apply_decides hD (by simp) (by simp) hel (hQ _ hel ?_) hy
    rcases h3 with rfl | ⟨p, hp, _, hs⟩
    · exact .nil
    · exact sublist_kids_docSorted hp hs
  | prev =>
    simp only [selectByRule] at hr
    split at hr
    · cases hr
    · rename_i prevs hprevs
      refine ⟨prevs, hprevs, ?_⟩
      have hel : Elems h r prevs := by
        intro e he
        obtain ⟨a, ha, y, hy, hey⟩ := ((flatMapR_mem hprevs).2 e).1 he
        obtain ⟨o, ho, hm⟩ := prevElem_ok wf (hl a ha)
        rw [ho] at hy
        simp only [Except.map, Except.ok.injEq] at hy
        subst hy
        have : o = some e := by simpa using hey
        obtain ⟨h1, h2⟩ := (hm e).1 this
        exact ⟨(laterSib_within (nextSib_later h1)).1, h2⟩
      cases hone : m.one with
      | some g => rw [hone] at hr; exact filterR_decides hD hone hel hr
      | none =>
        rw [hone] at hr
        exact apply_decides hD (by simp) (by simp) hel (hcQ (by simp) _ hprevs) hr
  | siblings =>
    simp only [selectByRule] at hr
    simp only [cands]
    refine flatMapR_filter hr fun e he y hy => ?_
    have hsub := uniqueAll_sub e he
    split at hy
    · cases hy
    · rename_i ns hns
      refine ⟨ns, hns, ?_⟩
      rcases hsub with ⟨h2, h1⟩ | ⟨h2, x, hx, hpar⟩
      · rw [h2] at hns
        simp only [Bool.false_eq_true, if_false] at hns
        obtain ⟨l', k1, k2, k3⟩ := siblings_ok wf (hl _ h1)
        rw [hns] at k1; cases k1
        have hel : Elems h r ns := by
          intro a ha
          obtain ⟨⟨p, hp, _, hk, _⟩, hae⟩ := (k2 a).1 ha
          exact ⟨.step hp hk, hae⟩
        refine apply_decides hD (by simp) (by simp) hel (hQ _ hel ?_) hy
        rcases k3 with rfl | ⟨p, hp, _, hs⟩
        · exact .nil
        · exact sublist_kids_docSorted hp hs
      · rw [h2] at hns
        simp only [if_true, Except.ok.injEq] at hns
        have hw := (parent_some wf (hl x hx) hpar).1
        rw [← hns] at hy ⊢
        exact apply_decides hD (by simp) (by simp) (children_elems hw) (hQ _ (children_elems hw) (children_docSorted hw)) hy
  | chain =>
    simp only [selectByRule] at hr
    exact ⟨l, rfl, apply_decides hD (by simp) (by simp) (hchain rfl) (hcQ (by simp) l rfl) hr⟩

end
end Visdom
