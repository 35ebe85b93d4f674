import Verif.Proofs.Inner
/-!
# Every rule decides its meaning
-/
namespace Visdom
open Spec Classical
variable {h : Heap} {r : Nat} {env : Env} {tot : Bool} {q : ListQ}

/-- The process of an alternative. -/
def altProc (h : Heap) (env : Env) (cx : Complex) : Proc := optimizeGroup false (cplxCmpds h env cx)

/-- Whether an alternative matches. -/
noncomputable def altP (h : Heap) (r : Nat) (env : Env) (cx : Complex) : Nat → Bool :=
  fun x => decide (Sel h r (· = r) (steps h r env cx) x)

/-- All alternatives filter rightly. -/
def SelGood (h : Heap) (r : Nat) (env : Env) (tot : Bool) (q : ListQ) (sel : List Complex) : Prop :=
  ∀ cx ∈ sel, ProcGood h r tot q (altProc h env cx) (altP h r env cx)

theorem innerSel_cons (cx : Complex) (sel : List Complex) :
    innerSel h env (cx :: sel) = altProc h env cx :: innerSel h env sel := by rw [innerSel]; rfl

theorem isProcs_good {sel : List Complex} (hg : SelGood h r env tot q sel) {X : List Nat} (hX : Elems h r X)
    (hq : q.lists h r X) {root : Option Nat} (hroot : root = none ∨ root = some r) :
    (∀ b, isProcs h X (innerSel h env sel) root = .ok b → (b = true ↔ ∃ x ∈ X, anySat h r env sel x)) ∧
    (tot = true → ∃ b, isProcs h X (innerSel h env sel) root = .ok b) := by
  induction sel generalizing root with
  | nil =>
    rw [innerSel]
    refine ⟨fun b hb => ?_, fun _ => ⟨_, rfl⟩⟩
    simp only [isProcs, Except.ok.injEq] at hb
    subst hb
    simp [anySat]
  | cons cx sel ih =>
    obtain ⟨g1, g2⟩ := hg cx List.mem_cons_self X root hX hq hroot
    have ih := fun {root : Option Nat} (hr : root = none ∨ root = some r) =>
      ih (fun c hc => hg c (List.mem_cons_of_mem _ hc)) hr
    rw [innerSel_cons]
    simp only [isProcs]
    constructor
    · intro b hb
      cases h1 : filterProc h X root (altProc h env cx) with
      | error e => rw [h1] at hb; cases hb
      | ok y =>
        obtain ⟨f, root'⟩ := y
        simp only [h1] at hb
        obtain ⟨hf, hroot'⟩ := g1 f root' h1
        by_cases he : f.isEmpty = true
        · rw [if_pos he] at hb
          rw [(ih hroot').1 b hb]
          have hno : ∀ x ∈ X, ¬ Sel h r (· = r) (steps h r env cx) x := by
            intro x hx hs
            have : x ∈ f := by rw [hf]; exact List.mem_filter.2 ⟨hx, decide_eq_true hs⟩
            rw [List.isEmpty_iff.1 he] at this
            cases this
          constructor
          · rintro ⟨x, hx, hs⟩; exact ⟨x, hx, by rw [anySat]; exact Or.inr hs⟩
          · rintro ⟨x, hx, hs⟩
            rw [anySat] at hs
            exact ⟨x, hx, hs.resolve_left (hno x hx)⟩
        · rw [if_neg he] at hb
          obtain rfl := Except.ok.inj hb
          simp only [true_iff]
          obtain ⟨x, hx⟩ := List.exists_mem_of_ne_nil f (by simpa using he)
          rw [hf] at hx
          obtain ⟨hx, hs⟩ := List.mem_filter.1 hx
          exact ⟨x, hx, by rw [anySat]; exact Or.inl (of_decide_eq_true hs)⟩
    · intro ht
      obtain ⟨⟨f, root'⟩, h1⟩ := g2 ht
      simp only [h1]
      split
      · exact (ih (g1 f root' h1).2).2 ht
      · exact ⟨_, rfl⟩

theorem addElems_nil (f : List Nat) : addElems h [] f = .ok f := by simp [addElems]

/-- Without spilling over, the condition of C15 holds. -/
theorem spill_tail (wf : TreeWF h r) {M U c : Nat → Prop} (hn : ¬ Spills h r M U c) {F S : List Nat} (hF : ∀ x ∈ F, Within h r x)
    (sF : DocSorted h r F) (hFm : ∀ x, x ∈ F ↔ M x ∧ U x) (hSm : ∀ x ∈ S, M x ∧ c x) :
    ∀ e, F.getLast? = some e → e ∈ S → ∀ s ∈ S, ¬ Before h r e s := by
  intro e he heS s hs hb
  have heF := List.mem_of_getLast? he
  refine hn ⟨e, s, (hSm e heS).1, ((hFm e).1 heF).2, fun y hy hu hby => ?_, (hSm e heS).2, (hSm s hs).1, (hSm s hs).2, hb⟩
  have hyF := (hFm y).2 ⟨hy, hu⟩
  obtain ⟨i, hi⟩ := List.getElem?_of_mem hyF
  rcases le_last (klt_of_sorted wf hF sF) he hi with h6 | h6
  · subst h6; exact before_irrefl wf (hF _ heF) hby
  · exact before_asymm wf (hF e heF) (hF y hyF) hby ((before_iff wf (hF y hyF) (hF e heF)).2 h6)

/-- Sets that exclude each other do not spill over. -/
theorem apart_noSpill {M U : Nat → Prop} : ∀ {cs : List (Nat → Prop)}, (∀ x, M x → U x → ∀ c ∈ cs, ¬ c x) →
    cs.Pairwise (fun c d => ∀ x, M x → c x → ¬ d x) → NoSpill h r M U cs := by
  intro cs
  induction cs generalizing U with
  | nil => intros; trivial
  | cons c cs ih =>
    intro hu hp
    rw [List.pairwise_cons] at hp
    refine ⟨fun ⟨e, _, h1, h2, _, h3, _⟩ => hu e h1 h2 c List.mem_cons_self h3, ih (fun x hx hor d hd => ?_) hp.2⟩
    rcases hor with hor | hor
    · exact hu x hx hor d (List.mem_cons_of_mem _ hd)
    · exact hp.1 d hd x hx hor

theorem apart_unionOk {sel : List Complex} (ha : Apart h r env sel) : UnionOk h r env .doc sel := by
  intro X hX
  refine Or.inr ⟨rfl, apart_noSpill (fun _ _ h => h.elim) ?_⟩
  induction sel with
  | nil => exact .nil
  | cons c cs ih =>
    rw [List.map_cons, List.pairwise_cons]
    refine ⟨fun d hd x hx hc hdx => ?_, ih ha.2⟩
    obtain ⟨d, hd', rfl⟩ := List.mem_map.1 hd
    clear hd
    refine ha.1 x (hX x hx).1 (hX x hx).2 hc ?_
    clear ih ha
    induction cs with
    | nil => cases hd'
    | cons c' cs ih =>
      rw [anySat]
      rcases List.mem_cons.1 hd' with rfl | hd'
      · exact Or.inl hdx
      · exact Or.inr (ih hd')

theorem filterProcs_apart (wf : TreeWF h r) {sel : List Complex} (hg : SelGood h r env tot .doc sel)
    {X : List Nat} (hX : Elems h r X) (hq : ListQ.lists h r .doc X) {E : Nat → Bool}
    (ha : NoSpill h r (· ∈ X) (fun x => E x = true) (sel.map fun c x => Sel h r (· = r) (steps h r env c) x))
    {root : Option Nat} (hroot : root = none ∨ root = some r) :
    (∀ res, filterProcs h X (innerSel h env sel) root (X.filter E) = .ok res →
      res = X.filter fun x => E x || decide (anySat h r env sel x)) ∧
    (tot = true → ∃ res, filterProcs h X (innerSel h env sel) root (X.filter E) = .ok res) := by
  induction sel generalizing root E with
  | nil =>
    rw [innerSel]
    refine ⟨fun res hb => ?_, fun _ => ⟨_, rfl⟩⟩
    simp only [filterProcs, Except.ok.injEq] at hb
    subst hb
    refine List.filter_congr fun x _ => ?_
    rw [anySat]
    simp
  | cons cx sel ih =>
    obtain ⟨g1, g2⟩ := hg cx List.mem_cons_self X root hX hq hroot
    rw [List.map_cons, NoSpill] at ha
    have hU : (fun x => (E x || altP h r env cx x) = true) = fun x => E x = true ∨ Sel h r (· = r) (steps h r env cx) x := by
      funext x
      unfold altP
      simp
    have ih := fun {root : Option Nat} (hr : root = none ∨ root = some r) =>
      ih (E := fun x => E x || altP h r env cx x) (fun c hc => hg c (List.mem_cons_of_mem _ hc)) (hU ▸ ha.2) hr
    have hcons : ∀ x, (E x || decide (anySat h r env (cx :: sel) x)) =
        ((E x || altP h r env cx x) || decide (anySat h r env sel x)) := by
      intro x
      rw [anySat, Bool.or_assoc]
      congr 1
      unfold altP
      rw [Bool.eq_iff_iff]
      simp
    -- the union with one more alternative
    have hstep : addElems h (X.filter E) (X.filter (altP h r env cx)) = .ok (X.filter fun x => E x || altP h r env cx x) := by
      have hw : ∀ (P : Nat → Bool), ∀ x ∈ X.filter P, Within h r x := fun P x hx => (hX x (List.mem_filter.1 hx).1).1
      have hs : ∀ (P : Nat → Bool), DocSorted h r (X.filter P) := fun P => List.Pairwise.sublist List.filter_sublist hq.1
      obtain ⟨l, e, hsl, _, hm⟩ := C15_add_union_partial wf (hw E) (hw (altP h r env cx)) (hs E) (hs _)
        (spill_tail wf ha.1 (hw E) (hs E) (fun x => List.mem_filter)
          (fun x hx => ⟨(List.mem_filter.1 hx).1, of_decide_eq_true (List.mem_filter.1 hx).2⟩))
      rw [e]
      congr 1
      refine docSorted_ext hsl (hs _) (fun x hx => ?_) (fun x => ?_) wf
      · rcases (hm x).1 hx with hx | hx <;> exact hw _ x hx
      · rw [hm]
        simp only [List.mem_filter, Bool.or_eq_true]
        rw [← and_or_left]
    have hempty : ∀ f : List Nat, f = X.filter (altP h r env cx) → f.isEmpty = true →
        X.filter E = X.filter fun x => E x || altP h r env cx x := by
      intro f hf he
      refine List.filter_congr fun x hx => ?_
      have : altP h r env cx x = false := by
        cases hp : altP h r env cx x with
        | false => rfl
        | true =>
          have : x ∈ f := by rw [hf]; exact List.mem_filter.2 ⟨hx, hp⟩
          rw [List.isEmpty_iff.1 he] at this
          cases this
      rw [this, Bool.or_false]
    rw [innerSel_cons]
    simp only [filterProcs]
    constructor
    · intro res hb
      cases h1 : filterProc h X root (altProc h env cx) with
      | error e => rw [h1] at hb; cases hb
      | ok y =>
        obtain ⟨f, root'⟩ := y
        simp only [h1] at hb
        obtain ⟨hf, hroot'⟩ := g1 f root' h1
        by_cases he : f.isEmpty = true
        · rw [if_pos he, hempty f hf he] at hb
          rw [(ih hroot').1 res hb]
          exact List.filter_congr fun x hx => (hcons x).symm
        · rw [if_neg he, hf, hstep] at hb
          rw [(ih hroot').1 res hb]
          exact List.filter_congr fun x hx => (hcons x).symm
    · intro ht
      obtain ⟨⟨f, root'⟩, h1⟩ := g2 ht
      simp only [h1]
      obtain ⟨hf, hroot'⟩ := g1 f root' h1
      split
      · next he => rw [hempty f hf he]; exact (ih hroot').2 ht
      · rw [hf, hstep]
        exact (ih hroot').2 ht

theorem filterProcs_good (wf : TreeWF h r) {sel : List Complex} (hg : SelGood h r env tot q sel)
    {X : List Nat} (hu : UnionOn h r env q X sel) (hX : Elems h r X) (hq : q.lists h r X) :
    (∀ res, filterProcs h X (innerSel h env sel) none [] = .ok res → res = X.filter fun x => decide (anySat h r env sel x)) ∧
    (tot = true → ∃ res, filterProcs h X (innerSel h env sel) none [] = .ok res) := by
  rcases hu with hlen | ⟨rfl, ha⟩
  · match sel, hlen with
    | [], _ =>
      rw [innerSel]
      refine ⟨fun res hb => ?_, fun _ => ⟨_, rfl⟩⟩
      simp only [filterProcs, Except.ok.injEq] at hb
      subst hb
      symm
      rw [List.filter_eq_nil_iff]
      intro x _ hx
      rw [decide_eq_true_eq, anySat] at hx
      exact hx
    | [cx], _ =>
      obtain ⟨g1, g2⟩ := hg cx List.mem_cons_self X none hX hq (Or.inl rfl)
      have hany : ∀ x, decide (anySat h r env [cx] x) = altP h r env cx x := by
        intro x
        unfold altP
        rw [anySat, anySat]
        simp
      have hfun : (fun x => decide (anySat h r env [cx] x)) = altP h r env cx := funext hany
      rw [innerSel_cons, innerSel, hfun]
      simp only [filterProcs, addElems_nil]
      constructor
      · intro res hb
        cases h1 : filterProc h X none (altProc h env cx) with
        | error e => rw [h1] at hb; cases hb
        | ok y =>
          obtain ⟨f, root'⟩ := y
          simp only [h1] at hb
          obtain ⟨hf, _⟩ := g1 f root' h1
          by_cases he : f.isEmpty = true
          · rw [if_pos he] at hb
            rw [← Except.ok.inj hb, ← hf, List.isEmpty_iff.1 he]
          · rw [if_neg he] at hb
            rw [← Except.ok.inj hb, hf]
      · intro ht
        obtain ⟨⟨f, root'⟩, h1⟩ := g2 ht
        simp only [h1]
        split <;> exact ⟨_, rfl⟩
  · have := filterProcs_apart wf hg hX hq (E := fun _ => false) (by simpa using ha) (Or.inl rfl)
    simpa using this

/-- Taking out what was kept by a filter. -/
theorem notIn_filter (P : Nat → Bool) (X : List Nat) : notIn X (X.filter P) = X.filter fun x => !P x := by
  have key : ∀ (X S : List Nat) (start : Nat), S.drop start = X.filter P → notInFrom S X start = X.filter fun x => !P x := by
    intro X
    induction X with
    | nil => intro S start _; rfl
    | cons x X ih =>
      intro S start hs
      simp only [notInFrom, indexOf, hs]
      cases hp : P x with
      | true =>
        rw [List.filter_cons_of_pos hp] at hs ⊢
        rw [List.filter_cons_of_neg (by simp [hp])]
        simp only [List.idxOf?_cons, beq_self_eq_true, if_true, Option.map_some]
        refine ih S _ ?_
        rw [Nat.add_zero, ← List.drop_drop, hs]
        rfl
      | false =>
        rw [List.filter_cons_of_neg (by simp [hp])] at hs ⊢
        rw [List.filter_cons_of_pos (by simp [hp])]
        have hno : (X.filter P).idxOf? x = none := by
          rw [List.idxOf?_eq_none_iff]
          intro hx
          rw [(List.mem_filter.1 hx).2] at hp
          cases hp
        simp only [hno, Option.map_none]
        rw [ih S start hs]
  exact key X (X.filter P) 0 rfl

theorem notSel_good (wf : TreeWF h r) {sel : List Complex} (hg : SelGood h r env tot q sel)
    {X : List Nat} (hu : UnionOn h r env q X sel) (hX : Elems h r X) (hq : q.lists h r X) :
    (∀ res, notSel h X (innerSel h env sel) = .ok res → res = X.filter fun x => decide (¬ anySat h r env sel x)) ∧
    (tot = true → ∃ res, notSel h X (innerSel h env sel) = .ok res) := by
  obtain ⟨f1, f2⟩ := filterProcs_good wf hg hu hX hq
  unfold notSel
  by_cases he : X.isEmpty = true
  · rw [if_pos he]
    rw [List.isEmpty_iff.1 he]
    exact ⟨fun res hb => (Except.ok.inj hb).symm, fun _ => ⟨_, rfl⟩⟩
  · rw [if_neg he]
    constructor
    · intro res hb
      cases h1 : filterProcs h X (innerSel h env sel) none [] with
      | error e => rw [h1] at hb; cases hb
      | ok l =>
        have hl := f1 l h1
        simp only [h1, Except.map, Except.ok.injEq] at hb
        have hfun : (fun x => decide (¬ anySat h r env sel x)) = fun x => !(decide (anySat h r env sel x)) := by
          funext x; rw [Bool.eq_iff_iff]; simp
        rw [hfun, ← notIn_filter, ← hl, ← hb]
        by_cases hle : l.isEmpty = true
        · rw [if_pos hle, List.isEmpty_iff.1 hle]
          have hnil : ∀ (X : List Nat) (start : Nat), notInFrom [] X start = X := by
            intro X
            induction X with
            | nil => intro _; rfl
            | cons x X ih => intro start; simp [notInFrom, indexOf, ih]
          exact (hnil X 0).symm
        · rw [if_neg hle]
    · intro ht
      obtain ⟨l, h1⟩ := f2 ht
      rw [h1]
      exact ⟨_, rfl⟩

theorem filterSel_good (wf : TreeWF h r) {sel : List Complex} (hg : SelGood h r env tot q sel)
    {X : List Nat} (hu : UnionOn h r env q X sel) (hX : Elems h r X) (hq : q.lists h r X) :
    (∀ res, filterSel h X (innerSel h env sel) = .ok res → res = X.filter fun x => decide (anySat h r env sel x)) ∧
    (tot = true → ∃ res, filterSel h X (innerSel h env sel) = .ok res) := by
  unfold filterSel
  by_cases he : X.isEmpty = true
  · rw [if_pos he, List.isEmpty_iff.1 he]
    exact ⟨fun res hb => (Except.ok.inj hb).symm, fun _ => ⟨_, rfl⟩⟩
  · rw [if_neg he]
    exact filterProcs_good wf hg hu hX hq

theorem children_doc (wf : TreeWF h r) {x : Nat} (hx : Within h r x) : ListQ.lists h r .doc (h.children x) :=
  ⟨children_docSorted hx, children_sibAsc wf hx⟩

theorem below_children (wf : TreeWF h r) {x e : Nat} (hx : Within h r x) (he : h.isElem e = true) :
    Below h x e ↔ e ∈ h.children x ∨ ∃ c ∈ h.children x, Below h c e := by
  constructor
  · rintro ⟨c, hc, hw⟩
    rcases within_cases hw with rfl | hb
    · exact Or.inl (mem_children.2 ⟨hc, he⟩)
    · have hcw : Within h r c := .step hx hc
      have hck : h.kids c ≠ [] := by
        obtain ⟨d, hd, _⟩ := hb
        exact List.ne_nil_of_mem hd
      have hcr : c ≠ r := by
        rintro rfl
        have := parent_of_child wf hx hc
        rw [wf.rootParent] at this
        cases this
      have hce : h.isElem c = true := by
        unfold Heap.isElem
        by_cases hk : (h.node c).kind = .tag
        · rw [hk]; rfl
        · exact absurd (wf.leaf c hcw (fun h' => hcr (wf.onlyRoot c hcw h')) hk) hck
      exact Or.inr ⟨c, mem_children.2 ⟨hc, hce⟩, hb⟩
  · rintro (hc | ⟨c, hc, hb⟩)
    · exact Below.of_child (mem_children.1 hc).1
    · exact ⟨c, (mem_children.1 hc).1, hb.within⟩

theorem hasLoop_good (wf : TreeWF h r) {sel : List Complex} (hg : SelGood h r env tot .doc sel) {n x : Nat} {π : List Nat}
    (hx : At h r π x) (hn : h.size < π.length + n) :
    (∀ b, hasLoop h (innerSel h env sel) n x = .ok b →
      (b = true ↔ ∃ e, Below h x e ∧ h.isElem e = true ∧ anySat h r env sel e)) ∧
    (tot = true → ∃ b, hasLoop h (innerSel h env sel) n x = .ok b) := by
  induction n generalizing x π with
  | zero => have := path_length wf hx; omega
  | succ n ih =>
    have hxw := hx.within
    obtain ⟨i1, i2⟩ := isProcs_good hg (children_elems hxw) (children_doc wf hxw) (root := none) (Or.inl rfl)
    have ih' : ∀ c ∈ h.children x, (∀ b, hasLoop h (innerSel h env sel) n c = .ok b →
        (b = true ↔ ∃ e, Below h c e ∧ h.isElem e = true ∧ anySat h r env sel e)) ∧
        (tot = true → ∃ b, hasLoop h (innerSel h env sel) n c = .ok b) := fun c (hc : c ∈ h.children x) => by
      obtain ⟨i, hi⟩ := List.getElem?_of_mem (mem_children.1 hc).1
      exact ih (.step hx hi) (by simp; omega)
    have hsplit : (∃ e, Below h x e ∧ h.isElem e = true ∧ anySat h r env sel e) ↔
        (∃ e ∈ h.children x, anySat h r env sel e) ∨
        ∃ c ∈ h.children x, ∃ e, Below h c e ∧ h.isElem e = true ∧ anySat h r env sel e := by
      constructor
      · rintro ⟨e, hb, he, hs⟩
        rcases (below_children wf hxw he).1 hb with hc | ⟨c, hc, hb⟩
        · exact Or.inl ⟨e, hc, hs⟩
        · exact Or.inr ⟨c, hc, e, hb, he, hs⟩
      · rintro (⟨e, hc, hs⟩ | ⟨c, hc, e, hb, he, hs⟩)
        · exact ⟨e, Below.of_child (mem_children.1 hc).1, (mem_children.1 hc).2, hs⟩
        · exact ⟨e, (below_children wf hxw he).2 (Or.inr ⟨c, hc, hb⟩), he, hs⟩
    simp only [hasLoop]
    by_cases he : (h.children x).isEmpty = true
    · rw [if_pos he]
      refine ⟨fun b hb => ?_, fun _ => ⟨_, rfl⟩⟩
      obtain rfl := Except.ok.inj hb
      rw [hsplit, List.isEmpty_iff.1 he]
      simp
    · rw [if_neg he]
      constructor
      · intro b hb
        cases h1 : isProcs h (h.children x) (innerSel h env sel) none with
        | error e => rw [h1] at hb; cases hb
        | ok b1 =>
          simp only [h1] at hb
          have hb1 := i1 b1 h1
          cases b1 with
          | true =>
            obtain rfl := Except.ok.inj hb
            simp only [true_iff]
            rw [hsplit]
            exact Or.inl (hb1.1 rfl)
          | false =>
            have := anyR_inv (P := fun c => decide (∃ e, Below h c e ∧ h.isElem e = true ∧ anySat h r env sel e)) hb (by
              intro c hc b' hb'
              rw [Bool.eq_iff_iff, decide_eq_true_eq]
              exact (ih' c hc).1 b' hb')
            rw [this, hsplit, List.any_eq_true]
            have hno : ¬ ∃ e ∈ h.children x, anySat h r env sel e := fun hc => by simpa using hb1.2 hc
            simp only [hno, false_or, decide_eq_true_eq]
      · intro ht
        obtain ⟨b1, h1⟩ := i2 ht
        simp only [h1]
        cases b1 with
        | true => exact ⟨_, rfl⟩
        | false => exact anyR_total fun c hc => (ih' c hc).2 ht

theorem hasSel_good (wf : TreeWF h r) {sel : List Complex} (hg : SelGood h r env tot .doc sel) {X : List Nat}
    (hX : ∀ x ∈ X, Within h r x) :
    (∀ res, hasSel h X (innerSel h env sel) = .ok res →
      res = X.filter fun x => decide (∃ e, Below h x e ∧ h.isElem e = true ∧ anySat h r env sel e)) ∧
    (tot = true → ∃ res, hasSel h X (innerSel h env sel) = .ok res) := by
  unfold hasSel
  by_cases he : X.isEmpty = true
  · rw [if_pos he, List.isEmpty_iff.1 he]
    exact ⟨fun res hb => (Except.ok.inj hb).symm, fun _ => ⟨_, rfl⟩⟩
  · rw [if_neg he]
    constructor
    · intro res hb
      refine filterR_inv hb fun x hx b hb => ?_
      obtain ⟨π, hπ, hfu⟩ := dfs_path wf (hX x hx)
      rw [Bool.eq_iff_iff, decide_eq_true_eq]
      exact (hasLoop_good wf hg hπ hfu).1 b hb
    · intro ht
      refine filterR_total fun x hx => ?_
      obtain ⟨π, hπ, hfu⟩ := dfs_path wf (hX x hx)
      exact (hasLoop_good wf hg hπ hfu).2 ht

end Visdom
