import Verif.Proofs.CopiesText
import Verif.Proofs.AcceptLoop
import Verif.Props.Order
/-!
# Queries answer with elements
-/
namespace Visdom
open Spec

variable {h : Heap} {T : Nat → Prop} {env : Env}

/-- An element of the trees. -/
def El (h : Heap) (T : Nat → Prop) (y : Nat) : Prop := Among h T y ∧ h.isElem y = true

/-- A result that consists of given nodes and of elements. -/
def From (h : Heap) (T : Nat → Prop) (l res : List Nat) : Prop := ∀ y ∈ res, y ∈ l ∨ El h T y

/-- What is used of the trees and of what rphtml tells. -/
structure Firm (h : Heap) (T : Nat → Prop) (env : Env) : Prop where
  cp : Copies h h T id env env
  ids : ∀ x q i e, Among h T x → (h.node x).root = some q → env.byId q i = some e → h.isElem e = true

theorem From.refl {l : List Nat} : From h T l l := fun _ hy => .inl hy

theorem From.nil {l : List Nat} : From h T l [] := by rintro y ⟨⟩

theorem From.sub {l res : List Nat} (hs : res ⊆ l) : From h T l res := fun _ hy => .inl (hs hy)

theorem From.els {l res : List Nat} (hs : ∀ y ∈ res, El h T y) : From h T l res := fun y hy => .inr (hs y hy)

theorem From.trans {a b c : List Nat} (h1 : From h T a b) (h2 : From h T b c) : From h T a c := fun y hy => (h2 y hy).elim (h1 y) .inr

theorem From.among {a b : List Nat} (h1 : From h T a b) (ha : ∀ x ∈ a, Among h T x) : ∀ x ∈ b, Among h T x := fun x hx => (h1 x hx).elim (ha x) (·.1)

theorem From.el {a b : List Nat} (h1 : From h T a b) (ha : ∀ x ∈ a, El h T x) : ∀ x ∈ b, El h T x := fun x hx => (h1 x hx).elim (ha x) id

theorem child_el {x c : Nat} (hx : Among h T x) (hc : c ∈ h.children x) : El h T c := ⟨hx.child hc, (List.mem_filter.1 hc).2⟩

theorem sort_mem {l : List Nat} {x : Nat} (hx : x ∈ sortAndUnique h l) : x ∈ l := by
  unfold sortAndUnique uniqueElems at hx
  have hp := sortElems_perm h l
  revert hp hx
  generalize sortElems h l = s
  intro hx hp
  cases s with
  | nil => cases hx
  | cons a s =>
    rcases List.mem_cons.1 hx with rfl | hx
    · exact hp.subset List.mem_cons_self
    · exact hp.subset (List.mem_cons_of_mem _ (dedupFrom_mem hx))

section
variable (sd : Firm h T env)
include sd

/-- A parent that is not the root is an element. -/
theorem Firm.parent {x p : Nat} (hx : Among h T x) (hp : h.parent x = some p) (hr : h.isRoot p = false) : El h T p := by
  obtain ⟨⟨r, hr1, hw⟩, hi⟩ := sd.cp.up hx hp
  refine ⟨⟨r, hr1, hw⟩, ?_⟩
  unfold Heap.isRoot at hr
  unfold Heap.isElem
  by_contra hn
  rw [(sd.cp.wf r hr1).leaf p hw (by simpa using hr) (by simpa using hn)] at hi
  cases hi

theorem Firm.nexts {x y : Nat} (hx : Among h T x) (hy : h.nextElem x = some y) : El h T y := by
  refine ⟨(sd.cp.nextElem hx).2 y hy, ?_⟩
  unfold Heap.nextElem at hy
  split at hy
  · cases hy
  · exact List.find?_some hy

theorem rel_among {a b : R (List Nat)} {f : Nat → Nat} (hab : ERel (LRel h T f) a b) {l : List Nat} (ha : a = .ok l) : ∀ x ∈ l, Among h T x := by
  cases hab with
  | err p => cases ha
  | ok hp => cases ha; exact hp.2

theorem Firm.prev {x y : Nat} (hx : Among h T x) (hy : h.prevElem x = .ok (some y)) : El h T y := by
  have h1 := sd.cp.prevElem hx
  refine ⟨?_, ?_⟩
  · rw [hy] at h1
    generalize h.prevElem (id x) = b at h1
    cases h1 with
    | ok hp => exact hp.2 y rfl
  · unfold Heap.prevElem at hy
    split at hy
    · cases hy
    · split at hy
      · cases hy
      · exact List.find?_some (Except.ok.inj hy)

theorem Firm.nextElems {x : Nat} (hx : Among h T x) {l : List Nat} (hl : h.nextElems x = .ok l) : ∀ y ∈ l, El h T y := by
  intro y hy
  refine ⟨rel_among sd (sd.cp.nextElems hx) hl y hy, ?_⟩
  unfold Heap.nextElems at hl
  split at hl
  · cases hl; cases hy
  · split at hl
    · cases hl
    · cases hl; exact (List.mem_filter.1 hy).2

theorem Firm.prevElems {x : Nat} (hx : Among h T x) {l : List Nat} (hl : h.prevElems x = .ok l) : ∀ y ∈ l, El h T y := by
  intro y hy
  refine ⟨rel_among sd (sd.cp.prevElems hx) hl y hy, ?_⟩
  unfold Heap.prevElems at hl
  split at hl
  · cases hl; cases hy
  · split at hl
    · cases hl
    · cases hl; exact (List.mem_filter.1 hy).2

theorem Firm.siblings {x : Nat} (hx : Among h T x) {l : List Nat} (hl : h.siblings x = .ok l) : ∀ y ∈ l, El h T y := by
  intro y hy
  refine ⟨rel_among sd (sd.cp.siblings hx) hl y hy, ?_⟩
  unfold Heap.siblings at hl
  split at hl
  · cases hl; cases hy
  · simp only at hl
    split at hl
    · exact (sd.nextElems hx hl y hy).2
    · split at hl
      · cases hl
      · split at hl
        · exact (sd.prevElems hx hl y hy).2
        · split at hl
          · cases hl
          · cases hl
            rcases List.mem_append.1 hy with hy | hy <;> exact (List.mem_filter.1 hy).2

theorem Firm.usf {l : List Nat} (hl : ∀ x ∈ l, Among h T x) : ∀ x ∈ uniqueSiblingFirst h l, Among h T x :=
  (sd.cp.uniqueSiblingFirst (f := id) ⟨rfl, hl⟩).2

theorem Firm.usl {l : List Nat} (hl : ∀ x ∈ l, Among h T x) : ∀ x ∈ uniqueSiblingLast h l, Among h T x :=
  (sd.cp.uniqueSiblingLast (f := id) ⟨rfl, hl⟩).2

theorem Firm.parentsOf {l : List Nat} (hl : ∀ x ∈ l, Among h T x) : ∀ x ∈ parentsOf h l, El h T x := by
  intro y hy
  unfold Visdom.parentsOf at hy
  obtain ⟨x, hx, hp⟩ := List.mem_filterMap.1 hy
  cases hq : h.parent x with
  | none => rw [hq] at hp; cases hp
  | some p =>
    rw [hq, Option.bind_some] at hp
    split at hp
    · cases hp
    · rename_i hr
      cases hp
      exact sd.parent (hl x hx) hq (by simpa using hr)

theorem Firm.ancestors : ∀ {n x : Nat} {l : List Nat}, Among h T x → ancestorsFuel h n x = .ok l → ∀ y ∈ l, El h T y
  | 0, _, _, _, hl => by cases hl
  | n + 1, x, l, hx, hl => by
    rw [ancestorsFuel] at hl
    cases hq : h.parent x with
    | none => rw [hq] at hl; cases hl; rintro y ⟨⟩
    | some p =>
      rw [hq] at hl
      simp only at hl
      split at hl
      · cases hl; rintro y ⟨⟩
      · rename_i hr
        have hp := sd.parent hx hq (by simpa using hr)
        cases ha : ancestorsFuel h n p with
        | error e => rw [ha] at hl; cases hl
        | ok k =>
          rw [ha] at hl
          cases hl
          intro y hy
          rcases List.mem_append.1 hy with hy | hy
          · exact Firm.ancestors hp.1 ha y hy
          · rw [List.mem_singleton.1 hy]; exact hp

end

/-! ### Matchers -/

/-- What a matcher gives: nodes that were asked about, or elements. -/
structure MIn (h : Heap) (T : Nat → Prop) (m : Matcher) : Prop where
  all : ∀ F l c res, m.all = some F → (∀ x ∈ l, Among h T x) → F l c = .ok res → From h T l res
  spec : ∀ s x l, m.spec = some s → Among h T x → s x = .ok l → ∀ e ∈ l, El h T e.1
  cache : m.inCache = true → ∀ l res, (∀ x ∈ l, Among h T x) → m.apply l (some true) = .ok res → ∀ y ∈ res, El h T y

theorem MIn.ofOne {g : Nat → R Bool} {k : Nat} : MIn h T { one := some g, priority := k } :=
  ⟨(by rintro F l c res ⟨⟩), (by rintro s x l ⟨⟩), (by rintro ⟨⟩)⟩

theorem MIn.ofAll {F : List Nat → Option Bool → R (List Nat)} {k : Nat}
    (hF : ∀ l c res, (∀ x ∈ l, Among h T x) → F l c = .ok res → From h T l res) : MIn h T { all := some F, priority := k } :=
  ⟨(by rintro F l c res ⟨⟩; exact hF l c res), (by rintro s x l ⟨⟩), (by rintro ⟨⟩)⟩

theorem MIn.apply {m : Matcher} (hm : MIn h T m) {l res : List Nat} {c : Option Bool} (hl : ∀ x ∈ l, Among h T x) (hr : m.apply l c = .ok res) : From h T l res := by
  unfold Matcher.apply at hr
  cases ha : m.all with
  | some F => rw [ha] at hr; exact hm.all F l c res ha hl hr
  | none =>
    rw [ha] at hr
    cases ho : m.one with
    | none => rw [ho] at hr; cases hr
    | some g => rw [ho] at hr; exact .sub fun x hx => ((filterR_mem hr x).1 hx).1

theorem MIn.getAll {m : Matcher} (hm : MIn h T m) {l res : List Nat} {c : Option Bool} (hl : ∀ x ∈ l, Among h T x) (hr : m.getAll l c = .ok res) : From h T l res := by
  unfold Matcher.getAll at hr
  cases ha : m.all with
  | some F => rw [ha] at hr; exact hm.all F l c res ha hl hr
  | none => rw [ha] at hr; cases hr

section
variable (sd : Firm h T env)
include sd

theorem Firm.flat {α : Type} {F : α → R (List Nat)} {l : List α} {res : List Nat} (hr : flatMapR F l = .ok res) {P : Nat → Prop}
    (hF : ∀ a ∈ l, ∀ y, F a = .ok y → ∀ e ∈ y, P e) : ∀ e ∈ res, P e := by
  intro e he
  obtain ⟨a, ha, y, hy, hey⟩ := ((flatMapR_mem hr).2 e).1 he
  exact hF a ha y hy e hey

theorem Firm.dfsOne {g : Nat → R Bool} : ∀ {n x : Nat} {l : List Nat}, Among h T x → dfsOne h g n x = .ok l → ∀ y ∈ l, El h T y
  | 0, _, _, _, hl => by cases hl
  | n + 1, x, l, hx, hl => by
    rw [Visdom.dfsOne] at hl
    refine sd.flat hl fun c hc y hy e he => ?_
    have hce := child_el hx hc
    split at hy
    · cases hy
    · split at hy
      · cases hy
      · rename_i k hd
        have hrec : ∀ z ∈ k, El h T z := by
          split at hd
          · exact Firm.dfsOne hce.1 hd
          · cases hd; rintro z ⟨⟩
        cases hy
        split at he
        · rcases List.mem_cons.1 he with rfl | he
          · exact hce
          · exact hrec e he
        · exact hrec e he

theorem Firm.dfsSpec {s : Nat → R (List (Nat × Bool × Bool))} (hs : ∀ x l, Among h T x → s x = .ok l → ∀ e ∈ l, El h T e.1) :
    ∀ {n x : Nat} {l : List Nat}, Among h T x → dfsSpec h s n x = .ok l → ∀ y ∈ l, El h T y
  | 0, _, _, _, hl => by cases hl
  | n + 1, x, l, hx, hl => by
    rw [Visdom.dfsSpec] at hl
    cases hsx : s x with
    | error e => rw [hsx] at hl; cases hl
    | ok cs =>
      rw [hsx] at hl
      refine sd.flat hl fun c hc y hy e he => ?_
      have hce := hs x cs hx hsx c hc
      split at hy
      · cases hy
      · rename_i k hd
        have hrec : ∀ z ∈ k, El h T z := by
          split at hd
          · exact Firm.dfsSpec hs hce.1 hd
          · cases hd; rintro z ⟨⟩
        cases hy
        split at he
        · rcases List.mem_cons.1 he with rfl | he
          · exact hce
          · exact hrec e he
        · exact hrec e he

theorem Firm.dfsAll {F : List Nat → Option Bool → R (List Nat)} :
    ∀ {n x : Nat} {l : List Nat}, Among h T x → dfsAll h F n x = .ok l → ∀ y ∈ l, El h T y
  | 0, _, _, _, hl => by cases hl
  | n + 1, x, l, hx, hl => by
    rw [Visdom.dfsAll] at hl
    split at hl
    · cases hl; rintro y ⟨⟩
    · split at hl
      · cases hl
      · refine sd.flat hl fun c hc y hy e he => ?_
        have hce := child_el hx (markMatched_mem hc)
        split at hy
        · cases hy
        · rename_i k hd
          have hrec : ∀ z ∈ k, El h T z := by
            split at hd
            · exact Firm.dfsAll hce.1 hd
            · cases hd; rintro z ⟨⟩
          cases hy
          split at he
          · rcases List.mem_cons.1 he with rfl | he
            · exact hce
            · exact hrec e he
          · exact hrec e he

theorem Firm.overTops {E : Nat → R (List Nat)} (hE : ∀ x l, Among h T x → E x = .ok l → ∀ y ∈ l, El h T y) {l res : List Nat} (hl : ∀ x ∈ l, Among h T x)
    (hr : overTops h E l = .ok res) : ∀ y ∈ res, El h T y := by
  unfold Visdom.overTops at hr
  split at hr
  · cases hu : uniqueParents h l with
    | error e => rw [hu] at hr; cases hr
    | ok u =>
      rw [hu] at hr
      have hua := rel_among sd (sd.cp.uniqueParents (f := id) ⟨rfl, hl⟩) hu
      exact sd.flat hr fun x hx y hy => hE x y (hua x hx) hy
  · exact sd.flat hr fun x hx y hy => hE x y (hl x hx) hy

theorem Firm.pairs {l : List Nat} (hl : ∀ x ∈ l, Among h T x) : ∀ e ∈ uniqueAllSiblings h l, Among h T e.1 :=
  (sd.cp.uniqueAllSiblings (f := id) ⟨rfl, hl⟩).2

/-- What a rule selects: elements, except that a chained rule keeps nodes it is asked about. -/
theorem Firm.selectByRule {m : Matcher} (hm : MIn h T m) {l res : List Nat} {c : Comb} (hl : ∀ x ∈ l, Among h T x)
    (hr : selectByRule h l m c = .ok res) : From h T l res ∧ (c ≠ .chain → ∀ y ∈ res, El h T y) := by
  have fin : (∀ y ∈ res, El h T y) → From h T l res ∧ (c ≠ .chain → ∀ y ∈ res, El h T y) := fun hf => ⟨.els hf, fun _ => hf⟩
  cases c with
  | chain => exact ⟨hm.apply hl hr, fun hn => absurd rfl hn⟩
  | childrenAll =>
    refine fin ?_
    rw [Visdom.selectByRule] at hr
    split at hr
    · exact sd.overTops (fun x l hx hy => sd.dfsOne hx hy) hl hr
    · split at hr
      · rename_i hs
        exact sd.overTops (fun x l hx hy => sd.dfsSpec (fun x l => hm.spec _ x l hs) hx hy) hl hr
      · split at hr
        · exact sd.overTops (fun x l hx hy => sd.dfsAll hx hy) hl hr
        · cases hr
  | children =>
    refine fin ?_
    rw [Visdom.selectByRule] at hr
    split at hr
    · exact sd.flat hr fun x hx y hy e he => child_el (hl x hx) ((filterR_mem hy e).1 he).1
    · split at hr
      · rename_i s hs
        refine sd.flat hr fun x hx y hy e he => ?_
        cases hsx : s x with
        | error p => rw [hsx] at hy; cases hy
        | ok cs =>
          rw [hsx] at hy
          cases hy
          obtain ⟨p, hp, rfl⟩ := List.mem_map.1 he
          exact hm.spec s x cs hs (hl x hx) hsx p (List.mem_filter.1 hp).1
      · split at hr
        · rename_i F hF
          refine sd.flat hr fun x hx y hy => ?_
          exact (hm.all F _ _ _ hF (fun c hc => (child_el (hl x hx) hc).1) hy).el fun c hc => child_el (hl x hx) hc
        · cases hr
  | parent =>
    refine fin ?_
    rw [Visdom.selectByRule] at hr
    have hp := sd.parentsOf (sd.usf hl)
    split at hr
    · exact fun y hy => hp y ((filterR_mem hr y).1 hy).1
    · exact (hm.getAll (fun x hx => (hp x hx).1) hr).el hp
  | parentAll =>
    refine fin ?_
    rw [Visdom.selectByRule] at hr
    split at hr
    · cases hr
    · rename_i all ha
      have hp : ∀ y ∈ all, El h T y := sd.flat ha fun x hx y hy => sd.ancestors (hl x hx) hy
      split at hr
      · rename_i g hg
        cases hf : filterR g all with
        | error e => rw [hf] at hr; cases hr
        | ok k =>
          rw [hf] at hr
          cases hr
          exact fun y hy => hp y ((filterR_mem hf y).1 (sort_mem hy)).1
      · have hp' : ∀ y ∈ sortAndUnique h all, El h T y := fun y hy => hp y (sort_mem hy)
        exact (hm.getAll (fun x hx => (hp' x hx).1) hr).el hp'
  | nextAll =>
    refine fin ?_
    rw [Visdom.selectByRule] at hr
    refine sd.flat hr fun x hx y hy => ?_
    split at hy
    · cases hy
    · rename_i ns hns
      have hp := sd.nextElems (sd.usf hl x hx) hns
      exact (hm.apply (fun x hx => (hp x hx).1) hy).el hp
  | next =>
    refine fin ?_
    rw [Visdom.selectByRule] at hr
    have hp : ∀ y ∈ l.filterMap h.nextElem, El h T y := fun y hy => by
      obtain ⟨x, hx, hn⟩ := List.mem_filterMap.1 hy
      exact sd.nexts (hl x hx) hn
    split at hr
    · exact fun y hy => hp y ((filterR_mem hr y).1 hy).1
    · exact (hm.apply (fun x hx => (hp x hx).1) hr).el hp
  | prevAll =>
    refine fin ?_
    rw [Visdom.selectByRule] at hr
    refine sd.flat hr fun x hx y hy => ?_
    split at hy
    · cases hy
    · rename_i ns hns
      have hp := sd.prevElems (sd.usl hl x hx) hns
      exact (hm.apply (fun x hx => (hp x hx).1) hy).el hp
  | prev =>
    refine fin ?_
    rw [Visdom.selectByRule] at hr
    split at hr
    · cases hr
    · rename_i ps hps
      have hp : ∀ y ∈ ps, El h T y := sd.flat hps fun x hx y hy e he => by
        cases hpe : h.prevElem x with
        | error p => rw [hpe] at hy; cases hy
        | ok o =>
          rw [hpe] at hy
          cases hy
          cases o with
          | none => cases he
          | some z => rw [List.mem_singleton.1 he]; exact sd.prev (hl x hx) hpe
      split at hr
      · exact fun y hy => hp y ((filterR_mem hr y).1 hy).1
      · exact (hm.apply (fun x hx => (hp x hx).1) hr).el hp
  | siblings =>
    refine fin ?_
    rw [Visdom.selectByRule] at hr
    refine sd.flat hr fun x hx y hy => ?_
    have hxa := sd.pairs hl x hx
    split at hy
    · cases hy
    · rename_i ns hns
      have hp : ∀ y ∈ ns, El h T y := by
        split at hns
        · cases hns; exact fun c hc => child_el hxa hc
        · exact sd.siblings hxa hns
      exact (hm.apply (fun x hx => (hp x hx).1) hy).el hp

end

end Visdom
