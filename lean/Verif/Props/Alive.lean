import Verif.Model.Alive
import Verif.Props.After
/-!
# C70: sets work as long as the document is held
-/
namespace Visdom
open Spec

theorem filter_eq_self {o : Option Nat} {P : Nat → Prop} [DecidablePred P] : o.filter (fun x => decide (P x)) = o ↔ ∀ x, o = some x → P x := by
  cases o with
  | none => simp
  | some a =>
    by_cases h : P a
    · simp [Option.filter, h]
    · simp [Option.filter, h]

open scoped Classical in
theorem seenNode_eq {h : Heap} {M : Holds} {n : Node} : seenNode h M n = n ↔
    (∀ p, n.parent = some p → Live h M p) ∧ ∀ r, n.root = some r → r ∈ M.docs := by
  have e1 := filter_eq_self (o := n.parent) (P := fun p => Live h M p)
  have e2 := filter_eq_self (o := n.root) (P := fun r => Live h M r ∧ r ∈ M.docs)
  have hd : (∀ r, n.root = some r → Live h M r ∧ r ∈ M.docs) ↔ ∀ r, n.root = some r → r ∈ M.docs :=
    ⟨fun a r hr => (a r hr).2, fun a r hr => ⟨.doc (a r hr), a r hr⟩⟩
  rw [← e1, ← hd, ← e2]
  unfold seenNode
  constructor
  · intro he
    exact ⟨congrArg Node.parent he, congrArg Node.root he⟩
  · rintro ⟨h1, h2⟩
    obtain ⟨k, nm, at', ct, ch, pa, ix, rt⟩ := n
    simp only [Node.mk.injEq, true_and]
    exact ⟨h1, h2⟩

/-- The links of every node that is not freed lead to nodes that are not freed and to documents that are held. -/
def Closed (h : Heap) (M : Holds) : Prop :=
  ∀ x, Live h M x → (∀ p, h.parent x = some p → Live h M p) ∧ ∀ r, (h.node x).root = some r → r ∈ M.docs

/-- **C70** (exactly when): the program sees the heap as it stands, so that every query answers as if nothing was ever freed, if and
only if no link of a node in memory leads to a node or a document that is gone. -/
theorem C70_exact (h : Heap) (M : Holds) : seenHeap h M = h ↔ Closed h M := by
  constructor
  · intro he x hx
    have : (seenHeap h M).node x = h.node x := by rw [he]
    simp only [seenHeap, if_pos hx] at this
    exact seenNode_eq.1 this
  · intro hc
    obtain ⟨n, f⟩ := h
    unfold seenHeap
    congr 1
    funext x
    split
    · rename_i hx
      exact seenNode_eq.2 (hc x hx)
    · rfl

theorem live_within {h : Heap} {M : Holds} {r x : Nat} (hr : Live h M r) (hx : Within h r x) : Live h M x := by
  induction hx with
  | self => exact hr
  | step _ hc ih => exact .child ih hc

/-- **C70**, one node: in a document that is held every link is seen as it stands, except the link to another document. -/
theorem C70_node {h : Heap} {M : Holds} {r x : Nat} (wf : TreeWF h r) (hr : r ∈ M.docs) (hx : Within h r x)
    (hroot : ∀ q, (h.node x).root = some q → q ∈ M.docs) : (seenHeap h M).node x = h.node x := by
  have hl := live_within (.doc hr) hx
  simp only [seenHeap, if_pos hl]
  refine seenNode_eq.2 ⟨fun p hp => ?_, hroot⟩
  cases hx with
  | self =>
    have := wf.rootParent
    unfold Heap.parent at this
    rw [this] at hp
    cases hp
  | @step q c hq hc =>
    obtain ⟨i, hi⟩ := List.getElem?_of_mem hc
    have := (wf.link q i x hq hi).1
    unfold Heap.parent at this
    rw [this] at hp
    cases hp
    exact live_within (.doc hr) hq

/-- What is in memory when all held nodes are in held documents: just these documents and what else hangs on their roots. -/
theorem closed_of_held {h : Heap} {M : Holds} (U : Nat → Prop) (wf : ∀ r ∈ M.docs, ¬ U r → TreeWF h r)
    (top : ∀ r ∈ M.docs, U r → h.parent r = none ∧ (∀ q, (h.node r).root = some q → q ∈ M.docs) ∧
      ∀ c ∈ h.kids r, ∃ r' ∈ M.docs, ¬ U r' ∧ Within h r' c)
    (hn : ∀ x ∈ M.nodes, ∃ r ∈ M.docs, ¬ U r ∧ Within h r x)
    (hroot : ∀ r ∈ M.docs, ¬ U r → ∀ x, Within h r x → ∀ q, (h.node x).root = some q → q ∈ M.docs) : Closed h M := by
  have key : ∀ x, Live h M x → (x ∈ M.docs ∧ U x) ∨ ∃ r ∈ M.docs, ¬ U r ∧ Within h r x := by
    intro x hx
    induction hx with
    | @doc x hd =>
      by_cases hu : U x
      · exact .inl ⟨hd, hu⟩
      · exact .inr ⟨x, hd, hu, .self⟩
    | node hm => exact .inr (hn _ hm)
    | child _ hc ih =>
      rcases ih with ⟨a, b⟩ | ⟨r, a, b, c⟩
      · exact .inr ((top _ a b).2.2 _ hc)
      · exact .inr ⟨r, a, b, .step c hc⟩
  intro x hx
  rcases key x hx with ⟨a, b⟩ | ⟨r, a, b, c⟩
  · obtain ⟨t1, t2, -⟩ := top x a b
    exact ⟨fun p hp => by rw [t1] at hp; (cases hp), t2⟩
  · have := C70_node (wf r a b) a c (hroot r a b x c)
    simp only [seenHeap, if_pos hx] at this
    exact seenNode_eq.1 this

/-- **C70** (partial: the documents are held): as long as the program holds the documents of all nodes it holds, and the documents
their nodes came from, every query on whatever it holds answers as if nothing was ever freed. -/
theorem C70_held_partial {h : Heap} {M : Holds} (wf : ∀ r ∈ M.docs, TreeWF h r) (hn : ∀ x ∈ M.nodes, ∃ r ∈ M.docs, Within h r x)
    (hroot : ∀ r ∈ M.docs, ∀ x, Within h r x → ∀ q, (h.node x).root = some q → q ∈ M.docs) :
    ∀ {α : Type} (query : Heap → α), query (seenHeap h M) = query h := by
  intro α query
  rw [(C70_exact h M).2 (closed_of_held (fun _ => False) (fun r hr _ => wf r hr) (fun _ _ hf => hf.elim)
    (fun x hx => by obtain ⟨r, a, b⟩ := hn x hx; exact ⟨r, a, id, b⟩) (fun r hr _ => hroot r hr))]

/-- **C70** after any history of usable calls: the same for the heap the calls have left. Fragments whose nodes have been inserted are
to be held as well. -/
theorem C70_after_partial {e : Ext} (P : ParseOk e) {h : Heap} {D : Nat → Prop} (ok : HeapOk h D) {ops : List Op} (hh : History e h D ops)
    {M : Holds} (hd : ∀ r ∈ M.docs, (h.node r).kind = .root ∧ r < h.size) :
    ∃ h', runAll e h ops = .ok h' ∧
      ((∀ x ∈ M.nodes, ∃ r ∈ M.docs, ¬ UsedAll e h D ops r ∧ Within h' r x) →
        (∀ r ∈ M.docs, UsedAll e h D ops r → ∀ c ∈ h'.kids r, ∃ r' ∈ M.docs, ¬ UsedAll e h D ops r' ∧ Within h' r' c) →
        (∀ r ∈ M.docs, ∀ x, Within h' r x → ∀ q, (h'.node x).root = some q → q ∈ M.docs) →
        ∀ {α : Type} (query : Heap → α), query (seenHeap h' M) = query h') := by
  obtain ⟨h', hr, ok'⟩ := history_ok P ops h D ok hh
  obtain ⟨a1, a2, -⟩ := runAll_same P ops h h' hr
  have hkind : ∀ r ∈ M.docs, (h'.node r).kind = .root := fun r hm => by rw [(a2 r (hd r hm).2).1]; exact (hd r hm).1
  refine ⟨h', hr, fun hn hu hroot α query => ?_⟩
  rw [(C70_exact h' M).2 (closed_of_held (UsedAll e h D ops) (fun r hm hnu => ok'.tree (hkind r hm) hnu (Nat.lt_of_lt_of_le (hd r hm).2 a1))
    (fun r hm hus => ⟨ok'.top r (hkind r hm), hroot r hm r .self, hu r hm hus⟩) hn (fun r hm _ => hroot r hm))]

/-- **C70**, what stays in any case: below a held element of a well formed tree nothing is lost but the link to the document. -/
theorem C70_below {h : Heap} {M : Holds} {r x y : Nat} (wf : TreeWF h r) (hx : Within h r x) (hm : x ∈ M.nodes) (hy : Below h x y) :
    (seenHeap h M).kids x = h.kids x ∧ (seenHeap h M).kids y = h.kids y ∧ (seenHeap h M).parent y = h.parent y ∧
      (seenHeap h M).index y = h.index y ∧ ((seenHeap h M).node y).kind = (h.node y).kind ∧ ((seenHeap h M).node y).name = (h.node y).name ∧
      ((seenHeap h M).node y).attrs = (h.node y).attrs ∧ ((seenHeap h M).node y).content = (h.node y).content := by
  have hlx : Live h M x := .node hm
  obtain ⟨c, hc, hcy⟩ := hy
  have hw : Within h x y := by
    clear hlx hm
    induction hcy with
    | self => exact .step .self hc
    | step _ hk ih => exact .step ih hk
  have hly := live_within hlx hw
  have hpar : ∃ p, Live h M p ∧ h.parent y = some p := by
    cases hcy with
    | self =>
      obtain ⟨i, hi⟩ := List.getElem?_of_mem hc
      exact ⟨x, hlx, (wf.link x i _ hx hi).1⟩
    | @step q _ hq hk =>
      obtain ⟨i, hi⟩ := List.getElem?_of_mem hk
      have hxq : Within h x q := by
        clear hk hi hly hw
        induction hq with
        | self => exact .step .self hc
        | step _ hk ih => exact .step ih hk
      have : Within h r q := by
        clear hk hi hly hw hq
        induction hxq with
        | self => exact hx
        | step _ hk ih => exact .step ih hk
      exact ⟨q, live_within hlx hxq, (wf.link q i _ this hi).1⟩
  obtain ⟨p, hp, hpe⟩ := hpar
  unfold Heap.parent at hpe
  refine ⟨?_, ?_, ?_, ?_, ?_, ?_, ?_, ?_⟩ <;>
    simp only [seenHeap, Heap.kids, Heap.parent, Heap.index, if_pos hly, if_pos hlx, seenNode]
  rw [hpe]
  simp [Option.filter, hp]

/-- **C70 fails**, what is lost in any case: when no document is held, no node knows its document, and an element whose parent is not
in memory has none. -/
theorem C70_fails_links {h : Heap} {M : Holds} (hd : M.docs = []) {x : Nat} (hx : Live h M x) :
    ((seenHeap h M).node x).root = none ∧ ∀ p, h.parent x = some p → ¬ Live h M p → (seenHeap h M).parent x = none := by
  constructor
  · simp only [seenHeap, if_pos hx, seenNode, hd]
    cases (h.node x).root <;> simp [Option.filter, hd]
  · intro p hp hn
    unfold Heap.parent at hp
    simp only [seenHeap, Heap.parent, if_pos hx, seenNode, hp]
    simp [Option.filter, hn]

/-! ## Concrete memories -/

/-- The list holds exactly the nodes in memory: it holds what is held and the children of what it holds, and each of its members is
held or the child of one before it. -/
def liveCheck (h : Heap) (M : Holds) (L : List Nat) : Bool :=
  (M.docs ++ M.nodes).all (L.contains ·) && L.all (fun p => (h.kids p).all (L.contains ·)) &&
  (List.range L.length).all fun i =>
    match L[i]? with
    | none => true
    | some x => (M.docs ++ M.nodes).contains x || (L.take i).any fun p => (h.kids p).contains x

theorem liveCheck_sound {h : Heap} {M : Holds} {L : List Nat} (hc : liveCheck h M L = true) (x : Nat) : Live h M x ↔ x ∈ L := by
  simp only [liveCheck, Bool.and_eq_true, List.all_eq_true, List.contains_iff_mem, List.mem_range] at hc
  obtain ⟨⟨h1, h2⟩, h3⟩ := hc
  constructor
  · intro hx
    induction hx with
    | doc hd => exact h1 _ (List.mem_append_left _ hd)
    | node hm => exact h1 _ (List.mem_append_right _ hm)
    | child _ hk ih => exact h2 _ ih _ hk
  · intro hx
    obtain ⟨i, hi⟩ := List.getElem?_of_mem hx
    induction i using Nat.strongRecOn generalizing x with
    | _ i ih =>
      have hl : i < L.length := by
        rcases Nat.lt_or_ge i L.length with h4 | h4
        · exact h4
        · rw [List.getElem?_eq_none h4] at hi; cases hi
      have := h3 i hl
      rw [hi] at this
      simp only [Bool.or_eq_true, List.contains_iff_mem, List.any_eq_true] at this
      rcases this with h4 | ⟨p, hp, hk⟩
      · rcases List.mem_append.1 h4 with h4 | h4
        · exact .doc h4
        · exact .node h4
      · obtain ⟨j, hj⟩ := List.getElem?_of_mem hp
        have hji : j < i := by
          by_contra hge
          rw [List.getElem?_eq_none (by simp; omega)] at hj
          cases hj
        rw [List.getElem?_take_of_lt hji] at hj
        exact .child (ih j hji p (List.mem_of_getElem? hj) hj) hk

/-- `seenHeap` for a given list of the nodes in memory. -/
def seenWith (h : Heap) (docs L : List Nat) : Heap :=
  { size := h.size, node := fun x => if x ∈ L then
      { h.node x with parent := (h.node x).parent.filter (L.contains ·), root := (h.node x).root.filter (docs.contains ·) } else h.node x }

theorem seenWith_eq {h : Heap} {M : Holds} {L : List Nat} (hc : liveCheck h M L = true) : seenHeap h M = seenWith h M.docs L := by
  have hl := liveCheck_sound hc
  unfold seenHeap seenWith seenNode
  congr 1
  funext x
  by_cases hx : x ∈ L
  · rw [if_pos ((hl x).2 hx), if_pos hx]
    congr 1
    · congr 1
      funext p
      rw [Bool.eq_iff_iff]
      simp [hl]
    · congr 1
      funext p
      rw [Bool.eq_iff_iff]
      simp only [decide_eq_true_eq, List.contains_iff_mem]
      exact ⟨fun h => h.2, fun h => ⟨.doc h, h⟩⟩
  · rw [if_neg (fun h => hx ((hl x).1 h)), if_neg hx]

/-- `<div><p><b></b></p></div><div><p><b></b></p></div>` -/
def twins : Heap := heapOf
  [rootN [1, 4], el "div" 0 0 [2], el "p" 1 0 [3], el "b" 2 0, el "div" 0 1 [5], el "p" 4 0 [6], el "b" 5 0]

theorem twins_wf : TreeWF twins 0 := wfCheck_sound (by decide)

/-- **C70 fails**: `find("p")`, then the set that `load` returned is dropped. With the document held, `find("b")` from the two
paragraphs gives both, `is("div p")` is true and `parent("")` gives the divisions. Afterwards `find("b")` panics, because both
paragraphs look like the same node, `is("div p")` is false and there is no parent. -/
theorem C70_fails_dropped :
    find twins env0 [2, 5] [[(.childrenAll, [ty "b"])]] = .ok [3, 6] ∧
    isQ twins env0 [2, 5] [[(.childrenAll, [ty "div"]), (.childrenAll, [ty "p"])]] = .ok true ∧
    parentQ twins env0 [2, 5] none = .ok [1, 4] ∧
    find (seenHeap twins ⟨[], [2, 5]⟩) env0 [2, 5] [[(.childrenAll, [ty "b"])]] = .error .unreachableCode ∧
    isQ (seenHeap twins ⟨[], [2, 5]⟩) env0 [2, 5] [[(.childrenAll, [ty "div"]), (.childrenAll, [ty "p"])]] = .ok false ∧
    parentQ (seenHeap twins ⟨[], [2, 5]⟩) env0 [2, 5] none = .ok [] := by
  rw [seenWith_eq (L := [2, 5, 3, 6]) (by decide)]
  decide

/-- **C70 fails**: the fragment appended in `twoOps` is not held any more; the document is. Its element is in place, but does not know
a document, so `is("div b")` is false. -/
theorem C70_fails_fragment : Below twoAfter 1 4 ∧ find (seenHeap twoAfter ⟨[0], []⟩) env0 [0] [divB] = .ok [4] ∧
    isQ (seenHeap twoAfter ⟨[0], []⟩) env0 [4] [divB] = .ok false ∧ ((seenHeap twoAfter ⟨[0], []⟩).node 4).root = none := by
  rw [seenWith_eq (L := [0, 1, 2, 4, 5]) (by decide)]
  exact ⟨⟨4, by decide, .self⟩, by decide, by decide, by decide⟩

/-- The case of `C70_held_partial`: the document is held, and nodes of it. -/
example : find (seenHeap twins ⟨[0], [2, 5]⟩) env0 [2, 5] [[(.childrenAll, [ty "b"])]] = .ok [3, 6] := by
  rw [C70_held_partial (M := ⟨[0], [2, 5]⟩) (h := twins) (by simpa using twins_wf) ?_ ?_
    (fun h => find h env0 [2, 5] [[(.childrenAll, [ty "b"])]])]
  · decide
  · intro x hx
    refine ⟨0, by simp, ?_⟩
    rcases List.mem_cons.1 hx with rfl | hx
    · exact wfCheck_within [0, 1] (by decide) rfl
    · rw [List.mem_singleton.1 hx]; exact wfCheck_within [0, 4] (by decide) rfl
  · intro r hr x hx q hq
    obtain rfl := List.mem_singleton.1 hr
    have hb := twins_wf.bound x hx
    have : ∀ x, x < 7 → (twins.node x).root = some 0 := by decide
    rw [this x hb] at hq
    cases hq
    simp

end Visdom
