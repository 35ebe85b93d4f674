import Verif.Proofs.CopiesTops
import Verif.Props.Mirror
import Verif.Props.Isolation
import Verif.Model.Document
/-!
# C83: queries depend on nothing but the trees they look at
-/
namespace Visdom
open Spec
variable {h h' : Heap} {T : Nat → Prop} {f : Nat → Nat} {env env' : Env} {own own' : Nat → Bool}

/-- The copy of an answer: the nodes are replaced by their copies, the number of reports stays. -/
def copyNodes (f : Nat → Nat) (r : R (List Nat × Nat)) : R (List Nat × Nat) := r.map fun p => (p.1.map f, p.2)

/-- All questions with selectors to the set `X` of nodes, in one state, and to the set of their copies in another one: the answer to the second question is
the copy of the answer to the first one. It is the same panic if the first question panics, the number of reports is the same, and the order of the nodes is
the same. `t` and `u` may be any texts, selectors or not. -/
structure Alike (h h' : Heap) (env env' : Env) (own own' : Nat → Bool) (f : Nat → Nat) (X : List Nat) : Prop where
  find : ∀ t, findText h' env' own' (X.map f) t = copyNodes f (findText h env own X t)
  filter : ∀ t, filterText h' env' own' (X.map f) t = copyNodes f (filterText h env own X t)
  not : ∀ t, notText h' env' own' (X.map f) t = copyNodes f (notText h env own X t)
  has : ∀ t, hasText h' env' own' (X.map f) t = copyNodes f (hasText h env own X t)
  is : ∀ t, isText h' env' own' (X.map f) t = isText h env own X t
  isAll : ∀ t, isAllText h' env' own' (X.map f) t = isAllText h env own X t
  children : ∀ t, childrenText h' env' own' (X.map f) t = copyNodes f (childrenText h env own X t)
  prev : ∀ t, prevText h' env' own' (X.map f) t = copyNodes f (prevText h env own X t)
  next : ∀ t, nextText h' env' own' (X.map f) t = copyNodes f (nextText h env own X t)
  prevAll : ∀ t, prevAllText h' env' own' (X.map f) t = copyNodes f (prevAllText h env own X t)
  nextAll : ∀ t, nextAllText h' env' own' (X.map f) t = copyNodes f (nextAllText h env own X t)
  parent : ∀ t, parentText h' env' own' (X.map f) t = copyNodes f (parentText h env own X t)
  parents : ∀ t, parentsText h' env' own' (X.map f) t = copyNodes f (parentsText h env own X t)
  siblings : ∀ t, siblingsText h' env' own' (X.map f) t = copyNodes f (siblingsText h env own X t)
  closest : ∀ t, closestText h' env' own' (X.map f) t = copyNodes f (closestText h env own X t)
  prevUntil : ∀ t u b, prevUntilText h' env' own' (X.map f) t u b = copyNodes f (prevUntilText h env own X t u b)
  nextUntil : ∀ t u b, nextUntilText h' env' own' (X.map f) t u b = copyNodes f (nextUntilText h env own X t u b)
  parentsUntil : ∀ t u b, parentsUntilText h' env' own' (X.map f) t u b = copyNodes f (parentsUntilText h env own X t u b)

theorem ERel.copy {a b : R (List Nat × Nat)} (hab : ERel (NRel (LRel h T f)) a b) : b = copyNodes f a := by
  cases hab with
  | err p => rfl
  | ok hp =>
    obtain ⟨⟨h1, -⟩, h2⟩ := hp
    exact congrArg Except.ok (Prod.ext h1 h2)

theorem ERel.same {a b : R (Bool × Nat)} (hab : ERel (NRel (· = ·)) a b) : b = a := by
  cases hab with
  | err p => rfl
  | ok hp => exact congrArg Except.ok (Prod.ext hp.1.symm hp.2)

theorem ERel.among {a b : R (List Nat × Nat)} (hab : ERel (NRel (LRel h T f)) a b) {l : List Nat} {k : Nat} (ha : a = .ok (l, k)) : ∀ x ∈ l, Among h T x := by
  cases hab with
  | err p => cases ha
  | ok hp => cases ha; exact hp.1.2

/-- **C83**: a state and a copy of it in which the nodes have other identities give the same answers to all questions with selectors, for every text and every
set of nodes. What is outside of the trees, the identities of the nodes, and the state's history do not matter. -/
theorem C83_copies (cp : Copies h h' T f env env') (ho : ∀ x, Among h T x → own' (f x) = own x) {X : List Nat} (hX : ∀ x ∈ X, Among h T x) :
    Alike h h' env env' own own' f X := by
  have hl : LRel h T f X (X.map f) := ⟨rfl, hX⟩
  exact ⟨fun t => (cp.findText ho hl t).copy, fun t => (cp.filterText ho hl t).copy, fun t => (cp.notText ho hl t).copy, fun t => (cp.hasText ho hl t).copy,
    fun t => (cp.isText ho hl t).same, fun t => (cp.isAllText ho hl t).same, fun t => (cp.childrenText ho hl t).copy, fun t => (cp.prevText ho hl t).copy,
    fun t => (cp.nextText ho hl t).copy, fun t => (cp.prevAllText ho hl t).copy, fun t => (cp.nextAllText ho hl t).copy, fun t => (cp.parentText ho hl t).copy,
    fun t => (cp.parentsText ho hl t).copy, fun t => (cp.siblingsText ho hl t).copy, fun t => (cp.closestText ho hl t).copy,
    fun t u b => (cp.prevUntilText ho hl t u b).copy, fun t u b => (cp.nextUntilText ho hl t u b).copy, fun t u b => (cp.parentsUntilText ho hl t u b).copy⟩

/-- C83: no question leads out of the trees: whatever is found in a set of trees is in one of these trees. -/
theorem C83_inside (cp : Copies h h' T f env env') (ho : ∀ x, Among h T x → own' (f x) = own x) {X : List Nat} (hX : ∀ x ∈ X, Among h T x) (t u : List Char) (b : Bool)
    {Y : List Nat} {k : Nat} (hY : findText h env own X t = .ok (Y, k) ∨ filterText h env own X t = .ok (Y, k) ∨ notText h env own X t = .ok (Y, k) ∨
      hasText h env own X t = .ok (Y, k) ∨ childrenText h env own X t = .ok (Y, k) ∨ prevText h env own X t = .ok (Y, k) ∨ nextText h env own X t = .ok (Y, k) ∨
      prevAllText h env own X t = .ok (Y, k) ∨ nextAllText h env own X t = .ok (Y, k) ∨ parentText h env own X t = .ok (Y, k) ∨
      parentsText h env own X t = .ok (Y, k) ∨ siblingsText h env own X t = .ok (Y, k) ∨ closestText h env own X t = .ok (Y, k) ∨
      prevUntilText h env own X t u b = .ok (Y, k) ∨ nextUntilText h env own X t u b = .ok (Y, k) ∨ parentsUntilText h env own X t u b = .ok (Y, k)) :
    ∀ y ∈ Y, Among h T y := by
  have hl : LRel h T f X (X.map f) := ⟨rfl, hX⟩
  rcases hY with hY | hY | hY | hY | hY | hY | hY | hY | hY | hY | hY | hY | hY | hY | hY | hY
  · exact (cp.findText ho hl t).among hY
  · exact (cp.filterText ho hl t).among hY
  · exact (cp.notText ho hl t).among hY
  · exact (cp.hasText ho hl t).among hY
  · exact (cp.childrenText ho hl t).among hY
  · exact (cp.prevText ho hl t).among hY
  · exact (cp.nextText ho hl t).among hY
  · exact (cp.prevAllText ho hl t).among hY
  · exact (cp.nextAllText ho hl t).among hY
  · exact (cp.parentText ho hl t).among hY
  · exact (cp.parentsText ho hl t).among hY
  · exact (cp.siblingsText ho hl t).among hY
  · exact (cp.closestText ho hl t).among hY
  · exact (cp.prevUntilText ho hl t u b).among hY
  · exact (cp.nextUntilText ho hl t u b).among hY
  · exact (cp.parentsUntilText ho hl t u b).among hY

/-- C83 for the calls that take a second set instead of a selector. -/
theorem C83_sets (cp : Copies h h' T f env env') {X Y : List Nat} (hX : ∀ x ∈ X, Among h T x) (hY : ∀ x ∈ Y, Among h T x) :
    addElems h' (X.map f) (Y.map f) = (addElems h X Y).map (List.map f) ∧
    hasIn h' (X.map f) (Y.map f) = (hasIn h X Y).map (List.map f) ∧
    notIn (X.map f) (Y.map f) = (notIn X Y).map f ∧ filterIn (X.map f) (Y.map f) = (filterIn X Y).map f ∧
    isIn (X.map f) (Y.map f) = isIn X Y ∧ isAllIn (X.map f) (Y.map f) = isAllIn X Y := by
  have hl : LRel h T f X (X.map f) := ⟨rfl, hX⟩
  have hm : LRel h T f Y (Y.map f) := ⟨rfl, hY⟩
  have key : ∀ {a b : R (List Nat)}, ERel (LRel h T f) a b → b = a.map (List.map f) := fun hab => by
    cases hab with
    | err p => rfl
    | ok hp => exact congrArg Except.ok hp.1
  exact ⟨key (cp.addElems hl hm), key (cp.hasIn hm hl), (cp.notIn hl hm).1, (cp.filterIn hl hm).1, cp.isIn hl hm, cp.isAllIn hl hm⟩

/-- C83 for the four accessors of a document. -/
theorem C83_document (cp : Copies h h' T f env env') (ho : ∀ x, Among h T x → own' (f x) = own x) {r : Nat} (hr : T r) :
    documentElement h' env' own' (f r) = (documentElement h env own r).map (Option.map f) ∧
    docHead h' env' own' (f r) = (docHead h env own r).map (Option.map f) ∧
    docBody h' env' own' (f r) = (docBody h env own r).map (Option.map f) ∧
    docTitle h' env' own' (f r) = docTitle h env own r := by
  have hl : LRel h T f [r] [f r] := ⟨rfl, fun x hx => by simp only [List.mem_singleton] at hx; subst hx; exact ⟨x, hr, .self⟩⟩
  have first : ∀ n, docFirst h' env' own' (f r) n = (docFirst h env own r n).map (Option.map f) := fun n => by
    unfold docFirst
    rw [(cp.findText ho hl n).copy]
    cases findText h env own [r] n with
    | error e => rfl
    | ok p => exact congrArg Except.ok (by simp)
  refine ⟨first _, first _, first _, ?_⟩
  unfold docTitle
  have h1 := cp.findText ho hl "head".toList
  generalize findText h env own [r] "head".toList = A, findText h' env' own' [f r] "head".toList = A' at h1
  cases h1 with
  | err p => rfl
  | ok hp =>
    rename_i a b
    obtain ⟨⟨h1, h2⟩, h3⟩ := hp
    have he : LRel h T f (eqAt a.1 0) (eqAt b.1 0) := by
      rw [h1]
      unfold eqAt
      rw [List.getElem?_map]
      cases ha : a.1[0]? with
      | none => exact .nil
      | some x => exact ⟨rfl, fun y hy => by simp only [List.mem_singleton] at hy; subst hy; exact h2 y (List.mem_of_getElem? ha)⟩
    have h4 := cp.findText ho he "title".toList
    simp only
    generalize findText h env own (eqAt a.1 0) "title".toList = B, findText h' env' own' (eqAt b.1 0) "title".toList = B' at h4
    cases h4 with
    | err p => rfl
    | ok hq =>
      rename_i c d
      obtain ⟨⟨h5, h6⟩, h7⟩ := hq
      simp only [h5, List.isEmpty_map, textOfAll, List.flatMap_map]
      have key : c.1.flatMap (fun x => env'.text (f x)) = c.1.flatMap env.text := List.flatMap_congr fun x hx => cp.text x (h6 x hx)
      rw [key]

/-! ### Two states with the same lists -/

section
variable {D : Nat → Prop} {e : Ext}

/-- The documents and the fragments that are not used up. -/
def LiveTop (h : Heap) (D : Nat → Prop) (r : Nat) : Prop := (h.node r).kind = .root ∧ ¬ D r ∧ r < h.size

/-- What `get_element_by_id` finds is in a document or in an unused fragment. -/
def FoundLive (h : Heap) (D : Nat → Prop) (env : Env) : Prop :=
  ∀ x q i y, Among h (LiveTop h D) x → (h.node x).root = some q → env.byId q i = some y → Among h (LiveTop h D) y

theorem copies_states (ok : HeapOk h D) (ok' : HeapOk h' D) (hk : ∀ q, ¬ D q → h'.kids q = h.kids q) (hs : SameData h h') (hsz : h'.size = h.size)
    (ht : TopsKept h h') (hf : FoundLive h D env) : Copies h h' (LiveTop h D) id env env := by
  have hl : ∀ x, Among h (LiveTop h D) x → ¬ D x := fun x ⟨r, hr, hx⟩ => within_live ok hr.2.1 hx
  exact {
    wf := fun r hr => ok.tree hr.1 hr.2.1 hr.2.2
    wf' := fun r hr => ok'.tree ((hs r).1.trans hr.1) hr.2.1 (by rw [hsz]; exact hr.2.2)
    kids := fun x hx => by rw [List.map_id]; exact hk x (hl x hx)
    data := fun x _ => ⟨(hs x).1, (hs x).2.1, (hs x).2.2.1⟩
    top := fun r hr => ht r hr.1
    root := fun x _ => by rw [Option.map_id]; exact (hs x).2.2.2.2
    apart := fun x y _ _ hxy => hxy
    byId := fun x q i _ _ => by rw [Option.map_id]; rfl
    found := hf
    isDoc := fun _ _ => rfl
    text := fun _ _ => rfl }

/-- C83: two states with the same lists of children, the same data and the same positions of documents and fragments answer everything alike. -/
theorem C83_states (ok : HeapOk h D) (ok' : HeapOk h' D) (hk : ∀ q, ¬ D q → h'.kids q = h.kids q) (hs : SameData h h') (hsz : h'.size = h.size)
    (ht : TopsKept h h') (hf : FoundLive h D env) (own : Nat → Bool) {X : List Nat} (hX : ∀ x ∈ X, Among h (LiveTop h D) x) : Alike h h' env env own own id X :=
  C83_copies (copies_states ok ok' hk hs hsz ht hf) (fun _ _ => rfl) hX

/-- **C83 after a move there and back**: every question with every text gets the answer it would have got before, in the same order. -/
theorem C83_there_and_back (ok : HeapOk h D) {pos pos' : InsertPosition} {t t' n : Nat} (u : Usable e h D (.insert pos t n))
    (ha : Accepted e h t n) (hk : (h.node n).kind ≠ .root) (w : Welcome e h pos t [n])
    (ht' : Attached h D t' ∧ t' < h.size) (ha' : Accepted e h t' n) (w' : Welcome e h pos' t' [n]) (st : Stands h D t' n pos') :
    ∃ h1 h2, h.insertAdjacent e pos t n = .ok h1 ∧ h1.insertAdjacent e pos' t' n = .ok h2 ∧
      ∀ (env : Env) (own : Nat → Bool) (X : List Nat), FoundLive h D env → (∀ x ∈ X, Among h (LiveTop h D) x) → Alike h h2 env env own own id X := by
  obtain ⟨h1, h2, r1, r2, hkids, hdata, ok2⟩ := C75_there_and_back_partial ok u ha hk w ht' ha' w' st
  obtain ⟨g1, s1, kept, -, -⟩ := insert_place ok u ha hk w
  rw [r1] at s1; cases s1
  have u' : Usable e h1 D (.insert pos' t' n) :=
    ⟨kept.attached t' ht'.2 ht'.1, kept.attached n u.2.2.2.1 u.2.1, u.2.2.1, Nat.lt_of_lt_of_le u.2.2.2.1 kept.size, Nat.lt_of_lt_of_le ht'.2 kept.size⟩
  have tp := (tops_insert ok u ha hk r1).trans kept.data
    (tops_insert kept.ok u' (accepted_again r1 hk kept.data ha') (by rw [(kept.data n).1]; exact hk) r2)
  exact ⟨h1, h2, r1, r2, fun env own X hf hX => C83_states ok ok2 hkids hdata
    (by rw [(data_insertAdjacent r2).size, (data_insertAdjacent r1).size]) tp hf own hX⟩

/-- C83 after removals in any order. -/
theorem C83_removals (ok : HeapOk h D) {X Y : List Nat} (hX : ∀ x ∈ X, Attached h D x) (hnd : X.Nodup) (hp : X.Perm Y) :
    ∃ h1 h2, removeAll h X = .ok h1 ∧ removeAll h Y = .ok h2 ∧
      ∀ (env : Env) (own : Nat → Bool) (S : List Nat), FoundLive h1 D env → (∀ x ∈ S, Among h1 (LiveTop h1 D) x) → Alike h1 h2 env env own own id S := by
  obtain ⟨h1, r1, k1, d1, ok1, z1⟩ := removeAll_ok X h ok hX hnd
  have hY : ∀ y ∈ Y, Attached h D y := fun y hy => hX y (hp.mem_iff.2 hy)
  obtain ⟨h2, r2, k2, d2, ok2, z2⟩ := removeAll_ok Y h ok hY (hp.nodup_iff.1 hnd)
  obtain ⟨g1, g2, s1, s2, hkids, hdata, -⟩ := C81_removals (rd := rd0) (e := ext0) ok hX hnd hp
  rw [r1] at s1; rw [r2] at s2; cases s1; cases s2
  have t1 := tops_removeAll X ok hX hnd r1
  have t2 := tops_removeAll Y ok hY (hp.nodup_iff.1 hnd) r2
  refine ⟨h1, h2, r1, r2, fun env own S hf hS => C83_states ok1 ok2 (fun q hq => (hkids q hq).symm) (fun x => ?_) (by omega) (fun z hz => ?_) hf own hS⟩
  · obtain ⟨a1, a2, a3, a4, a5⟩ := hdata x
    exact ⟨a1.symm, a2.symm, a3.symm, a4.symm, a5.symm⟩
  · have hz' : (h.node z).kind = .root := (d1 z).1 ▸ hz
    rw [t1 z hz', t2 z hz']

/-- C83 after two insertions in either order. -/
theorem C83_inserts (ok : HeapOk h D) {pos pos' : InsertPosition} {t t' n n' : Nat} (u : Usable e h D (.insert pos t n))
    (u' : Usable e h D (.insert pos' t' n')) (ha : Accepted e h t n) (ha' : Accepted e h t' n') (hk : (h.node n).kind ≠ .root)
    (hk' : (h.node n').kind ≠ .root) (w : Welcome e h pos t [n]) (w' : Welcome e h pos' t' [n']) (hn : n ≠ n') (hp : ¬ (pos = pos' ∧ t = t'))
    (f1 : t ≠ n' ∧ ¬ Above h n' t) (f2 : t' ≠ n ∧ ¬ Above h n t') :
    ∃ h1 h2 g1 g2, h.insertAdjacent e pos t n = .ok h1 ∧ h1.insertAdjacent e pos' t' n' = .ok h2 ∧
      h.insertAdjacent e pos' t' n' = .ok g1 ∧ g1.insertAdjacent e pos t n = .ok g2 ∧
      ∀ (env : Env) (own : Nat → Bool) (X : List Nat), FoundLive h2 D env → (∀ x ∈ X, Among h2 (LiveTop h2 D) x) → Alike h2 g2 env env own own id X := by
  obtain ⟨h1, h2, g1, g2, r1, r2, s1, s2, hkids, -, hdata, ok1, ok2, -⟩ := C81_inserts_partial (rd := rd0) ok u u' ha ha' hk hk' w w' hn hp f1 f2
  have z1 : h2.size = h.size := by rw [(data_insertAdjacent r2).size, (data_insertAdjacent r1).size]
  have z2 : g2.size = h.size := by rw [(data_insertAdjacent s2).size, (data_insertAdjacent s1).size]
  obtain ⟨k1, v1, kept1, -, p1, -⟩ := insert_put ok u ha hk w
  obtain ⟨k2, v2, keptg1, -, q1, -⟩ := insert_put ok u' ha' hk' w'
  rw [r1] at v1; cases v1
  rw [s1] at v2; cases v2
  obtain ⟨a1, a2, a3, a4⟩ := insert_still kept1 r1 hk p1 u' ha' hk' w' f2.1 f2.2
  obtain ⟨b1, b2, b3, b4⟩ := insert_still keptg1 s1 hk' q1 u ha hk w f1.1 f1.2
  have t1 := (tops_insert ok u ha hk r1).trans kept1.data (tops_insert kept1.ok a1 a2 a3 r2)
  have t2 := (tops_insert ok u' ha' hk' s1).trans keptg1.data (tops_insert keptg1.ok b1 b2 b3 s2)
  have dh2 : SameData h h2 := kept1.data.trans (data_insertAdjacent r2).same
  refine ⟨h1, h2, g1, g2, r1, r2, s1, s2, fun env own X hf hX => C83_states ok1 ok2 (fun q hq => (hkids q hq).symm) (fun x => ?_) (by omega) (fun z hz => ?_) hf own hX⟩
  · obtain ⟨a1, a2, a3, a4, a5⟩ := hdata x
    exact ⟨a1.symm, a2.symm, a3.symm, a4.symm, a5.symm⟩
  · have hz' : (h.node z).kind = .root := (dh2 z).1 ▸ hz
    rw [t1 z hz', t2 z hz']

/-! ### Calls about other nodes -/

/-- Two states in which the trees are the same nodes. -/
theorem copies_same (hwf : ∀ r, T r → TreeWF h r) (hsz : h.size ≤ h'.size) (hs : ∀ x, Among h T x → h'.node x = h.node x)
    (hf : ∀ x q i y, Among h T x → (h.node x).root = some q → env.byId q i = some y → Among h T y) : Copies h h' T id env env := by
  have hk : ∀ x, Among h T x → h'.kids x = h.kids x := fun x hx => by unfold Heap.kids; rw [hs x hx]
  exact {
    wf := hwf
    wf' := fun r hr => (show Agree h h' r from fun x hx => hs x ⟨r, hr, hx⟩).treeWF hsz (hwf r hr)
    kids := fun x hx => by rw [List.map_id]; exact hk x hx
    data := fun x hx => by rw [id, hs x hx]; exact ⟨rfl, rfl, rfl⟩
    top := fun r hr => by unfold Heap.index; rw [id, hs r ⟨r, hr, .self⟩]
    root := fun x hx => by rw [Option.map_id, id, hs x hx]; rfl
    apart := fun x y _ _ hxy => hxy
    byId := fun x q i _ _ => by rw [Option.map_id]; rfl
    found := hf
    isDoc := fun _ _ => rfl
    text := fun _ _ => rfl }

theorem within_mem {Z : Nat → Prop} (hZ : ∀ x c, Z x → c ∈ h.kids x → Z c) {r x : Nat} (hr : Z r) (hx : Within h r x) : Z x := by
  induction hx with
  | self => exact hr
  | step _ hc ih => exact hZ _ _ ih hc

/-- **C63, C83**: whatever calls are made about nodes of other documents and fragments, any number in any order, every later question about a document gets the
answer it would have got before: every method, every text, every set of its nodes. Missing, as for `C63_document_partial`: heaps in which a fragment has been
used before (`C63_fails_used`). -/
theorem C63_answers_partial {w : World} (ok : w.Ok) (hok : HeapOk h noneUsed) {r : Nat} (hk : (h.node r).kind = .root) (hb : r < h.size) {cs : List Call}
    (hg : ∀ c ∈ cs, ∀ x ∈ c.given, ¬ Belongs h r x) (hr : callAll w h cs = .ok h')
    (hf : ∀ x q i y, Within h r x → (h.node x).root = some q → env.byId q i = some y → Within h r y) (own : Nat → Bool)
    {X : List Nat} (hX : ∀ x ∈ X, Within h r x) : Alike h h' env env own own id X := by
  have k := keep_callAll ok cs h (belongs_separate hok hk hb).out hg hr
  have am : ∀ x, Among h (· = r) x → Within h r x := fun x ⟨_, h1, h2⟩ => h1 ▸ h2
  exact C83_copies (copies_same (T := (· = r)) (fun q hq => hq ▸ hok.tree hk id hb) k.size (fun x hx => k.same x (within_belongs hok (am x hx)))
    fun x q i y hx h1 h2 => ⟨r, rfl, hf x q i y (am x hx) h1 h2⟩) (fun _ _ => rfl) fun x hx => ⟨r, rfl, hX x hx⟩

/-- C83: the same for any part of the heap without links to and from the rest, also after calls with handles that are out of place. -/
theorem C83_elsewhere {w : World} (ok : w.Ok) {Z : Nat → Prop} (a : Separate h Z) {cs : List Call} (hg : ∀ c ∈ cs, ∀ x ∈ c.given, ¬ Z x)
    (hr : callAll w h cs = .ok h') (hT : ∀ r, T r → Z r ∧ TreeWF h r)
    (hf : ∀ x q i y, Among h T x → (h.node x).root = some q → env.byId q i = some y → Among h T y) (own : Nat → Bool)
    {X : List Nat} (hX : ∀ x ∈ X, Among h T x) : Alike h h' env env own own id X := by
  have k := keep_callAll ok cs h a.out hg hr
  refine C83_copies (copies_same (fun r hr => (hT r hr).2) k.size (fun x hx => k.same x ?_) hf) (fun _ _ => rfl) hX
  obtain ⟨r, h1, h2⟩ := hx
  exact within_mem (fun u c hu hc => (a.kids u c hc).1 hu) (hT r h1).1 h2

end

/-! ### Examples -/

/-- What `env6` says, for the shifted copy. -/
def env9 : Env := ⟨fun _ i => if i = "x".toList then some 9 else none, fun _ => true, fun _ => []⟩

theorem shifted_copies : Copies demo shifted (· = 0) (· + 3) env6 env9 where
  wf := by rintro r rfl; exact demo_wf
  wf' := by rintro r rfl; exact shifted_wf
  kids := fun x ⟨r, hr, hx⟩ => by subst hr; exact shifted_mirror.kids x hx
  data := fun x ⟨r, hr, hx⟩ => by subst hr; exact shifted_mirror.data x hx
  top := by rintro r rfl; rfl
  root := fun x _ => by simp [shifted]
  apart := fun x y _ _ hxy => by simpa using hxy
  byId := fun x q i _ _ => by
    simp only [env6, env9]
    split <;> rfl
  found := fun x q i y _ _ hy => by
    simp only [env6] at hy
    split at hy
    · cases hy; exact ⟨0, rfl, wfCheck_within [0, 1, 5] (by decide) rfl⟩
    · cases hy
  isDoc := fun _ _ => rfl
  text := fun _ _ => rfl

/-- In the shifted copy of `demo` every text is answered alike. -/
theorem shifted_alike : Alike demo shifted env6 env9 (fun _ => true) (fun _ => true) (· + 3) [1, 8] :=
  C83_copies (X := [1, 8]) (own := fun _ => true) (own' := fun _ => true) shifted_copies (fun _ _ => rfl) fun x hx => by
    have : x = 1 ∨ x = 8 := by simpa using hx
    rcases this with rfl | rfl
    · exact ⟨0, rfl, wfCheck_within [0] (by decide) rfl⟩
    · exact ⟨0, rfl, wfCheck_within [0] (by decide) rfl⟩

/-- A text that is no selector, and a text that makes the code panic. -/
example : findText shifted env9 (fun _ => true) [4, 11] "#x, p[".toList = .ok ([], 1) ∧
    findText shifted env9 (fun _ => true) [4, 11] "#x, :not(p".toList = .error .outOfBounds := by
  have h1 : findText demo env6 (fun _ => true) [1, 8] "#x, p[".toList = .ok ([], 1) := by decide
  have h2 : findText demo env6 (fun _ => true) [1, 8] "#x, :not(p".toList = .error .outOfBounds := by decide
  have g1 := shifted_alike.find "#x, p[".toList
  have g2 := shifted_alike.find "#x, :not(p".toList
  rw [h1] at g1
  rw [h2] at g2
  exact ⟨g1, g2⟩

example : findText demo env6 (fun _ => true) [1, 8] "#x, div > span, li".toList = .ok ([6, 7, 9], 0) ∧
    findText shifted env9 (fun _ => true) [4, 11] "#x, div > span, li".toList = .ok ([9, 10, 12], 0) :=
  have h1 : findText demo env6 (fun _ => true) [1, 8] "#x, div > span, li".toList = .ok ([6, 7, 9], 0) := by decide
  ⟨h1, by have := shifted_alike.find "#x, div > span, li".toList; rw [h1] at this; exact this⟩

example : addElems shifted [11] [4] = .ok [4, 11] := by
  have := (C83_sets shifted_copies (X := [8]) (Y := [1])
    (fun x hx => by simp only [List.mem_singleton] at hx; subst hx; exact ⟨0, rfl, wfCheck_within [0] (by decide) rfl⟩)
    (fun x hx => by simp only [List.mem_singleton] at hx; subst hx; exact ⟨0, rfl, wfCheck_within [0] (by decide) rfl⟩)).1
  have h1 : addElems demo [8] [1] = .ok [1, 8] := by decide
  rw [h1] at this
  exact this

/-- The move of node 3 of `spare` into node 2 and back. -/
example : ∃ h1 h2, spare.insertAdjacent ext0 .beforeEnd 2 3 = .ok h1 ∧ h1.insertAdjacent ext0 .afterEnd 2 3 = .ok h2 ∧
    Alike spare h2 env0 env0 (fun _ => true) (fun _ => true) id [1] := by
  obtain ⟨h1, h2, r1, r2, g⟩ := C83_there_and_back (e := ext0) spare_ok (pos := .beforeEnd) (pos' := .afterEnd) (t := 2) (t' := 2) (n := 3)
    (spare_usable (by decide)) (spare_accepted (by decide)) (by decide) (by unfold Welcome; decide) ⟨spare_attached (by decide), by decide⟩
    (spare_accepted (by decide)) (by unfold Welcome; decide) ⟨1, [], [4], id, by decide⟩
  exact ⟨h1, h2, r1, r2, g env0 _ [1] (fun x q i y _ _ hy => nomatch hy) fun x hx => by
    simp only [List.mem_singleton] at hx
    subst hx
    exact ⟨0, ⟨rfl, id, by decide⟩, wfCheck_within [0] (by decide) rfl⟩⟩

/-- The calls of `farCalls` about the fragment of `demo2`: every text is answered for the document as before. -/
theorem far_alike : Alike demo2 farAfter env0 env0 (fun _ => true) (fun _ => true) id [1] := by
  refine C63_answers_partial world0_ok demo2_ok (r := 0) (by decide) (by decide) (cs := farCalls) (fun c hc x hx hb => ?_) farRun
    (fun x q i y _ _ hy => by simp [env0] at hy) _ fun x hx => ?_
  · have h1 := demo2_far x hb
    have : ∀ c ∈ farCalls, ∀ x ∈ c.given, 10 ≤ x := by
      simp only [farCalls, List.mem_cons, List.not_mem_nil, or_false, forall_eq_or_imp, forall_eq]
      decide
    have := this c hc x hx
    omega
  · rw [List.mem_singleton.1 hx]; exact wfCheck_within [0] (by decide) rfl

set_option maxRecDepth 100000 in
example : findText farAfter env0 (fun _ => true) [1] "p:nth-child(2n+1), p:not(:first-child)".toList = .ok ([2, 6], 0) := by
  have h1 : findText demo2 env0 (fun _ => true) [1] "p:nth-child(2n+1), p:not(:first-child)".toList = .ok ([2, 6], 0) := by decide
  have := far_alike.find "p:nth-child(2n+1), p:not(:first-child)".toList
  rw [h1] at this
  exact this

/-- The same with the document as a part of the heap without links to the rest. -/
example : Alike demo2 farAfter env0 env0 (fun _ => true) (fun _ => true) id [1] := by
  refine C83_elsewhere world0_ok (T := (· = 0)) (belongs_separate demo2_ok (r := 0) (by decide) (by decide)) (cs := farCalls) (fun c hc x hx hb => ?_) farRun
    (by rintro r rfl; exact ⟨.inl rfl, demo2_ok.tree (by decide) id (by decide)⟩) (fun x q i y _ _ hy => by simp [env0] at hy) _ fun x hx => ?_
  · have h1 := demo2_far x hb
    have : ∀ c ∈ farCalls, ∀ x ∈ c.given, 10 ≤ x := by
      simp only [farCalls, List.mem_cons, List.not_mem_nil, or_false, forall_eq_or_imp, forall_eq]
      decide
    have := this c hc x hx
    omega
  · rw [List.mem_singleton.1 hx]; exact ⟨0, rfl, wfCheck_within [0] (by decide) rfl⟩

end Visdom
