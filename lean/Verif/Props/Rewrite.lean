import Verif.Props.Duplicate
/-!
# C86: an element is replaced with what its own html is loaded as
-/
namespace Visdom
open Spec

section
variable {rd : Render} {e : Ext} {h h1 : Heap} {D : Nat → Prop}

/-- **C86, replacing back**: the html of an element (or of a text or comment) is loaded as a fragment, and the fragment takes the place of the element. The
document becomes a mirror image of itself: everything that was not in the element is the node it was, new nodes stand where those of the element stood,
everything is written as the same html, and the common questions get corresponding answers. -/
theorem C86_replace_back_partial (P : ParseOk e) (ok : HeapOk h D) {x p r w : Nat} {S : Shape} {al : List Char → Shape → Bool} {s : List Char}
    (hS : ShapeOf h x S) (hs : outerHtml rd e h x = .ok s) (pt : ParsesTo e s [S] al) (hl : e.parse h s = .ok (h1, w)) (hdoc : e.isDoc h1 w = false)
    (hx : (h.node x).kind ≠ .root) (hat : Attached h D x) (hpar : h.parent x = some p) (hk : (h.node r).kind = .root) (hD : ¬ D r) (hb : r < h.size)
    (hp : Within h r p) :
    ∃ h2 y f g, replaceAll e [w] h1 [x] = .ok (h2, [y]) ∧ h.size ≤ y ∧ outerHtml rd e h2 y = .ok s ∧ TreeWF h2 r ∧ Mirror h r h2 r f g ∧
      (∀ z, Within h r z → ¬ Within h x z → f z = z) ∧ f x = y ∧
      (∀ z, Within h r z → SamePlace h r h2 r z (f z) ∧ (h2.node (f z)).content = (h.node z).content ∧
        innerHtml rd e h2 (f z) = innerHtml rd e h z ∧ outerHtml rd e h2 (f z) = outerHtml rd e h z) ∧
      ∀ (env env' : Env) (rt : Bool) (own own' : Nat → Bool), EnvMirror h r env r env' f → Metas h r → Small h r → Grounded h r env rt →
        Grounded h2 r env' rt → MirrorAnswers h r h2 r f env env' rt own own' := by
  obtain ⟨hsz1, old, hw0, hwb, hwk, hok1⟩ := P _ _ _ _ hl
  have ok1 := hok1 D ok
  obtain ⟨hbx, hbp⟩ := ok.bound _ _ hpar
  obtain ⟨hDp, hix⟩ := hat p hpar
  have hxk : x ∈ h.kids p := List.mem_of_getElem? hix
  have hxD : ¬ D x := fun h1 => hx (ok.dead x h1).1
  have hwD : ¬ D w := fun h3 => absurd (ok.dead w h3).2 (by omega)
  have par1 : ∀ z, z < h.size → h1.parent z = h.parent z := fun z hz => by unfold Heap.parent; rw [old z hz]
  have hpar1 : h1.parent x = some p := (par1 x hbx).trans hpar
  -- the one node of the fragment
  obtain ⟨y, hwy, hSy⟩ : ∃ y, h1.kids w = [y] ∧ ShapeOf h1 y S := by
    have h3 := pt.shapes _ _ _ hl
    generalize h1.kids w = l at h3
    cases h3 with | cons a b => cases b; exact ⟨_, rfl, a⟩
  have hyw : y ∈ h1.kids w := by simp [hwy]
  have hyp : h1.parent y = some w := (ok1.link w 0 y hwD (by simp [hwy])).1
  have hyD : ¬ D y := within_live ok1 hwD (.step .self hyw)
  have hy0 : h.size ≤ y := by
    by_contra hlt
    rw [par1 y (by omega)] at hyp
    exact absurd (ok.bound _ _ hyp).2 (by omega)
  -- nothing new is above what is old
  have above_old : ∀ z, z < h.size → ∀ q, Above h1 q z → q < h.size := by
    intro z hz q hq
    induction hq with
    | parent h3 => rw [par1 _ hz] at h3; exact (ok.bound _ _ h3).2
    | step _ h3 ih => rw [par1 _ hz] at h3; exact ih (ok.bound _ _ h3).2
  have u : Usable e h1 D (.replace x w) := by
    refine ⟨fun q hq => ?_, fun q hq => ?_, hwD, hwb, fun h3 => by simp [IsDoc, hdoc] at h3, by rintro rfl; omega, fun h3 => absurd (above_old x hbx w h3) (by omega)⟩
    · rw [par1 x hbx] at hq
      obtain ⟨a, b⟩ := hat q hq
      refine ⟨a, ?_⟩
      rwa [show h1.index x = h.index x by unfold Heap.index; rw [old x hbx], kids_old (old q (ok.bound _ _ hq).2)]
    · rw [ok1.top w hwk] at hq; cases hq
  have hm : moved h1 w = [y] := by rw [moved, if_pos hwk, hwy]
  obtain ⟨h2, A, B, r1, k1, k2, k3, -, k4⟩ := replace_one ok1 u hpar1 (by rw [hm]; simp)
  obtain ⟨g, st⟩ := replace_step ok1 u
  have hg : g = h2 := by
    have := st.run
    simp only [Op.run, r1, Except.map, Except.ok.injEq] at this
    exact this.symm
  subst hg
  simp only [hm, filter_notMem_single] at r1 k1 k2 k3
  have free : ∀ q, ¬ D q → q ≠ w → y ∉ h1.kids q := fun q hq hqw hy => hqw (ok1.kid_unique hq hwD hy hyw)
  have hpw : p ≠ w := by omega
  rw [filter_ne_self (free p hDp hpw), kids_old (old p hbp)] at k1
  have hsz : g.size = h1.size := (data_replaceWith r1).size
  have k3' : ∀ q, ¬ D q → q ≠ p → q ≠ w → g.kids q = h1.kids q := fun q hq hqp hqw => by rw [k3 q hq hqp (.inl hqw), filter_ne_self (free q hq hqw)]
  have hd : ∀ z, z < h.size → SameText h g z z := fun z hz => by
    obtain ⟨d1, d2, d3, d4, -⟩ := k4 z
    rw [old z hz] at d1 d2 d3 d4
    exact ⟨d1, d2, d3, d4⟩
  have hkz : ∀ z, z < h.size → ¬ D z → z ≠ p → g.kids z = h.kids z := fun z hz hzD hzp => by rw [k3' z hzD hzp (by omega), kids_old (old z hz)]
  have sxy : SameTree h g x y := sameTree_trans (sameTree_of_shape hS hSy) (sameTree_of fun z hz => by
    refine ⟨SameData.text k4 z, k3' z (within_live ok1 hyD hz) ?_ ?_⟩
    · rintro rfl
      rcases within_above ok1 hyD hz with h3 | h3
      · omega
      · exact absurd (above_old _ hbp _ h3) (by omega)
    · rintro rfl
      exact not_within_parent ok1 hwD hyw hz)
  have hrw : r ≠ w := by omega
  obtain ⟨f, f', c1, c2, c3, c4, c5, c6⟩ := exchange_core (rd := rd) (e := e) ok st.ok hx hxk hDp hk hD
    (by simp only [Used, not_or, not_and]; exact ⟨hD, fun h3 => absurd h3 hrw⟩) hb hp k1 k2 hd hkz sxy (by omega)
  refine ⟨g, y, f, f', by simp [replaceAll, replaceLoop, r1], hy0, ?_, c1, c2, c3, c4, c5, c6⟩
  have := (c5 x (hp.step hxk)).2.2.2
  rw [c4, hs] at this
  exact this

end

/-- `b(2)` of `<div><b>x</b><i></i></div>` is replaced with what `<b>x</b>` is loaded as. -/
def bPart : Heap := heapOf [rootN [1], el "b" 0 0 [2], { kind := .text, content := some "x".toList, parent := some 1, root := some 0 }]

def bTable (_ : List Char) : Heap := bPart

theorem bPart_ok : HeapOk bPart noneUsed := okCheck_sound (by decide)

theorem bPart_top : (bPart.node 0).kind = .root ∧ 0 < bPart.size := by decide

theorem bParser : ParseOk (extOf bTable) := extOf_parse fun _ => ⟨bPart_ok, bPart_top⟩

example : ∃ h1 h2 y, (extOf bTable).parse boldHeap "<b>x</b>".toList = .ok (h1, 5) ∧ replaceAll (extOf bTable) [5] h1 [2] = .ok (h2, [y]) ∧ 5 ≤ y ∧
    outerHtml rd0 (extOf bTable) h2 y = .ok "<b>x</b>".toList ∧ TreeWF h2 0 := by
  have S : ShapesOf bPart (bPart.kids 0) [.mk .tag "b".toList {} none [.mk .text [] {} (some "x".toList) []]] := .cons (.mk (.cons (.mk .nil) .nil)) .nil
  have hS : ShapeOf boldHeap 2 (.mk .tag "b".toList {} none [.mk .text [] {} (some "x".toList) []]) := .mk (.cons (.mk .nil) .nil)
  obtain ⟨h2, y, f, g, a, b, c, d, -⟩ := C86_replace_back_partial (rd := rd0) bParser boldHeap_ok (x := 2) (p := 1) (r := 0) hS
    (s := "<b>x</b>".toList) (by decide) (extOf_parses (table := bTable) S) rfl (by decide) (by decide)
    (by intro p hp; exact ⟨id, by cases hp; decide⟩) (by decide) (by decide) id (by decide) (.step .self (by decide))
  exact ⟨_, h2, y, rfl, a, b, c, d⟩

end Visdom
