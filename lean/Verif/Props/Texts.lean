import Verif.Model.Texts
import Verif.Spec.Texts
import Verif.Proofs.Desc
import Verif.Proofs.Cands
import Verif.Spec.TreeCheck
/-!
# C42: `texts`, `texts_by`, `texts_by_rec`
-/
namespace Visdom
open Spec

variable {h : Heap} {r : Nat} {ct : List Char → Bool}

theorem isText_iff {x : Nat} : h.isText x = true ↔ (h.node x).kind = .text ∨ (h.node x).kind = .spaces := by
  unfold Heap.isText; cases (h.node x).kind <;> decide

theorem isElem_tag {x : Nat} : h.isElem x = true ↔ (h.node x).kind = .tag := by
  unfold Heap.isElem; cases (h.node x).kind <;> decide

theorem contentTag_iff {x : Nat} (hk : (h.node x).kind = .tag) : ct (h.tagNames x) = true ↔ ContentTag ct h x := by
  unfold ContentTag Heap.tagNames
  rw [if_pos (isElem_tag.2 hk)]
  exact ⟨fun h1 => ⟨hk, h1⟩, fun h1 => h1.2⟩

theorem textAt_below {enter : Nat → Prop} {x d y : Nat} (ht : TextAt ct enter h x d y) : Below h x y := by
  induction ht with
  | here h1 _ => exact Below.of_child h1
  | deeper h1 _ _ _ _ ih => exact (Below.of_child h1).trans ih

variable (wf : TreeWF h r)
include wf

/-- What one child contributes. -/
theorem textsLoop_ok (limit : Option Nat) (handle : Nat → Nat → Bool) (recH : Nat → Bool) {n depth x : Nat} {π : List Nat}
    (hx : At h r π x) (hn : h.size ≤ π.length + n) (hne : h.kids x ≠ []) :
    ∃ L, textsLoop h ct limit handle recH n depth x = .ok L ∧ DocSorted h r L ∧
      ∀ y, y ∈ L ↔ ∃ d, TextAt ct (fun c => recH c = true) h x d y ∧ (d = 0 ∨ ∀ l, limit = some l → depth + d < l) ∧
        handle (depth + d) y = true := by
  induction n generalizing x π depth with
  | zero => have := path_length wf hx; omega
  | succ n ih =>
    have hxw := hx.within
    simp only [textsLoop]
    rw [if_neg (by simpa using hne)]
    have key : ∀ (c i : Nat), (h.kids x)[i]? = some c → ∃ L, (if h.isText c then .ok (if handle depth c then [c] else [])
        else if h.isElem c then
          if ct (h.tagNames c) then .ok (if handle depth c then [c] else [])
          else if belowLimit limit (depth + 1) && recH c then
            textsLoop h ct limit handle recH n (depth + 1) c
          else .ok []
        else .ok [] : R (List Nat)) = .ok L ∧ DocSorted h r L ∧ (∀ y ∈ L, Within h c y) ∧
        ∀ y, y ∈ L ↔ (y = c ∧ Textual ct h c ∧ handle depth c = true) ∨
          ∃ d, (h.node c).kind = .tag ∧ ¬ ContentTag ct h c ∧ recH c = true ∧ TextAt ct (fun c => recH c = true) h c d y ∧
            (∀ l, limit = some l → depth + (d + 1) < l) ∧ handle (depth + (d + 1)) y = true := by
      intro c i hi
      have hcw : Within h r c := .step hxw (List.mem_of_getElem? hi)
      have one : ∀ (b : Bool), (b = true ↔ handle depth c = true) → Textual ct h c →
          ¬ ((h.node c).kind = .tag ∧ ¬ ContentTag ct h c) →
          DocSorted h r (if b then [c] else []) ∧ (∀ y ∈ (if b then [c] else []), Within h c y) ∧
          ∀ y, y ∈ (if b then [c] else []) ↔ (y = c ∧ Textual ct h c ∧ handle depth c = true) ∨
          ∃ d, (h.node c).kind = .tag ∧ ¬ ContentTag ct h c ∧ recH c = true ∧ TextAt ct (fun c => recH c = true) h c d y ∧
            (∀ l, limit = some l → depth + (d + 1) < l) ∧ handle (depth + (d + 1)) y = true := by
        intro b hb htx hno
        have hno' : ∀ y, ¬ ∃ d, (h.node c).kind = .tag ∧ ¬ ContentTag ct h c ∧ recH c = true ∧
            TextAt ct (fun c => recH c = true) h c d y ∧ (∀ l, limit = some l → depth + (d + 1) < l) ∧
            handle (depth + (d + 1)) y = true := by
          rintro y ⟨d, h1, h2, _⟩; exact hno ⟨h1, h2⟩
        cases b with
        | false =>
          refine ⟨.nil, by simp, fun y => ?_⟩
          have : ¬ handle depth c = true := fun h1 => by simpa using hb.2 h1
          simp only [this, and_false, false_or, hno' y]
          simp
        | true =>
          refine ⟨List.pairwise_singleton _ _, by simp; exact .self, fun y => ?_⟩
          simp only [hb.1 rfl, htx, and_true, hno' y, or_false]
          simp
      by_cases htc : h.isText c = true
      · rw [if_pos htc]
        have hk := isText_iff.1 htc
        have hk' : ¬ (h.node c).kind = .tag := by rcases hk with hk | hk <;> rw [hk] <;> simp
        exact ⟨_, rfl, one _ Iff.rfl (by rcases hk with hk | hk; exacts [.inl hk, .inr (.inl hk)]) fun h1 => hk' h1.1⟩
      · rw [if_neg htc]
        have hnt : ¬ ((h.node c).kind = .text ∨ (h.node c).kind = .spaces) := fun h1 => htc (isText_iff.2 h1)
        by_cases hec : h.isElem c = true
        · rw [if_pos hec]
          have hk := isElem_tag.1 hec
          by_cases hct : ct (h.tagNames c) = true
          · rw [if_pos hct]
            have hcc := (contentTag_iff hk).1 hct
            exact ⟨_, rfl, one _ Iff.rfl (.inr (.inr hcc)) fun h1 => h1.2 hcc⟩
          · rw [if_neg hct]
            have hcc : ¬ ContentTag ct h c := fun h1 => hct ((contentTag_iff hk).2 h1)
            have hntx : ¬ Textual ct h c := by
              rintro (h1 | h1 | h1)
              · exact hnt (.inl h1)
              · exact hnt (.inr h1)
              · exact hcc h1
            by_cases hgo : (belowLimit limit (depth + 1) && recH c) = true
            · rw [if_pos hgo]
              rw [Bool.and_eq_true] at hgo
              have hlim : ∀ l, limit = some l → depth + 1 < l := by
                rintro l rfl; simpa [belowLimit] using hgo.1
              by_cases hkc : h.kids c = []
              · refine ⟨[], ?_, .nil, by simp, fun y => ?_⟩
                · have := path_length wf (.step hx hi)
                  cases n with
                  | zero => simp at this; omega
                  | succ n => simp [textsLoop, hkc, hct]
                · have : ¬ ∃ d, (h.node c).kind = .tag ∧ ¬ ContentTag ct h c ∧ recH c = true ∧
                      TextAt ct (fun c => recH c = true) h c d y ∧ (∀ l, limit = some l → depth + (d + 1) < l) ∧
                      handle (depth + (d + 1)) y = true := by
                    rintro ⟨d, _, _, _, h4, _⟩
                    cases h4 with
                    | here h5 _ => rw [hkc] at h5; cases h5
                    | deeper h5 => rw [hkc] at h5; cases h5
                  simp [hntx, this]
              · obtain ⟨L, h1, h2, h3⟩ := ih (depth := depth + 1) (.step hx hi) (by simp; omega) hkc
                refine ⟨L, h1, h2, fun y hy => ?_, fun y => ?_⟩
                · obtain ⟨d, h4, _⟩ := (h3 y).1 hy
                  exact (textAt_below h4).within
                · rw [h3]
                  constructor
                  · rintro ⟨d, h4, h5, h6⟩
                    refine .inr ⟨d, hk, hcc, hgo.2, h4, fun l hl => ?_, by rw [show depth + (d + 1) = depth + 1 + d by omega]; exact h6⟩
                    rcases h5 with rfl | h5
                    · simpa using hlim l hl
                    · have := h5 l hl; omega
                  · rintro (⟨_, h4, _⟩ | ⟨d, _, _, _, h4, h5, h6⟩)
                    · exact absurd h4 hntx
                    · exact ⟨d, h4, .inr fun l hl => by have := h5 l hl; omega,
                        by rw [show depth + 1 + d = depth + (d + 1) by omega]; exact h6⟩
            · rw [if_neg hgo]
              refine ⟨[], rfl, .nil, by simp, fun y => ?_⟩
              have : ¬ ∃ d, (h.node c).kind = .tag ∧ ¬ ContentTag ct h c ∧ recH c = true ∧
                  TextAt ct (fun c => recH c = true) h c d y ∧ (∀ l, limit = some l → depth + (d + 1) < l) ∧
                  handle (depth + (d + 1)) y = true := by
                rintro ⟨d, _, _, h3, _, h5, _⟩
                apply hgo
                rw [h3, Bool.and_true]
                cases limit with
                | none => rfl
                | some l =>
                  have := h5 l rfl
                  simp only [belowLimit, decide_eq_true_iff]
                  omega
              simp [hntx, this]
        · rw [if_neg hec]
          have hk : ¬ (h.node c).kind = .tag := fun h1 => hec (isElem_tag.2 h1)
          refine ⟨[], rfl, .nil, by simp, fun y => ?_⟩
          have hntx : ¬ Textual ct h c := by
            rintro (h1 | h1 | h1)
            · exact hnt (.inl h1)
            · exact hnt (.inr h1)
            · exact hk h1.1
          simp [hntx, hk]
    generalize hf : (fun c : Nat => (if h.isText c then .ok (if handle depth c then [c] else [])
        else if h.isElem c then
          if ct (h.tagNames c) then .ok (if handle depth c then [c] else [])
          else if belowLimit limit (depth + 1) && recH c then
            textsLoop h ct limit handle recH n (depth + 1) c
          else .ok []
        else .ok [] : R (List Nat))) = f
    have key' : ∀ (c i : Nat), (h.kids x)[i]? = some c → ∃ L, f c = .ok L ∧ DocSorted h r L ∧ (∀ y ∈ L, Within h c y) ∧
        ∀ y, y ∈ L ↔ (y = c ∧ Textual ct h c ∧ handle depth c = true) ∨
          ∃ d, (h.node c).kind = .tag ∧ ¬ ContentTag ct h c ∧ recH c = true ∧ TextAt ct (fun c => recH c = true) h c d y ∧
            (∀ l, limit = some l → depth + (d + 1) < l) ∧ handle (depth + (d + 1)) y = true := by
      intro c i hi; rw [← hf]; exact key c i hi
    have key'' : ∀ c ∈ h.kids x, ∃ L, f c = .ok L := fun c hc => by
      obtain ⟨i, hi⟩ := List.getElem?_of_mem hc
      obtain ⟨L, h1, _⟩ := key' c i hi
      exact ⟨L, h1⟩
    obtain ⟨g, hg⟩ : ∃ g : Nat → List Nat, ∀ c ∈ h.kids x, f c = .ok (g c) := by
      refine ⟨fun c => match f c with | .ok L => L | .error _ => [], fun c hc => ?_⟩
      obtain ⟨L, hL⟩ := key'' c hc
      simp only [hL]
    refine ⟨(h.kids x).flatMap g, flatMapR_ok hg, ?_, fun y => ?_⟩
    · unfold DocSorted
      rw [List.pairwise_flatMap]
      constructor
      · intro c hc
        obtain ⟨i, hi⟩ := List.getElem?_of_mem hc
        obtain ⟨L, h1, h2, _⟩ := key' c i hi
        rw [hg c hc] at h1
        cases h1
        exact h2
      · refine List.Pairwise.imp_of_mem ?_ (kids_positions x)
        rintro a b ha hb ⟨i, j, hij, hia, hjb⟩ y hy z hz
        obtain ⟨La, a1, _, a3, _⟩ := key' a i hia
        obtain ⟨Lb, b1, _, b3, _⟩ := key' b j hjb
        rw [hg a ha] at a1
        rw [hg b hb] at b1
        cases a1
        cases b1
        exact Or.inr ⟨x, i, j, a, b, hxw, hij, hia, hjb, a3 y hy, b3 z hz⟩
    · rw [List.mem_flatMap]
      constructor
      · rintro ⟨c, hc, hy⟩
        obtain ⟨i, hi⟩ := List.getElem?_of_mem hc
        obtain ⟨L, h1, _, _, h4⟩ := key' c i hi
        rw [hg c hc] at h1
        cases h1
        rcases (h4 y).1 hy with ⟨rfl, h5, h6⟩ | ⟨d, h5, h6, h7, h8, h9, h10⟩
        · exact ⟨0, .here hc h5, .inl rfl, h6⟩
        · exact ⟨d + 1, .deeper hc h5 h6 h7 h8, .inr h9, h10⟩
      · rintro ⟨d, h1, h2, h3⟩
        cases h1 with
        | here h4 h5 =>
          obtain ⟨i, hi⟩ := List.getElem?_of_mem h4
          obtain ⟨L, g1, _, _, g4⟩ := key' y i hi
          rw [hg y h4] at g1
          cases g1
          exact ⟨y, h4, (g4 y).2 (.inl ⟨rfl, h5, h3⟩)⟩
        | @deeper _ c d _ h4 h5 h6 h7 h8 =>
          obtain ⟨i, hi⟩ := List.getElem?_of_mem h4
          obtain ⟨L, g1, _, _, g4⟩ := key' c i hi
          rw [hg c h4] at g1
          cases g1
          refine ⟨c, h4, (g4 y).2 (.inr ⟨d, h5, h6, h7, h8, ?_, h3⟩)⟩
          rcases h2 with h2 | h2
          · omega
          · exact h2

/-- C42: `texts_by_rec` of an element with child nodes gives exactly the texts below it that are reached through elements which may be
entered, with less than `limit` elements between (any number for 0), and that the handle accepts; each once and in document order.
`d` is the number the handle gets. -/
theorem C42_texts_by_rec (limit : Nat) (handle : Nat → Nat → Bool) (recH : Nat → Bool) {x : Nat} (hx : Within h r x) (hne : h.kids x ≠ []) :
    ∃ L, textsByRec h ct limit handle recH x = .ok L ∧ DocSorted h r L ∧
      ∀ y, y ∈ L ↔ ∃ d, TextAt ct (fun c => recH c = true) h x d y ∧ (limit = 0 ∨ d < limit) ∧ handle d y = true := by
  obtain ⟨π, hπ⟩ := hx.path
  obtain ⟨L, h1, h2, h3⟩ := textsLoop_ok (ct := ct) wf (if limit = 0 then none else some limit) handle recH (depth := 0) hπ
    (by unfold Heap.fuel; omega : h.size ≤ π.length + h.fuel) hne
  refine ⟨L, h1, h2, fun y => ?_⟩
  rw [h3]
  refine exists_congr fun d => and_congr_right fun _ => ?_
  rw [Nat.zero_add]
  refine and_congr_left fun _ => ?_
  by_cases hl : limit = 0
  · simp [hl]
  · simp only [hl, if_false, Option.some.injEq, false_or, forall_eq']
    omega

omit wf in
/-- C42, no child nodes: only a content tag (`textarea`, `title`, ...) is itself a text. -/
theorem C42_leaf (limit : Nat) (handle : Nat → Nat → Bool) (recH : Nat → Bool) {x : Nat} (hk : (h.node x).kind = .tag) (he : h.kids x = []) :
    ∃ L, textsByRec h ct limit handle recH x = .ok L ∧ ∀ y, y ∈ L ↔ y = x ∧ ContentTag ct h x ∧ handle 0 x = true := by
  refine ⟨_, by unfold textsByRec Heap.fuel; simp only [textsLoop]; rw [if_pos (by simp [he])], fun y => ?_⟩
  have := contentTag_iff (ct := ct) hk
  split
  · rename_i h1
    rw [Bool.and_eq_true, this] at h1
    simp [h1.1, h1.2]
  · rename_i h1
    rw [Bool.and_eq_true, this] at h1
    constructor
    · intro h2; cases h2
    · rintro ⟨_, h2, h3⟩; exact absurd ⟨h2, h3⟩ h1

omit wf in
/-- In a tree in which content tags have no child nodes, the texts below `x` are all text nodes and content tags below `x`. -/
theorem textAt_iff (hct : ∀ y, ContentTag ct h y → h.kids y = []) (hleaf : ∀ y, Below h x y → (h.node y).kind ≠ .tag → h.kids y = [])
    (y : Nat) : (∃ d, TextAt ct (fun _ => True) h x d y) ↔ Below h x y ∧ Textual ct h y := by
  constructor
  · rintro ⟨d, hd⟩
    refine ⟨textAt_below hd, ?_⟩
    clear hleaf
    induction hd with
    | here _ h1 => exact h1
    | deeper _ _ _ _ _ ih => exact ih
  · rintro ⟨hb, ht⟩
    obtain ⟨p, hp, hy⟩ := hb.last
    have main : ∀ p, Within h x p → ∀ y d, TextAt ct (fun _ => True) h p d y → ∃ d', TextAt ct (fun _ => True) h x d' y := by
      intro p hp
      induction hp with
      | self => exact fun y d hd => ⟨d, hd⟩
      | @step q c hq hc ih =>
        intro y d hd
        have hne : h.kids c ≠ [] := by
          intro h1
          cases hd with
          | here h2 => rw [h1] at h2; cases h2
          | deeper h2 => rw [h1] at h2; cases h2
        refine ih y (d + 1) (.deeper hc ?_ (fun h1 => hne (hct c h1)) trivial hd)
        by_contra hk
        exact hne (hleaf c (Below.snoc hq hc) hk)
    exact main p hp y 0 (.here hy ht)

/-- C42: `texts(depth)` of an element with child nodes: exactly the texts with less than `depth` elements between (all for 0), in
document order. -/
theorem C42_texts (limit : Nat) {x : Nat} (hx : Within h r x) (hne : h.kids x ≠ []) :
    ∃ L, textsOf h ct limit x = .ok L ∧ DocSorted h r L ∧
      ∀ y, y ∈ L ↔ ∃ d, TextAt ct (fun _ => True) h x d y ∧ (limit = 0 ∨ d < limit) := by
  obtain ⟨L, h1, h2, h3⟩ := C42_texts_by_rec (ct := ct) wf limit (fun _ _ => true) (fun _ => true) hx hne
  refine ⟨L, h1, h2, fun y => ?_⟩
  rw [h3]
  simp

/-- C42: `texts(0)` gives every text node and content tag below the element. -/
theorem C42_all_texts (hct : ∀ y, ContentTag ct h y → h.kids y = []) {x : Nat} (hx : Within h r x) (hne : h.kids x ≠ []) :
    ∃ L, textsOf h ct 0 x = .ok L ∧ DocSorted h r L ∧ ∀ y, y ∈ L ↔ Below h x y ∧ Textual ct h y := by
  obtain ⟨L, h1, h2, h3⟩ := C42_texts (ct := ct) wf 0 hx hne
  refine ⟨L, h1, h2, fun y => ?_⟩
  rw [h3, ← textAt_iff hct fun y hy hk => ?_]
  · simp
  · by_cases hr : (h.node y).kind = .root
    · have hyr := wf.onlyRoot y (hx.trans hy.within) hr
      subst hyr
      obtain ⟨p, hp, hy⟩ := hy.last
      exact absurd rfl (child_ne_root wf (hx.trans hp) hy)
    · exact wf.leaf y (hx.trans hy.within) hr hk

/-- The texts of one element, with or without child nodes. -/
theorem texts_one (limit : Nat) {x : Nat} (hx : Within h r x) (hk : h.kids x ≠ [] ∨ (h.node x).kind = .tag) :
    ∃ L, textsOf h ct limit x = .ok L ∧ DocSorted h r L ∧
      ∀ y, y ∈ L ↔ (∃ d, TextAt ct (fun _ => True) h x d y ∧ (limit = 0 ∨ d < limit)) ∨ (h.kids x = [] ∧ y = x ∧ ContentTag ct h x) := by
  by_cases hne : h.kids x = []
  · obtain ⟨L, h1, h2⟩ := C42_leaf (ct := ct) limit (fun _ _ => true) (fun _ => true) (hk.resolve_left (by simpa using hne)) hne
    have hno : ¬ ∃ d y, TextAt ct (fun _ => True) h x d y := by
      rintro ⟨d, y, hd⟩
      cases hd with
      | here h3 => rw [hne] at h3; cases h3
      | deeper h3 => rw [hne] at h3; cases h3
    refine ⟨L, h1, ?_, fun y => ?_⟩
    · unfold textsByRec Heap.fuel at h1
      simp only [textsLoop] at h1
      rw [if_pos (by simp [hne])] at h1
      obtain rfl := Except.ok.inj h1
      split
      · exact List.pairwise_singleton _ _
      · exact List.Pairwise.nil
    · rw [h2]
      constructor
      · rintro ⟨h3, h4, _⟩; exact Or.inr ⟨hne, h3, h4⟩
      · rintro (⟨d, hd, _⟩ | ⟨_, h3, h4⟩)
        · exact absurd ⟨d, y, hd⟩ hno
        · exact ⟨h3, h4, rfl⟩
  · obtain ⟨L, h1, h2, h3⟩ := C42_texts (ct := ct) wf limit hx hne
    refine ⟨L, h1, h2, fun y => ?_⟩
    rw [h3]
    simp [hne]

/-- C42, any set, repetitions and elements below each other included: the texts of each element, in document order, one element after the
other. An element without child nodes gives nothing but itself if it is a content tag. -/
theorem C42_concat (limit : Nat) {X : List Nat} (hX : ∀ x ∈ X, Within h r x ∧ (h.kids x ≠ [] ∨ (h.node x).kind = .tag)) :
    ∃ Ls : List (List Nat), textsAll h ct limit X = .ok Ls.flatten ∧
      List.Forall₂ (fun x L => DocSorted h r L ∧
        ∀ y, y ∈ L ↔ (∃ d, TextAt ct (fun _ => True) h x d y ∧ (limit = 0 ∨ d < limit)) ∨ (h.kids x = [] ∧ y = x ∧ ContentTag ct h x)) X Ls := by
  unfold textsAll
  induction X with
  | nil => exact ⟨[], rfl, .nil⟩
  | cons x X ih =>
    obtain ⟨Ls, h1, h2⟩ := ih fun y hy => hX y (List.mem_cons_of_mem _ hy)
    obtain ⟨L, k1, k2⟩ := texts_one (ct := ct) wf limit (hX x List.mem_cons_self).1 (hX x List.mem_cons_self).2
    refine ⟨L :: Ls, ?_, .cons k2 h2⟩
    simp only [flatMapR, k1, h1, List.flatten_cons]

/-- C42, `texts_by_rec` and `texts_by` on any set: what each element gives, one element after the other. -/
theorem C42_concat_by (limit : Nat) (handle : Nat → Nat → Bool) (recH : Nat → Bool) {X : List Nat}
    (hX : ∀ x ∈ X, Within h r x ∧ (h.kids x ≠ [] ∨ (h.node x).kind = .tag)) :
    ∃ Ls : List (List Nat), textsByRecAll h ct limit handle recH X = .ok Ls.flatten ∧
      List.Forall₂ (fun x L => DocSorted h r L ∧
        ∀ y, y ∈ L ↔ (∃ d, TextAt ct (fun c => recH c = true) h x d y ∧ (limit = 0 ∨ d < limit) ∧ handle d y = true) ∨
          (h.kids x = [] ∧ y = x ∧ ContentTag ct h x ∧ handle 0 x = true)) X Ls ∧
      ((∀ c, recH c = true) → textsByAll h ct limit handle X = .ok Ls.flatten) := by
  have h0 : (∀ c, recH c = true) → textsByAll h ct limit handle X = textsByRecAll h ct limit handle recH X := fun hr => by
    unfold textsByAll; rw [show recH = fun _ => true from funext hr]
  have : ∃ Ls : List (List Nat), textsByRecAll h ct limit handle recH X = .ok Ls.flatten ∧
      List.Forall₂ (fun x L => DocSorted h r L ∧
        ∀ y, y ∈ L ↔ (∃ d, TextAt ct (fun c => recH c = true) h x d y ∧ (limit = 0 ∨ d < limit) ∧ handle d y = true) ∨
          (h.kids x = [] ∧ y = x ∧ ContentTag ct h x ∧ handle 0 x = true)) X Ls := by
    clear h0
    unfold textsByRecAll
    induction X with
    | nil => exact ⟨[], rfl, .nil⟩
    | cons x X ih =>
      obtain ⟨Ls, h1, h2⟩ := ih fun y hy => hX y (List.mem_cons_of_mem _ hy)
      obtain ⟨hw, hk⟩ := hX x List.mem_cons_self
      by_cases hne : h.kids x = []
      · obtain ⟨L, k1, k2⟩ := C42_leaf (ct := ct) limit handle recH (hk.resolve_left fun h' => h' hne) hne
        have hsingle : DocSorted h r L := by
          have : L = [] ∨ L = [x] := by
            unfold textsByRec Heap.fuel at k1
            simp only [textsLoop] at k1
            rw [if_pos (by simp [hne])] at k1
            cases k1
            split <;> simp
          rcases this with rfl | rfl
          · exact .nil
          · exact List.pairwise_singleton _ _
        refine ⟨L :: Ls, by simp only [flatMapR, k1, h1, List.flatten_cons], .cons ⟨hsingle, fun y => ?_⟩ h2⟩
        rw [k2]
        constructor
        · exact fun h3 => .inr ⟨hne, h3⟩
        · rintro (⟨d, h3, _⟩ | h3)
          · cases h3 with
            | here h4 => rw [hne] at h4; cases h4
            | deeper h4 => rw [hne] at h4; cases h4
          · exact h3.2
      · obtain ⟨L, k1, k2, k3⟩ := C42_texts_by_rec (ct := ct) wf limit handle recH hw hne
        refine ⟨L :: Ls, by simp only [flatMapR, k1, h1, List.flatten_cons], .cons ⟨k2, fun y => ?_⟩ h2⟩
        rw [k3]
        simp [hne]
  obtain ⟨Ls, h1, h2⟩ := this
  exact ⟨Ls, h1, h2, fun hr => (h0 hr).trans h1⟩

/-- C42, sets: the texts of the elements one after the other; in document order when the set is and no element is below another. Missing: with
elements below each other texts come twice (`C42_fails_nested`). -/
theorem C42_set_partial (limit : Nat) {X : List Nat} (hX : ∀ x ∈ X, Within h r x ∧ h.kids x ≠ []) :
    ∃ L, textsAll h ct limit X = .ok L ∧ (∀ y, y ∈ L ↔ ∃ x ∈ X, ∃ d, TextAt ct (fun _ => True) h x d y ∧ (limit = 0 ∨ d < limit)) ∧
      (X.Pairwise (fun a b => Before h r a b ∧ ¬ Below h a b) → DocSorted h r L) := by
  obtain ⟨g, hg⟩ : ∃ g : Nat → List Nat, ∀ x ∈ X, textsOf h ct limit x = .ok (g x) := by
    refine ⟨fun c => match textsOf h ct limit c with | .ok L => L | .error _ => [], fun c hc => ?_⟩
    obtain ⟨L, hL, _⟩ := C42_texts (ct := ct) wf limit (hX c hc).1 (hX c hc).2
    simp only [hL]
  have hg' : ∀ x ∈ X, DocSorted h r (g x) ∧ ∀ y, y ∈ g x ↔ ∃ d, TextAt ct (fun _ => True) h x d y ∧ (limit = 0 ∨ d < limit) := by
    intro x hx
    obtain ⟨L, h1, h2, h3⟩ := C42_texts (ct := ct) wf limit (hX x hx).1 (hX x hx).2
    rw [hg x hx] at h1
    cases h1
    exact ⟨h2, h3⟩
  refine ⟨X.flatMap g, flatMapR_ok hg, fun y => ?_, fun hs => ?_⟩
  · rw [List.mem_flatMap]
    constructor
    · rintro ⟨x, hx, hy⟩; exact ⟨x, hx, ((hg' x hx).2 y).1 hy⟩
    · rintro ⟨x, hx, hy⟩; exact ⟨x, hx, ((hg' x hx).2 y).2 hy⟩
  · unfold DocSorted
    rw [List.pairwise_flatMap]
    refine ⟨fun x hx => (hg' x hx).1, List.Pairwise.imp_of_mem ?_ hs⟩
    rintro a b ha hb ⟨hab, hnb⟩ y hy z hz
    obtain ⟨d, hd, _⟩ := ((hg' a ha).2 y).1 hy
    obtain ⟨d', hd', _⟩ := ((hg' b hb).2 z).1 hz
    rcases hab with hab | ⟨p, i, j, c, c', hp, hij, hi, hj, hc, hc'⟩
    · exact absurd hab hnb
    · exact .inr ⟨p, i, j, c, c', hp, hij, hi, hj, hc.trans (textAt_below hd).within, hc'.trans (textAt_below hd').within⟩

/-- C42, ordered sets, the exact condition: `texts(0)` gives the texts in or at the elements of the set; in document order and each once
iff no element of the set with a text in or at it lies inside another one. -/
theorem C42_set_exact_partial (hct : ∀ y, ContentTag ct h y → h.kids y = []) {X : List Nat}
    (hX : ∀ x ∈ X, Within h r x ∧ (h.kids x ≠ [] ∨ (h.node x).kind = .tag)) (hs : DocSorted h r X) :
    ∃ L, textsAll h ct 0 X = .ok L ∧ (∀ y, y ∈ L ↔ ∃ x ∈ X, Within h x y ∧ Textual ct h y) ∧
      (DocSorted h r L ↔ ∀ x ∈ X, ∀ y ∈ X, Below h x y → ¬ ∃ t, Within h y t ∧ Textual ct h t) := by
  have one : ∀ x ∈ X, ∃ L, textsOf h ct 0 x = .ok L ∧ DocSorted h r L ∧ ∀ y, y ∈ L ↔ Within h x y ∧ Textual ct h y := by
    intro x hx
    obtain ⟨hw, hk⟩ := hX x hx
    obtain ⟨L, h1, h2, h3⟩ := texts_one (ct := ct) wf 0 hw hk
    refine ⟨L, h1, h2, fun y => ?_⟩
    have hall := textAt_iff (ct := ct) (x := x) hct (fun z hz hk => by
      by_cases hr : (h.node z).kind = .root
      · have hzr := wf.onlyRoot z (hw.trans hz.within) hr
        subst hzr
        obtain ⟨p, hp, hz'⟩ := hz.last
        exact absurd rfl (child_ne_root wf (hw.trans hp) hz')
      · exact wf.leaf z (hw.trans hz.within) hr hk) y
    rw [h3]
    simp only [true_or, and_true, hall]
    constructor
    · rintro (⟨h4, h5⟩ | ⟨h4, rfl, h5⟩)
      · exact ⟨h4.within, h5⟩
      · exact ⟨.self, .inr (.inr h5)⟩
    · rintro ⟨h4, h5⟩
      rcases within_cases h4 with rfl | h6
      · rcases h5 with h5 | h5 | h5
        · refine absurd h5 fun h5 => ?_
          rcases hk with hk | hk
          · exact hk (wf.leaf _ hw (by rw [h5]; decide) (by rw [h5]; decide))
          · rw [hk] at h5; cases h5
        · refine absurd h5 fun h5 => ?_
          rcases hk with hk | hk
          · exact hk (wf.leaf _ hw (by rw [h5]; decide) (by rw [h5]; decide))
          · rw [hk] at h5; cases h5
        · exact Or.inr ⟨hct _ h5, rfl, h5⟩
      · exact Or.inl ⟨h6, h5⟩
  obtain ⟨g, hg⟩ : ∃ g : Nat → List Nat, ∀ x ∈ X, textsOf h ct 0 x = .ok (g x) := by
    refine ⟨fun c => match textsOf h ct 0 c with | .ok L => L | .error _ => [], fun c hc => ?_⟩
    obtain ⟨L, hL, _⟩ := one c hc
    simp only [hL]
  have hg' : ∀ x ∈ X, DocSorted h r (g x) ∧ ∀ y, y ∈ g x ↔ Within h x y ∧ Textual ct h y := by
    intro x hx
    obtain ⟨L, h1, h2, h3⟩ := one x hx
    rw [hg x hx] at h1
    cases h1
    exact ⟨h2, h3⟩
  refine ⟨X.flatMap g, flatMapR_ok hg, fun y => ?_, ?_⟩
  · rw [List.mem_flatMap]
    exact exists_congr fun x => and_congr_right fun hx => (hg' x hx).2 y
  · unfold DocSorted at hs ⊢
    rw [List.pairwise_flatMap]
    constructor
    · rintro ⟨_, hp⟩ x hx y hy hxy ⟨t, ht1, ht2⟩
      have hb : Before h r x y := .inl hxy
      have hcross : ∀ a ∈ g x, ∀ b ∈ g y, Before h r a b := by
        obtain ⟨i, hi⟩ := List.getElem?_of_mem hx
        obtain ⟨j, hj⟩ := List.getElem?_of_mem hy
        obtain ⟨hi', rfl⟩ := List.getElem?_eq_some_iff.1 hi
        obtain ⟨hj', rfl⟩ := List.getElem?_eq_some_iff.1 hj
        rcases Nat.lt_trichotomy i j with hij | hij | hij
        · exact List.pairwise_iff_getElem.1 hp i j hi' hj' hij
        · subst hij
          exact absurd hb (before_irrefl wf (hX _ hx).1)
        · exact absurd hb (before_asymm wf (hX _ hy).1 (hX _ hx).1 (List.pairwise_iff_getElem.1 hs j i hj' hi' hij))
      have ht : Within h r t := (hX y hy).1.trans ht1
      exact before_irrefl wf ht (hcross t (((hg' x hx).2 t).2 ⟨hxy.within.trans ht1, ht2⟩) t (((hg' y hy).2 t).2 ⟨ht1, ht2⟩))
    · intro hno
      refine ⟨fun x hx => (hg' x hx).1, List.Pairwise.imp_of_mem ?_ hs⟩
      intro a b ha hb hab y hy z hz
      obtain ⟨hy1, _⟩ := ((hg' a ha).2 y).1 hy
      obtain ⟨hz1, hz2⟩ := ((hg' b hb).2 z).1 hz
      rcases hab with hab | ⟨p, i, j, c, c', hp, hij, hi, hj, hc, hc'⟩
      · exact absurd ⟨z, hz1, hz2⟩ (hno a ha b hb hab)
      · exact .inr ⟨p, i, j, c, c', hp, hij, hi, hj, hc.trans hy1, hc'.trans hz1⟩

omit wf

/-! ### `filter_by` -/

theorem textsFilter_ok (handle : Nat → Nat → Bool) (l : List Nat) : ∀ i, (∀ j x, l[j]? = some x → handle (i + j) x = true → h.isText x = true) →
    textsFilterLoop h handle i l = .ok (((l.zipIdx i).filter fun q => handle q.2 q.1).map (·.1)) := by
  induction l with
  | nil => intro i _; rfl
  | cons x l ih =>
    intro i hl
    have ih' := ih (i + 1) (fun j y hj hh => hl (j + 1) y (by simpa using hj) (by rw [show i + (j + 1) = i + 1 + j by omega]; exact hh))
    simp only [textsFilterLoop, List.zipIdx_cons, List.filter_cons]
    by_cases hh : handle i x = true
    · rw [if_pos hh, if_pos (hl 0 x rfl hh), ih', if_pos hh]; rfl
    · rw [if_neg hh, ih', if_neg hh]

/-- C52, the part that holds: `Texts::filter_by` keeps the texts whose position and node the handle accepts, in order, if all these are text
nodes. Missing: content tags (`C52_fails`). -/
theorem C52_filter_partial (handle : Nat → Nat → Bool) {l : List Nat} (hl : ∀ i x, l[i]? = some x → handle i x = true → (h.node x).kind = .text ∨ (h.node x).kind = .spaces) :
    textsFilterBy h handle l = .ok ((l.zipIdx.filter fun q => handle q.2 q.1).map (·.1)) :=
  textsFilter_ok handle l 0 fun j x hj hh => isText_iff.2 (hl j x hj (by simpa using hh))

/-- C52, exactly: `Texts::filter_by` answers exactly if every text it is to keep is a text node (and not a content tag); if one is not, it
panics. -/
theorem C52_exact_partial (handle : Nat → Nat → Bool) (l : List Nat) :
    (textsFilterBy h handle l = .ok ((l.zipIdx.filter fun q => handle q.2 q.1).map (·.1)) ↔
      ∀ i x, l[i]? = some x → handle i x = true → (h.node x).kind = .text ∨ (h.node x).kind = .spaces) ∧
    ((∃ i x, l[i]? = some x ∧ handle i x = true ∧ ¬ ((h.node x).kind = .text ∨ (h.node x).kind = .spaces)) →
      textsFilterBy h handle l = .error .unwrapNone) := by
  have bad : ∀ (l : List Nat) (i : Nat), (∃ j x, l[j]? = some x ∧ handle (i + j) x = true ∧ ¬ h.isText x = true) →
      textsFilterLoop h handle i l = .error .unwrapNone := by
    intro l
    induction l with
    | nil => rintro i ⟨j, x, hj, -⟩; simp at hj
    | cons y l ih =>
      rintro i ⟨j, x, hj, hh, ht⟩
      unfold textsFilterLoop
      cases j with
      | zero =>
        obtain rfl : y = x := by simpa using hj
        rw [if_pos (by simpa using hh), if_neg ht]
      | succ j =>
        have := ih (i + 1) ⟨j, x, by simpa using hj, by rw [show i + 1 + j = i + (j + 1) by omega]; exact hh, ht⟩
        rw [this]
        split
        · split <;> rfl
        · rfl
  have pan : (∃ i x, l[i]? = some x ∧ handle i x = true ∧ ¬ ((h.node x).kind = .text ∨ (h.node x).kind = .spaces)) →
      textsFilterBy h handle l = .error .unwrapNone := by
    rintro ⟨i, x, hi, hh, ht⟩
    exact bad l 0 ⟨i, x, hi, by simpa using hh, fun c => ht (isText_iff.1 c)⟩
  refine ⟨⟨fun hok i x hi hh => ?_, C52_filter_partial handle⟩, pan⟩
  by_contra ht
  rw [pan ⟨i, x, hi, hh, ht⟩] at hok
  cases hok

/-! ### Examples -/

/-- `root(0)[ div(1)[ p(2)[ text(3), b(4)[ text(5) ] ], text(6), title(7)[] ] ]`. -/
def textHeap : Heap := heapOf
  [ rootN [1], el "div" 0 0 [2, 6, 7], el "p" 1 0 [3, 4], txt "x" 2 0, el "b" 2 1 [5], txt "y" 4 0, txt "z" 1 1, el "title" 1 2 [] ]

/-- Content tags for examples. -/
def ct0 (s : List Char) : Bool := s == ['t', 'i', 't', 'l', 'e']

theorem textHeap_1 : Within textHeap 0 1 := wfCheck_within [0] (by decide) rfl
theorem textHeap_2 : Within textHeap 0 2 := wfCheck_within [0, 1] (by decide) rfl

theorem textHeap_wf : TreeWF textHeap 0 := wfCheck_sound (by decide)

/-- `div` and the empty `p` inside it: the texts are in order; `div` and the `p` with a text inside it: they are not. -/
example : textsAll demo ct0 0 [1, 6] = .ok [3, 4] ∧ textsAll demo ct0 0 [1, 2] = .ok [3, 4, 3] ∧
    ∃ L, textsAll demo ct0 0 [1, 2] = .ok L ∧ ¬ DocSorted demo 0 L := by
  have w1 : Within demo 0 1 := wfCheck_within [0] (by decide) rfl
  have w2 : Within demo 0 2 := wfCheck_within [0, 1] (by decide) rfl
  have hb : Below demo 1 2 := Below.of_child (by decide)
  obtain ⟨L, h1, _, h2⟩ := C42_set_exact_partial (ct := ct0) demo_wf (X := [1, 2]) (by
      intro y hy
      exfalso
      have hlt : y < 10 := by
        by_contra hge
        have : demo.node y = {} := by simp [demo, heapOf, rootN, el, txt, Nat.not_lt.1 hge]
        exact absurd hy.1 (by rw [this]; decide)
      have hall : ∀ y < 10, ct0 (lowerStr (demo.node y).name) = false := by decide
      exact absurd hy.2 (by rw [hall y hlt]; decide)) (by
      intro x hx
      simp only [List.mem_cons, List.not_mem_nil, or_false] at hx
      rcases hx with rfl | rfl
      · exact ⟨w1, by decide⟩
      · exact ⟨w2, by decide⟩) (by
      unfold DocSorted
      simp only [List.pairwise_cons, List.mem_cons, List.not_mem_nil, or_false, forall_eq, false_implies, implies_true, List.Pairwise.nil, and_true]
      exact .inl hb)
  exact ⟨by decide, by decide, L, h1, fun hd => h2.1 hd 1 (by simp) 2 (by simp) hb
    ⟨3, (Below.of_child (by decide : 3 ∈ demo.kids 2)).within, .inl (by decide)⟩⟩

example : (∀ x ∈ [2, 7, 2], Within textHeap 0 x ∧ (textHeap.kids x ≠ [] ∨ (textHeap.node x).kind = .tag)) ∧
    textsAll textHeap ct0 0 [2, 7, 2] = .ok [3, 5, 7, 3, 5] := by
  refine ⟨fun x hx => ?_, by decide⟩
  simp only [List.mem_cons, List.not_mem_nil, or_false] at hx
  rcases hx with rfl | rfl | rfl
  · exact ⟨textHeap_2, by decide⟩
  · exact ⟨.step textHeap_1 (by decide), by decide⟩
  · exact ⟨textHeap_2, by decide⟩

example : ∃ L, textsOf textHeap ct0 2 1 = .ok L ∧ DocSorted textHeap 0 L ∧
    ∀ y, y ∈ L ↔ ∃ d, TextAt ct0 (fun _ => True) textHeap 1 d y ∧ (2 = 0 ∨ d < 2) :=
  C42_texts textHeap_wf 2 textHeap_1 (by decide)

/-- What the theorem speaks about, computed: one level, two levels, all. -/
example : textsOf textHeap ct0 1 1 = .ok [6, 7] ∧ textsOf textHeap ct0 2 1 = .ok [3, 6, 7] ∧ textsOf textHeap ct0 0 1 = .ok [3, 5, 6, 7] :=
  ⟨rfl, rfl, rfl⟩

example : ∃ L, textsOf textHeap ct0 0 1 = .ok L ∧ DocSorted textHeap 0 L ∧ ∀ y, y ∈ L ↔ Below textHeap 1 y ∧ Textual ct0 textHeap y := by
  refine C42_all_texts textHeap_wf (fun y hy => ?_) textHeap_1 (by decide)
  have h1 : ∀ y < 8, (textHeap.node y).kind = .tag → ct0 (lowerStr (textHeap.node y).name) = true → textHeap.kids y = [] := by decide
  rcases Nat.lt_or_ge y 8 with hlt | hge
  · exact h1 y hlt hy.1 hy.2
  · have : textHeap.node y = {} := by
      unfold textHeap heapOf
      simp only
      rw [List.getD_eq_getElem?_getD, List.getElem?_eq_none (by simpa using hge)]; rfl
    unfold Heap.kids
    rw [this]; rfl

example : ∃ L, textsByRec textHeap ct0 0 (fun d _ => d == 0) (fun c => c != 4) 2 = .ok L ∧ DocSorted textHeap 0 L ∧
    ∀ y, y ∈ L ↔ ∃ d, TextAt ct0 (fun c => (c != 4) = true) textHeap 2 d y ∧ (0 = 0 ∨ d < 0) ∧ (d == 0) = true :=
  C42_texts_by_rec textHeap_wf 0 _ _ textHeap_2 (by decide)

example : ∃ L, textsByRec textHeap ct0 0 (fun _ _ => true) (fun _ => true) 7 = .ok L ∧
    ∀ y, y ∈ L ↔ y = 7 ∧ ContentTag ct0 textHeap 7 ∧ true = true := C42_leaf _ _ _ (by decide) (by decide)

example : textsByRecAll textHeap ct0 0 (fun d _ => d == 0) (fun c => c != 4) [2, 7, 2] = .ok [3, 7, 3] ∧
    textsByAll textHeap ct0 0 (fun d _ => d == 1) [2, 1] = .ok [5, 3] := ⟨rfl, rfl⟩

example : ∃ L, textsAll textHeap ct0 0 [2, 1] = .ok L ∧
    (∀ y, y ∈ L ↔ ∃ x ∈ [2, 1], ∃ d, TextAt ct0 (fun _ => True) textHeap x d y ∧ (0 = 0 ∨ d < 0)) ∧
    (List.Pairwise (fun a b => Before textHeap 0 a b ∧ ¬ Below textHeap a b) [2, 1] → DocSorted textHeap 0 L) :=
  C42_set_partial textHeap_wf 0 (by
    have h1 : ∀ x ∈ [2, 1], textHeap.kids x ≠ [] := by decide
    refine fun x hx => ⟨?_, h1 x hx⟩
    simp only [List.mem_cons, List.not_mem_nil, or_false] at hx
    rcases hx with rfl | rfl
    · exact textHeap_2
    · exact textHeap_1)

/-- C42 does not hold in full for sets: the texts of nested elements come twice. -/
theorem C42_fails_nested : textsAll textHeap ct0 0 [1, 2] = .ok [3, 5, 6, 7, 3, 5] := rfl

example : textsFilterBy textHeap (fun i x => i == 2 || x == 3) [3, 5, 6] = .ok [3, 6] :=
  (C52_filter_partial _ (by
    intro i x hx _
    have h1 : ∀ x ∈ [3, 5, 6], (textHeap.node x).kind = .text ∨ (textHeap.node x).kind = .spaces := by decide
    exact h1 x (List.mem_of_getElem? hx))).trans rfl

/-- C52 does not hold in full: `texts(0).filter_by(..)` panics as soon as a content tag is kept. -/
theorem C52_fails : textsOf textHeap ct0 1 1 = .ok [6, 7] ∧ textsFilterBy textHeap (fun _ _ => true) [6, 7] = .error .unwrapNone :=
  ⟨rfl, rfl⟩

/-- `C52_exact_partial` on the content tag of `textHeap`: keeping node 7 panics, leaving it out does not. -/
example : textsFilterBy textHeap (fun i _ => i == 1) [6, 7] = .error .unwrapNone ∧ textsFilterBy textHeap (fun i _ => i == 0) [6, 7] = .ok [6] :=
  ⟨(C52_exact_partial _ [6, 7]).2 ⟨1, 7, rfl, rfl, by decide⟩, rfl⟩

end Visdom
