import Verif.Props.Ends
import Verif.Model.Value
import Verif.Model.Html
import Verif.Model.Texts
import Verif.Props.Markup
/-!
# C85: the other calls
-/
namespace Visdom
open Spec

variable {h : Heap} {T : Nat → Prop}

/-- No ids at all. -/
def noIds : Env := { env0 with byId := fun _ _ => none }

theorem firm_noIds (hwf : ∀ r, T r → TreeWF h r) : Firm h T noIds := firm hwf (by rintro x q i y _ _ ⟨⟩)

section
variable (sd : Firm h T noIds)
include sd

theorem Firm.textsLoop_halts (ct : List Char → Bool) (limit : Option Nat) (handle : Nat → Nat → Bool) (recH : Nat → Bool) {n n' depth x : Nat} (d : DownOk h h T n n' x) :
    Halts (textsLoop h ct limit handle recH n depth x) := by
  induction n generalizing n' x depth with
  | zero => obtain ⟨_, _, h1, _⟩ := sd.cp.down_pos d; cases h1
  | succ n ih =>
    obtain ⟨_, k', _, rfl⟩ := sd.cp.down_pos d
    rw [textsLoop]
    split
    · exact .ok
    · refine .flat fun c hc => ?_
      split
      · exact .ok
      · split
        · split
          · exact .ok
          · split
            · exact ih (d.kid hc)
            · exact .ok
        · exact .ok

theorem Firm.pieceF_halts (rd : Render) (e : Ext) {n n' x : Nat} {b : Bool} (d : DownOk h h T n n' x) : Halts (pieceF rd e h n b x) := by
  induction n generalizing n' x b with
  | zero => obtain ⟨_, _, h1, _⟩ := sd.cp.down_pos d; cases h1
  | succ n ih =>
    obtain ⟨_, k', _, rfl⟩ := sd.cp.down_pos d
    rw [pieceF]
    split
    · exact .flat fun c hc => ih (d.kid hc)
    · split
      · rename_i he; exact Halts.err (.flat fun c hc => ih (d.kid hc)) he
      · exact .ok
    · exact .ok

omit sd in
theorem breakLoop_halts {α β : Type} {step : α → β → R (β × Bool)} : ∀ {l : List α} {s : β}, (∀ a ∈ l, ∀ s, Halts (step a s)) → Halts (breakLoop step l s)
  | [], _, _ => .ok
  | a :: l, s, hl => by
    rw [breakLoop]
    split
    · rename_i he; exact (hl a List.mem_cons_self s).err he
    · exact .ok
    · exact breakLoop_halts fun b hb => hl b (List.mem_cons_of_mem _ hb)

omit sd in
theorem attrValueOr_halts (x : Nat) (k : List Char) : Halts (attrValueOr h x k) := by
  unfold attrValueOr
  split
  · rename_i he; exact (getAttribute_halts _ _).err he
  · exact .ok
  · exact .ok

theorem Firm.collectOptions_halts (m : Bool) {n n' level x : Nat} {s : Collected} (d : DownOk h h T n n' x) : Halts (collectOptions h m n level x s) := by
  induction n generalizing n' x level s with
  | zero => obtain ⟨_, _, h1, _⟩ := sd.cp.down_pos d; cases h1
  | succ n ih =>
    obtain ⟨_, k', _, rfl⟩ := sd.cp.down_pos d
    rw [collectOptions]
    refine breakLoop_halts fun c hc s => ?_
    split
    · split
      · split
        · rename_i he; exact (hasAttr_halts (h := h) _ _).err he
        · split
          · split
            · rename_i he; exact (attrValueOr_halts (h := h) _ _).err he
            · split <;> exact .ok
          · exact .ok
      · split
        · exact (ih (d.kid hc)).map
        · exact .fail (by simp)
    · exact .ok
end

/-- **C85**: reading texts, values and html of any nodes of the trees ends. -/
theorem C85_reads (hwf : ∀ r, T r → TreeWF h r) {X : List Nat} (hX : ∀ x ∈ X, Among h T x) (rd : Render) (e : Ext) (ct : List Char → Bool) (limit : Nat)
    (handle : Nat → Nat → Bool) (recH : Nat → Bool) (text : Nat → List Char) :
    textsByRecAll h ct limit handle recH X ≠ .error .diverge ∧ textsAll h ct limit X ≠ .error .diverge ∧ valOf h text X ≠ .error .diverge ∧
    htmlsS rd e h X ≠ .error .diverge ∧ outerHtmlsS rd e h X ≠ .error .diverge := by
  have sd := firm_noIds hwf
  refine ⟨?_, ?_, ?_, ?_, ?_⟩
  · exact Halts.flat fun x hx => sd.textsLoop_halts _ _ _ _ (sd.cp.down (hX x hx))
  · exact Halts.flat fun x hx => sd.textsLoop_halts _ _ _ _ (sd.cp.down (hX x hx))
  · show Halts _
    cases X with
    | nil => exact .ok
    | cons x X =>
      rw [valOf]
      unfold formValue
      split
      · exact (attrValueOr_halts _ _).map
      · split
        · unfold selectValue
          split
          · rename_i he; exact (hasAttr_halts (h := h) _ _).err he
          · split
            · rename_i he; exact (sd.collectOptions_halts _ (sd.cp.down (hX x List.mem_cons_self))).err he
            · split
              · exact .ok
              · split <;> exact .ok
        · split <;> exact .ok
  · refine Halts.flat fun x hx => ?_
    have hk : ∀ b, ∀ c ∈ h.kids x, Halts (pieceF rd e h h.fuel b c) := fun b c hc => sd.pieceF_halts rd e (sd.cp.down ((hX x hx).kid hc))
    unfold innerHtml
    split
    · exact .flat (hk _)
    · split
      · rename_i he; exact Halts.err (.flat (hk _)) he
      · exact .ok
    · exact .ok
  · exact Halts.flat fun x hx => sd.pieceF_halts rd e (sd.cp.down (hX x hx))

/-! ### Changes -/

theorem retainByIndexFrom_halts : ∀ (is : List Nat) (i : Nat) (v : List Nat), Halts (retainByIndexFrom i v is)
  | [], _, _ => .ok
  | j :: is, i, v => by
    rw [retainByIndexFrom]
    split
    · exact .fail (by simp)
    · split
      · rename_i he
        refine Halts.err ?_ he
        unfold vecRemove
        split
        · exact .ok
        · exact .fail (by simp)
      · exact retainByIndexFrom_halts is _ _

theorem removeNotAllowed_halts (allow : Nat → Bool) (l : List Nat) : Halts (removeNotAllowed allow l) := (retainByIndexFrom_halts _ _ _).map

theorem detach_halts (x : Nat) : Halts (h.detach x) := by
  unfold Heap.detach
  split
  · exact .ok
  · unfold Heap.removeChild
    repeat' split
    all_goals first | exact .ok | exact .fail (by simp)

/-- **C85**: on a state whose links are right every change ends, also one that makes no sense: for any nodes, in place or not, and fragments that
have been used. The parser is assumed to end. -/
theorem C85_changes {D : Nat → Prop} (ok : HeapOk h D) {e : Ext} (P : ∀ h s, e.parse h s ≠ .error .diverge) (op : Op) : op.run e h ≠ .error .diverge := by
  show Halts _
  have htake : ∀ n, Halts (h.takeNodes e n) := by
    intro n
    unfold Heap.takeNodes
    split
    · exact .ok
    · exact (detach_halts n).map
  cases op with
  | remove x => exact detach_halts x
  | removeText x =>
    show Halts (h.removeText x)
    unfold Heap.removeText
    split
    · exact .ok
    · split
      · exact .fail (by simp)
      · split
        · exact .ok
        · split
          · exact .fail (by simp)
          · simp only
            split
            · exact .fail (by simp)
            · exact .ok
  | insert pos t n =>
    show Halts (h.insertAdjacent e pos t n)
    unfold Heap.insertAdjacent
    split
    · rename_i he
      refine Halts.err ?_ he
      unfold Heap.validate
      split
      · exact .ok
      · split
        · exact .ok
        · split
          · exact .ok
          · obtain ⟨b, h4, -⟩ := hasAncestor_eq ok n (h.size + 1) t [] List.nodup_nil (by simp) (by simp)
            rw [h4]; exact .ok
    · exact .ok
    · split
      · rename_i he; exact (htake n).err he
      · rename_i h1 nodes _
        unfold Heap.placeNodes
        simp only
        split
        · rename_i he
          refine Halts.err ?_ he
          split
          · exact (removeNotAllowed_halts _ _).map
          · exact .ok
        · split
          · exact .ok
          · split
            · unfold Heap.insertInside
              simp only
              split
              · split
                · exact .fail (by simp)
                · split
                  · exact .ok
                  · split
                    · exact .fail (by simp)
                    · exact .ok
              · exact .ok
            · unfold Heap.insertBeside
              simp only
              split
              · exact .ok
              · split
                · exact .fail (by simp)
                · split
                  · exact .ok
                  · split
                    · exact .fail (by simp)
                    · repeat' split
                      all_goals exact .ok
  | replace t n =>
    show Halts ((h.replaceWith e t n).map _)
    refine Halts.map ?_
    unfold Heap.replaceWith
    simp only
    split
    · rename_i he; exact (htake n).err he
    · split
      · exact .ok
      · refine Halts.map ?_
        split
        · exact .ok
        · split
          · exact .fail (by simp)
          · split
            · exact .ok
            · split
              · exact .fail (by simp)
              · split
                · exact .fail (by simp)
                · split
                  · exact .fail (by simp)
                  · exact .ok
  | setText x s => exact .ok
  | appendText x s =>
    show Halts (h.appendText x s)
    unfold Heap.appendText
    split
    · exact .ok
    · exact .fail (by simp)
  | prependText x s =>
    show Halts (h.prependText x s)
    unfold Heap.prependText
    split
    · exact .ok
    · exact .fail (by simp)
  | setHtml x s =>
    show Halts (h.setHtml e x s)
    unfold Heap.setHtml
    simp only
    split
    · exact .ok
    · split
      · exact .fail (by simp)
      · split
        · exact .ok
        · split
          · rename_i he; exact Halts.err (P h s) he
          · split
            · exact .ok
            · split
              · rename_i he; exact (removeNotAllowed_halts _ _).err he
              · split
                · exact .ok
                · split
                  · exact .ok
                  · split
                    · exact .fail (by simp)
                    · split
                      · exact .fail (by simp)
                      · split
                        · exact .fail (by simp)
                        · exact .ok
  | load s => exact Halts.map (P h s)

/-! ### Examples -/

/-- A fragment inserted at its own second use, and a node that is not in place: the calls answer or panic. -/
example : Op.run ext0 demo2 (.insert .beforeEnd 13 10) ≠ .error .diverge := C85_changes (D := noneUsed) (okCheck_sound (by decide)) (by intro h s; simp only [ext0, parse0]; split <;> simp) _

example : outerHtmlsS rd0 ext0 demo [1, 6, 8] ≠ .error .diverge :=
  (C85_reads (T := (· = 0)) (by rintro r rfl; exact demo_wf) (by
    intro x hx
    simp only [List.mem_cons, List.not_mem_nil, or_false] at hx
    rcases hx with rfl | rfl | rfl
    · exact ⟨0, rfl, wfCheck_within [0] (by decide) rfl⟩
    · exact ⟨0, rfl, wfCheck_within [0, 1, 5] (by decide) rfl⟩
    · exact ⟨0, rfl, wfCheck_within [0] (by decide) rfl⟩) rd0 ext0 (fun _ => false) 0 (fun _ _ => true) (fun _ => true) (fun _ => [])).2.2.2.2

end Visdom
