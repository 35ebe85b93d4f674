import Verif.Proofs.TextSel
import Verif.Model.Methods
/-!
# The depth of nesting is bounded by the length of the text
-/
namespace Visdom
open Spec

theorem simText_mono {P Q : List Complex → List Char → Prop} {n : Nat} (hPQ : ∀ sel t, t.length < n → P sel t → Q sel t)
    {s : Sim} {t : List Char} (ht : SimText P s t) (hl : t.length ≤ n) : SimText Q s t := by
  cases ht with
  | all => exact .all
  | name hn => exact .name hn
  | cls hn => exact .cls hn
  | id hn => exact .id hn
  | attr h1 h2 h3 => exact .attr h1 h2 h3
  | attrTest h1 h2 h3 h4 h5 h6 => exact .attrTest h1 h2 h3 h4 h5 h6
  | nth h1 h2 h3 => exact .nth h1 h2 h3
  | nthIdx h1 h2 h3 => exact .nthIdx h1 h2 h3
  | edge => exact .edge
  | only => exact .only
  | root => exact .root
  | empty => exact .empty
  | contains h1 h2 h3 => exact .contains h1 h2 h3
  | checked => exact .checked
  | header => exact .header
  | input => exact .input
  | submit => exact .submit
  | not h1 h2 h3 =>
    refine .not h1 (hPQ _ _ ?_ h2) h3
    simp only [List.length_append, List.length_cons, List.length_nil] at hl
    omega
  | has h1 h2 h3 =>
    refine .has h1 (hPQ _ _ ?_ h2) h3
    simp only [List.length_append, List.length_cons, List.length_nil] at hl
    omega

theorem cmpdText_mono {P Q : List Complex → List Char → Prop} {n : Nat} (hPQ : ∀ sel t, t.length < n → P sel t → Q sel t)
    {ss : List Sim} {t : List Char} (ht : CmpdText P ss t) : t.length ≤ n → CmpdText Q ss t := by
  induction ht with
  | one h => intro hl; exact .one (simText_mono hPQ h hl)
  | cons h hn _ ih =>
    intro hl
    rw [List.length_append] at hl
    exact .cons (simText_mono hPQ h (by omega)) hn (ih (by omega))

theorem stepsText_mono {P Q : List Complex → List Char → Prop} {n : Nat} (hPQ : ∀ sel t, t.length < n → P sel t → Q sel t)
    {l : Complex} {t : List Char} (ht : StepsText P l t) : t.length ≤ n → StepsText Q l t := by
  induction ht with
  | nil => intro _; exact .nil
  | cons hc hu _ ih =>
    intro hl
    simp only [List.length_append] at hl
    exact .cons hc (cmpdText_mono hPQ hu (by omega)) (ih (by omega))

theorem altsText_mono {P Q : List Complex → List Char → Prop} {n : Nat} (hPQ : ∀ sel t, t.length < n → P sel t → Q sel t)
    {sel : List Complex} {t : List Char} (ht : AltsText P sel t) : t.length ≤ n → AltsText Q sel t := by
  induction ht with
  | nil => intro _; exact .nil
  | cons h1 h2 hu hv _ ih =>
    intro hl
    simp only [List.length_append, List.length_cons] at hl
    exact .cons h1 h2 (cmpdText_mono hPQ hu (by omega)) (stepsText_mono hPQ hv (by omega)) (ih (by omega))

theorem coreText_mono {P Q : List Complex → List Char → Prop} {n : Nat} (hPQ : ∀ sel t, t.length < n → P sel t → Q sel t)
    {sel : List Complex} {t : List Char} (ht : CoreText P sel t) (hl : t.length ≤ n) : CoreText Q sel t := by
  cases ht with
  | mk hh hu hv hz =>
    simp only [List.length_append] at hl
    exact .mk hh (cmpdText_mono hPQ hu (by omega)) (stepsText_mono hPQ hv (by omega)) (altsText_mono hPQ hz (by omega))

theorem coreD_len : ∀ (n d : Nat) {sel : List Complex} {t : List Char}, t.length ≤ n → CoreD d sel t → CoreD n sel t
  | 0, d, sel, t, hl, ht => by
    have ht' : ∃ P, CoreText P sel t := by cases d <;> exact ⟨_, ht⟩
    obtain ⟨P, ht'⟩ := ht'
    exact coreText_mono (n := 0) (fun _ t h => absurd h (Nat.not_lt_zero _)) ht' hl
  | n + 1, 0, sel, t, hl, ht => coreText_mono (n := n + 1) (fun _ _ _ h => h.elim) ht hl
  | n + 1, d + 1, sel, t, hl, ht =>
    coreText_mono (n := n + 1) (fun _ _ hlt h => ⟨coreD_len n d (Nat.lt_succ_iff.1 hlt) h.1, h.2⟩) ht hl

/-- A text of a selector is parsed to the selector. -/
theorem parseSel_text (h : Heap) (env : Env) {sel : List Complex} {text : List Char} (ht : SelText sel text) (lookup : Bool) :
    parseSel h env lookup text = .ok (.ok (sel.map fun c => optimizeGroup lookup (cplxCmpds h env c))) := by
  obtain ⟨d, w, t, w', hc, hw, hw', rfl⟩ := ht
  have hl : t.length ≤ (w ++ t ++ w').length := by simp only [List.length_append]; omega
  exact fromStr_core h env _ (coreD_len _ d hl hc) hw hw' 0 lookup

theorem parseSel_find (h : Heap) (env : Env) {sel : List Complex} {text : List Char} (ht : SelText sel text) :
    parseSel h env true text = .ok (.ok (findSel h env sel)) := parseSel_text h env ht true
theorem parseSel_inner (h : Heap) (env : Env) {sel : List Complex} {text : List Char} (ht : SelText sel text) :
    parseSel h env false text = .ok (.ok (innerSel h env sel)) := by
  rw [parseSel_text h env ht false, innerSel_map]

theorem selText_ne {sel : List Complex} {text : List Char} (ht : SelText sel text) : text.isEmpty = false := by
  obtain ⟨d, w, t, w', hc, hw, hw', rfl⟩ := ht
  have ht' : ∃ P, CoreText P sel t := by cases d <;> exact ⟨_, hc⟩
  obtain ⟨P, ht'⟩ := ht'
  cases ht' with
  | mk _ hu _ _ =>
    obtain ⟨_, _, _, _, -, rfl, -⟩ := cmpdText_head hu
    simp

end Visdom
