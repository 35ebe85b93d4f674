import Verif.Spec.Selector
/-!
# Specification of `:checked` and of the aliases
-/
namespace Visdom.Spec
variable (h : Heap) (r : Nat)

/-- `:checked` as in HTML: the default option of a single-choice `select` is its first option if nothing in the
`select` is selected. -/
def CheckedHtml (x : Nat) : Prop :=
  (Named h "input".toList x ∧ (∃ v, viewOf (h.node x).attrs "type".toList = some (some v) ∧
      (SameIgnoringCase v "checkbox".toList ∨ SameIgnoringCase v "radio".toList)) ∧ HasAttr h "checked".toList x) ∨
  (Named h "option".toList x ∧ (HasAttr h "selected".toList x ∨
    ∃ p, Within h r p ∧ x ∈ h.kids p ∧ Named h "select".toList p ∧ ¬ HasAttr h "multiple".toList p ∧
      (∀ y, LaterSib h r y x → ¬ Named h "option".toList y) ∧
      ∀ y ∈ h.kids p, h.isElem y = true → ¬ SelectedIn h y))

/-- No sibling before `x` contains a selected option. -/
def NoneBefore (x : Nat) : Prop := ∀ y, LaterSib h r y x → h.isElem y = true → ¬ SelectedIn h y

/-- A type selector as one alternative. -/
def tyAlt (n : String) : Complex := [(.childrenAll, [.name n.toList])]

/-- `constants.rs:24`: `h1,h2,h3,h4,h5,h6`. -/
def headerSel : List Complex := ["h1", "h2", "h3", "h4", "h5", "h6"].map tyAlt
/-- `constants.rs:27`: `input,select,textarea,button`. -/
def inputSel : List Complex := ["input", "select", "textarea", "button"].map tyAlt
/-- `constants.rs:25-26`: `input[type='submit'],button[type='submit']`. -/
def submitSel : List Complex := ["input", "button"].map fun n =>
  [(.childrenAll, [.name n.toList, .attrTest "type".toList .equals "submit".toList])]

end Visdom.Spec
