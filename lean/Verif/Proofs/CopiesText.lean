import Verif.Proofs.CopiesRules
import Verif.Model.Methods
/-!
# Queries on copies: the methods that take a text
-/
namespace Visdom
open Spec

variable {h h' : Heap} {T : Nat → Prop} {f : Nat → Nat} {env env' : Env}

/-- What parsing gives corresponds: the same error, or selectors that correspond. -/
inductive ParsedRel (h : Heap) (T : Nat → Prop) (f : Nat → Nat) : Except ParseErr (List Proc) → Except ParseErr (List Proc) → Prop
  | bad (e : ParseErr) : ParsedRel h T f (.error e) (.error e)
  | good {ps ps' : List Proc} : ProcsRel h T f ps ps' → ParsedRel h T f (.ok ps) (.ok ps')

/-- Two readers of nested texts. -/
def ReadRel (h : Heap) (T : Nat → Prop) (f : Nat → Nat) (rd rd' : List Char → R (Except ParseErr (List Proc))) : Prop :=
  ∀ t, ERel (ParsedRel h T f) (rd t) (rd' t)

section
variable (cp : Copies h h' T f env env')
include cp

theorem Spec.Copies.textNthMatcher (last ofType : Bool) (n i : Option (List Char)) :
    MRel h T f (textNthMatcher h last ofType n i) (textNthMatcher h' last ofType n i) := by
  unfold Visdom.textNthMatcher
  simp only
  split
  · refine .ofAll fun l c hl => ?_
    cases c with
    | some _ => exact .err _
    | none =>
      refine cp.groupDo _ hl fun d d' hd => ?_
      cases ofType
      · exact cp.handleNthChild _ hl hd
      · exact cp.handleNthOfType _ hl hd
  · cases ofType
    · exact cp.nthChildMatcher _ _ _
    · exact cp.nthOfTypeMatcher _ _ _

omit cp in
theorem textApply_rel {rd rd' : List Char → R (Except ParseErr (List Proc))} (hrd : ReadRel h T f rd rd') {F F' : List Nat → List Proc → R (List Nat)}
    (hF : ∀ l ps ps', (∀ x ∈ l, Among h T x) → ProcsRel h T f ps ps' → ERel (LRel h T f) (F l ps) (F' (l.map f) ps')) (t : List Char) :
    MRel h T f (textApply rd F t) (textApply rd' F' t) := by
  refine .ofAll fun l c hl => ?_
  simp only [List.isEmpty_map]
  split
  · exact .ok .nil
  · have h1 := hrd t
    generalize rd t = A, rd' t = A' at h1
    cases h1 with
    | err e => exact .err e
    | ok hr =>
      cases hr with
      | bad e => exact .ok .nil
      | good hp => exact hF l _ _ hl hp

theorem Spec.Copies.partMatcher {rd rd' : List Char → R (Except ParseErr (List Proc))} (hrd : ReadRel h T f rd rd') (p : Part) :
    MRel h T f (partMatcher h env rd p) (partMatcher h' env' rd' p) := by
  cases p with
  | all => exact allMatcher_rel
  | name n => exact cp.nameMatcher n
  | cls c => exact cp.classMatcher c
  | id i => exact cp.idMatcher i
  | attr k m v => exact cp.attrMatcher k m v
  | nth last ofType n i => exact cp.textNthMatcher last ofType n i
  | edge last ofType =>
    cases ofType
    · exact cp.edgeChildMatcher _
    · exact cp.edgeOfTypeMatcher _
  | only ofType =>
    cases ofType
    · exact cp.onlyChildMatcher
    · exact cp.onlyOfTypeMatcher
  | root => exact cp.rootMatcher
  | empty => exact cp.emptyMatcher
  | contains t => exact cp.containsMatcher t
  | checked => exact cp.checkedMatcher
  | not t => exact textApply_rel hrd (fun l _ _ hl hp => cp.notSel hp ⟨rfl, hl⟩) t
  | has t => exact textApply_rel hrd (fun l _ _ hl hp => cp.hasSel hp ⟨rfl, hl⟩) t
  | header => exact textApply_rel hrd (fun l _ _ hl hp => cp.filterSel hp ⟨rfl, hl⟩) _
  | input => exact textApply_rel hrd (fun l _ _ hl hp => cp.filterSel hp ⟨rfl, hl⟩) _
  | submit => exact textApply_rel hrd (fun l _ _ hl hp => cp.filterSel hp ⟨rfl, hl⟩) _

omit cp in
theorem forall2_map {α β γ : Type} {P : β → γ → Prop} {u : α → β} {v : α → γ} (hu : ∀ a, P (u a) (v a)) (l : List α) : List.Forall₂ P (l.map u) (l.map v) := by
  induction l with
  | nil => exact .nil
  | cons a l ih => exact .cons (hu a) ih

theorem Spec.Copies.groupCmpds {rd rd' : List Char → R (Except ParseErr (List Proc))} (hrd : ReadRel h T f rd rd') (g : List (List (Part × Comb))) :
    CplxRel h T f (groupCmpds h env rd g) (groupCmpds h' env' rd' g) :=
  forall2_map (fun c => forall2_map (fun s => ⟨cp.partMatcher hrd s.1, rfl⟩) c) g

/-- **A text means the same on both sides.** -/
theorem Spec.Copies.fromStr (d : Nat) (b : Bool) : ReadRel h T f (fromStr h env d b) (fromStr h' env' d b) := by
  induction d generalizing b with
  | zero => exact fun t => .err _
  | succ d ih =>
    intro t
    rw [Visdom.fromStr, Visdom.fromStr]
    cases parseGroups t with
    | error e => exact .err e
    | ok r =>
      cases r with
      | error e => exact .ok (.bad e)
      | ok gs => exact .ok (.good (forall2_map (fun g => optimizeGroup_rel b (cp.groupCmpds (ih false) g)) gs))

theorem Spec.Copies.parseSel (b : Bool) (t : List Char) : ERel (ParsedRel h T f) (parseSel h env b t) (parseSel h' env' b t) := cp.fromStr _ b t

end

/-- A result with the number of reports. -/
def NRel {α β : Type} (P : α → β → Prop) (a : α × Nat) (b : β × Nat) : Prop := P a.1 b.1 ∧ b.2 = a.2

variable {own own' : Nat → Bool} (ho : ∀ x, Among h T x → own' (f x) = own x)
include ho

theorem throwErr_rel {α β : Type} {P : α → β → Prop} {a : α} {b : β} (hab : P a b) {l l' : List Nat} (hl : LRel h T f l l') :
    ERel (NRel P) (throwErr own l a) (throwErr own' l' b) := by
  obtain ⟨rfl, hl⟩ := hl
  cases l with
  | nil => exact .err _
  | cons x l => exact .ok ⟨hab, by simp only; rw [ho x (hl x List.mem_cons_self)]⟩

variable (cp : Copies h h' T f env env')
include cp

theorem Spec.Copies.triggerMethod {α β : Type} {P : α → β → Prop} {a : α} {b : β} (hab : P a b) {F : List Proc → R α} {F' : List Proc → R β}
    (hF : ∀ ps ps', ProcsRel h T f ps ps' → ERel P (F ps) (F' ps')) {l l' : List Nat} (hl : LRel h T f l l') (t : List Char) :
    ERel (NRel P) (triggerMethod h env own l t a F) (triggerMethod h' env' own' l' t b F') := by
  unfold Visdom.triggerMethod
  rw [hl.isEmpty]
  split
  · exact .ok ⟨hab, rfl⟩
  · have h1 := cp.parseSel false t
    generalize Visdom.parseSel h env false t = A, Visdom.parseSel h' env' false t = A' at h1
    cases h1 with
    | err e => exact .err e
    | ok hr =>
      cases hr with
      | bad e => exact throwErr_rel ho hab hl
      | good hp => exact (hF _ _ hp).map fun _ _ hab => ⟨hab, rfl⟩

theorem Spec.Copies.findText {l l' : List Nat} (hl : LRel h T f l l') (t : List Char) : ERel (NRel (LRel h T f)) (findText h env own l t) (findText h' env' own' l' t) := by
  have h1 := cp.parseSel true t
  unfold Visdom.findText
  generalize Visdom.parseSel h env true t = A, Visdom.parseSel h' env' true t = A' at h1
  cases h1 with
  | err e => exact .err e
  | ok hr =>
    cases hr with
    | bad e => exact throwErr_rel ho .nil hl
    | good hp => exact (cp.findSelector hp hl).map fun _ _ hab => ⟨hab, rfl⟩

theorem Spec.Copies.filterText {l l' : List Nat} (hl : LRel h T f l l') (t : List Char) :
    ERel (NRel (LRel h T f)) (filterText h env own l t) (filterText h' env' own' l' t) :=
  cp.triggerMethod ho .nil (fun _ _ hp => cp.filterSel hp hl) hl t
theorem Spec.Copies.notText {l l' : List Nat} (hl : LRel h T f l l') (t : List Char) :
    ERel (NRel (LRel h T f)) (notText h env own l t) (notText h' env' own' l' t) :=
  cp.triggerMethod ho .nil (fun _ _ hp => cp.notSel hp hl) hl t
theorem Spec.Copies.hasText {l l' : List Nat} (hl : LRel h T f l l') (t : List Char) :
    ERel (NRel (LRel h T f)) (hasText h env own l t) (hasText h' env' own' l' t) :=
  cp.triggerMethod ho .nil (fun _ _ hp => cp.hasSel hp hl) hl t
theorem Spec.Copies.isText {l l' : List Nat} (hl : LRel h T f l l') (t : List Char) :
    ERel (NRel (· = ·)) (isText h env own l t) (isText h' env' own' l' t) :=
  cp.triggerMethod ho rfl (fun _ _ hp => .of_eq (cp.isSel hp hl)) hl t
theorem Spec.Copies.isAllText {l l' : List Nat} (hl : LRel h T f l l') (t : List Char) :
    ERel (NRel (· = ·)) (isAllText h env own l t) (isAllText h' env' own' l' t) :=
  cp.triggerMethod ho rfl (fun _ _ hp => .of_eq (cp.isAllSel hp hl)) hl t

theorem Spec.Copies.navText {F F' : Option (List Proc) → R (List Nat)} (hF : ∀ o o', ORel (ProcsRel h T f) o o' → ERel (LRel h T f) (F o) (F' o'))
    {l l' : List Nat} (hl : LRel h T f l l') (t : List Char) : ERel (NRel (LRel h T f)) (navText h env own l t F) (navText h' env' own' l' t F') := by
  unfold Visdom.navText
  split
  · exact (hF _ _ .none).map fun _ _ hab => ⟨hab, rfl⟩
  · exact cp.triggerMethod ho .nil (fun _ _ hp => hF _ _ (.some hp)) hl t

theorem Spec.Copies.childrenText {l l' : List Nat} (hl : LRel h T f l l') (t : List Char) :
    ERel (NRel (LRel h T f)) (childrenText h env own l t) (childrenText h' env' own' l' t) :=
  cp.navText ho (fun _ _ hp => cp.selectWithComb hp hl .children) hl t
theorem Spec.Copies.prevText {l l' : List Nat} (hl : LRel h T f l l') (t : List Char) :
    ERel (NRel (LRel h T f)) (prevText h env own l t) (prevText h' env' own' l' t) :=
  cp.navText ho (fun _ _ hp => cp.selectWithComb hp hl .prev) hl t
theorem Spec.Copies.nextText {l l' : List Nat} (hl : LRel h T f l l') (t : List Char) :
    ERel (NRel (LRel h T f)) (nextText h env own l t) (nextText h' env' own' l' t) :=
  cp.navText ho (fun _ _ hp => cp.selectWithComb hp hl .next) hl t
theorem Spec.Copies.prevAllText {l l' : List Nat} (hl : LRel h T f l l') (t : List Char) :
    ERel (NRel (LRel h T f)) (prevAllText h env own l t) (prevAllText h' env' own' l' t) :=
  cp.navText ho (fun _ _ hp => cp.selectWithComb hp (cp.uniqueSiblingLast hl) .prevAll) (cp.uniqueSiblingLast hl) t
theorem Spec.Copies.nextAllText {l l' : List Nat} (hl : LRel h T f l l') (t : List Char) :
    ERel (NRel (LRel h T f)) (nextAllText h env own l t) (nextAllText h' env' own' l' t) :=
  cp.navText ho (fun _ _ hp => cp.selectWithComb hp (cp.uniqueSiblingFirst hl) .nextAll) (cp.uniqueSiblingFirst hl) t
theorem Spec.Copies.parentText {l l' : List Nat} (hl : LRel h T f l l') (t : List Char) :
    ERel (NRel (LRel h T f)) (parentText h env own l t) (parentText h' env' own' l' t) :=
  cp.navText ho (fun _ _ hp => cp.selectWithComb hp (cp.uniqueSiblingFirst hl) .parent) (cp.uniqueSiblingFirst hl) t
theorem Spec.Copies.parentsText {l l' : List Nat} (hl : LRel h T f l l') (t : List Char) :
    ERel (NRel (LRel h T f)) (parentsText h env own l t) (parentsText h' env' own' l' t) :=
  cp.navText ho (fun _ _ hp => cp.parentsSel hp hl) (cp.uniqueSiblingFirst hl) t

theorem Spec.Copies.siblingsText {l l' : List Nat} (hl : LRel h T f l l') (t : List Char) :
    ERel (NRel (LRel h T f)) (siblingsText h env own l t) (siblingsText h' env' own' l' t) := by
  have h1 := cp.parseSel true (trim t)
  unfold Visdom.siblingsText
  split
  · exact (cp.siblingsSel .none hl).map fun _ _ hab => ⟨hab, rfl⟩
  · generalize Visdom.parseSel h env true (trim t) = A, Visdom.parseSel h' env' true (trim t) = A' at h1
    cases h1 with
    | err e => exact .err e
    | ok hr =>
      cases hr with
      | bad e => exact throwErr_rel ho .nil hl
      | good hp => exact (cp.siblingsSel (.some hp) hl).map fun _ _ hab => ⟨hab, rfl⟩

theorem Spec.Copies.closestText {l l' : List Nat} (hl : LRel h T f l l') (t : List Char) :
    ERel (NRel (LRel h T f)) (closestText h env own l t) (closestText h' env' own' l' t) := by
  have h1 := cp.parseSel true t
  unfold Visdom.closestText
  split
  · exact .ok ⟨.nil, rfl⟩
  · generalize Visdom.parseSel h env true t = A, Visdom.parseSel h' env' true t = A' at h1
    cases h1 with
    | err e => exact .err e
    | ok hr =>
      cases hr with
      | bad e => exact throwErr_rel ho .nil hl
      | good hp => exact (cp.closest (.some hp) hl).map fun _ _ hab => ⟨hab, rfl⟩

theorem Spec.Copies.untilText {F F' : List Proc → Option (List Proc) → R (List Nat)}
    (hF : ∀ ps ps' o o', ProcsRel h T f ps ps' → ORel (ProcsRel h T f) o o' → ERel (LRel h T f) (F ps o) (F' ps' o'))
    {l l' : List Nat} (hl : LRel h T f l l') (t u : List Char) : ERel (NRel (LRel h T f)) (untilText h env own l t u F) (untilText h' env' own' l' t u F') := by
  have h1 := cp.parseSel true t
  have h2 := cp.parseSel true u
  unfold Visdom.untilText
  generalize Visdom.parseSel h env true t = A, Visdom.parseSel h' env' true t = A' at h1
  generalize Visdom.parseSel h env true u = B, Visdom.parseSel h' env' true u = B' at h2
  cases h1 with
  | err e => exact .err e
  | ok hr =>
    cases hr with
    | bad e => exact throwErr_rel ho .nil hl
    | good hp =>
      simp only
      split
      · exact (hF _ _ _ _ hp .none).map fun _ _ hab => ⟨hab, rfl⟩
      · cases h2 with
        | err e => exact .err e
        | ok hr =>
          cases hr with
          | bad e => exact throwErr_rel ho .nil hl
          | good hq => exact (hF _ _ _ _ hp (.some hq)).map fun _ _ hab => ⟨hab, rfl⟩

theorem Spec.Copies.prevUntilText {l l' : List Nat} (hl : LRel h T f l l') (t u : List Char) (b : Bool) :
    ERel (NRel (LRel h T f)) (prevUntilText h env own l t u b) (prevUntilText h' env' own' l' t u b) :=
  cp.untilText ho (fun _ _ _ _ hp hq => cp.prevUntil hp hq b hl) (cp.uniqueSiblingLast hl) t u
theorem Spec.Copies.nextUntilText {l l' : List Nat} (hl : LRel h T f l l') (t u : List Char) (b : Bool) :
    ERel (NRel (LRel h T f)) (nextUntilText h env own l t u b) (nextUntilText h' env' own' l' t u b) :=
  cp.untilText ho (fun _ _ _ _ hp hq => cp.nextUntil hp hq b hl) (cp.uniqueSiblingFirst hl) t u
theorem Spec.Copies.parentsUntilText {l l' : List Nat} (hl : LRel h T f l l') (t u : List Char) (b : Bool) :
    ERel (NRel (LRel h T f)) (parentsUntilText h env own l t u b) (parentsUntilText h' env' own' l' t u b) :=
  cp.untilText ho (fun _ _ _ _ hp hq => cp.parentsUntil hp hq b hl) (cp.uniqueSiblingFirst hl) t u

end Visdom
