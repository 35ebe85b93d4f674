import Verif.Proofs.EndsQuery
import Verif.Proofs.NoPanic
import Verif.Proofs.TextSel
/-!
# Queries end: the parser, the rules and the texts
-/
namespace Visdom
open Spec

variable {h : Heap} {T : Nat → Prop} {env : Env}

/-! ### The parser -/

theorem matched_halts (p : Pat) (cs : List Char) : Halts (p.matched cs) := by
  cases p with
  | chr c =>
    cases cs with
    | nil => exact .fail (by simp)
    | cons => exact .ok
  | identity =>
    rw [Pat.matched]
    unfold identMatched
    split
    · exact .fail (by simp)
    · split <;> exact .ok
  | regexp ctx =>
    rw [Pat.matched]
    refine Halts.map ?_
    unfold getRule
    split
    · exact .ok
    · split
      · exact .ok
      · split
        · exact .ok
        · exact .fail (by simp)
  | _ => exact .ok

theorem execPats_halts : ∀ (ps : List Pat) (cs : List Char), Halts (execPats ps cs)
  | [], _ => .ok
  | p :: ps, cs => by
    rw [execPats]
    split
    · rename_i he; exact (matched_halts p cs).err he
    · exact .ok
    · simp only
      split
      · rename_i he; exact (execPats_halts ps _).err he
      · exact .ok

theorem execQueues_halts (ps : List Pat) (cs : List Char) : Halts (execQueues ps cs) := (execPats_halts ps cs).map

theorem findRule_halts : ∀ (rs : List ParseRule) (cs : List Char), Halts (findRule rs cs)
  | [], _ => .ok
  | r :: rs, cs => by
    rw [findRule]
    split
    · rename_i he; exact (execQueues_halts _ _).err he
    · exact .ok
    · exact findRule_halts rs cs

theorem untilEnd_halts (chars rest : List Char) (idx : Nat) (untl : List Pat) (level : Nat) : Halts (untilEnd chars rest idx untl level) := by
  unfold untilEnd
  simp only
  split
  · exact .ok
  · split
    · rename_i he; exact (execPats_halts _ _).err he
    · split <;> exact .ok

theorem parseUntil_halts : ∀ (f : Nat) (chars rest : List Char) (idx : Nat) (untl : List Pat) (level : Nat), rest.length < f →
    Halts (parseUntil f chars rest idx untl level)
  | 0, _, _, _, _, _, hf => absurd hf (Nat.not_lt_zero _)
  | f + 1, chars, rest, idx, untl, level, hf => by
    rw [parseUntil]
    split
    · exact .ok
    · rename_i h0
      have h0 : rest.isEmpty = false := by simpa using h0
      split
      · rename_i he; exact (execQueues_halts _ _).err he
      · rename_i hx
        have := drop_lt h0 (execQueues_pos hx)
        exact parseUntil_halts f _ _ _ _ _ (by omega)
      · split
        · rename_i he; exact (findRule_halts _ _).err he
        · exact untilEnd_halts _ _ _ _ _
        · rename_i hx
          have := drop_lt h0 (findRule_pos hx)
          split
          · exact parseUntil_halts f _ _ _ _ _ (by omega)
          · split
            · rename_i he; exact (parseUntil_halts f _ _ _ _ _ (by omega)).err he
            · exact .ok
            · exact untilEnd_halts _ _ _ _ _

theorem charsAt_halts (data : List Matched) (i : Nat) : Halts (charsAt data i) := by
  unfold charsAt
  split
  · exact .ok
  · exact .fail (by simp)

theorem makeNth_halts (a b : Bool) (data : List Matched) : Halts (makeNth a b data) := by
  unfold makeNth
  split
  · exact .fail (by simp)
  · split
    · exact .ok
    · split
      · exact .ok
      · exact .fail (by simp)

theorem makePart_halts (r : RuleId) (data : List Matched) : Halts (makePart r data) := by
  cases r with
  | attr =>
    rw [makePart]
    split
    · exact .ok
    · exact .fail (by simp)
  | _ => first | exact .ok | exact (charsAt_halts _ _).map | exact makeNth_halts _ _ _

theorem selectorStep_halts (st : PState) : Halts (selectorStep st) := by
  unfold selectorStep
  simp only
  split
  · rename_i he; exact (findRule_halts _ _).err he
  · exact .ok
  · split
    · exact (makePart_halts _ _).map
    · split
      · exact .fail (by simp)
      · split
        · split
          · rename_i he; exact (parseUntil_halts _ _ _ _ _ _ (Nat.lt_succ_self _)).err he
          · exact .ok
          · exact (makePart_halts _ _).map
        · exact .ok

theorem splitterStep_halts (st : PState) (m : List Matched) (len : Nat) : Halts (splitterStep st m len) := by
  unfold splitterStep
  split
  · exact .fail (by simp)
  · simp only
    split
    · exact .ok
    · split
      · split <;> exact .ok
      · split
        · rename_i he
          refine Halts.err ?_ he
          unfold combOf
          split <;> first | exact .ok | exact .fail (by simp)
        · exact .ok

theorem parseStep_halts (st : PState) : Halts (parseStep st) := by
  unfold parseStep
  split
  · rename_i he; exact (execQueues_halts _ _).err he
  · exact splitterStep_halts _ _ _
  · exact selectorStep_halts st

theorem parseLoop_halts : ∀ (f : Nat) (st : PState), st.rest.length ≤ f → Halts (parseLoop f st)
  | 0, st, hf => by
    rw [parseLoop, if_pos (by rw [List.isEmpty_iff, ← List.length_eq_zero_iff]; omega)]
    exact .ok
  | f + 1, st, hf => by
    rw [parseLoop]
    split
    · exact .ok
    · rename_i h0
      have h0 : st.rest.isEmpty = false := by simpa using h0
      split
      · rename_i he; exact (parseStep_halts _).err he
      · exact .ok
      · rename_i hs
        have := parseStep_shrinks h0 hs
        exact parseLoop_halts f _ (by omega)

theorem parseGroups_halts (text : List Char) : Halts (parseGroups text) := by
  unfold parseGroups
  split
  · exact .ok
  · split
    · rename_i he; exact (parseLoop_halts text.length { rest := text } (Nat.le_refl _)).err he
    · exact .ok
    · split <;> exact .ok

/-! ### The rules -/

theorem getAttribute_halts (m : Meta) (k : List Char) : Halts (getAttribute m k) := by
  unfold getAttribute
  split
  · exact .ok
  · split
    · exact .fail (by simp)
    · split <;> exact .ok

theorem hasAttr_halts (x : Nat) (k : List Char) : Halts (hasAttr h x k) := (getAttribute_halts _ _).map

theorem groupLoop_halts {A : Nat → R (Option (List Nat))} (hA : ∀ n, Halts (A n)) : ∀ (l : List Nat) (i : Nat) (d : SibData), Halts (groupLoop h A l i d)
  | [], _, _ => .ok
  | x :: l, i, d => by
    rw [groupLoop]
    split
    · exact groupLoop_halts hA l _ _
    · split
      · exact groupLoop_halts hA l _ _
      · split
        · rename_i he; exact (hA _).err he
        · split
          · rename_i he; exact (groupLoop_halts hA l _ _).err he
          · exact .ok

theorem groupDo_halts {A : Nat → R (Option (List Nat))} {cb : SibData → R (List Nat)} {l : List Nat} (hA : ∀ n, Halts (A n)) (hcb : ∀ d, Halts (cb d)) :
    Halts (groupDo h A cb l) := by
  unfold groupDo
  split
  · rename_i he; exact (groupLoop_halts hA _ _ _).err he
  · exact .flat fun d _ => hcb d

theorem atAll_halts (c is : List Nat) : Halts (atAll c is) := .flat fun i _ => by
  split
  · exact .ok
  · exact .fail (by simp)

theorem nthChildHandle_halts (asc : Bool) (s a c : List Nat) : Halts (nthChildHandle asc s a c) := by
  unfold nthChildHandle
  split
  · split
    · exact atAll_halts _ _
    · exact .ok
  · split
    · refine .flat fun i _ => ?_
      split
      · exact .fail (by simp)
      · split
        · exact .ok
        · exact .fail (by simp)
    · exact .ok

theorem handleNthChild_halts (asc : Bool) (l : List Nat) (d : SibData) : Halts (handleNthChild h asc l d) := by
  unfold handleNthChild
  split
  · exact .fail (by simp)
  · exact .ok
  · split
    · exact .fail (by simp)
    · exact nthChildHandle_halts _ _ _ _

theorem specPass_halts (asc : Bool) (mark : List Nat → List Bool) (x : Nat) : Halts (specPass h asc mark x) := by
  unfold specPass
  split
  · exact .ok
  · split
    · exact .fail (by simp)
    · exact .ok

theorem nthChildSpec_halts (asc : Bool) (i : Int) (x : Nat) : Halts (nthChildSpec h asc i x) := by
  unfold nthChildSpec
  split
  · exact specPass_halts _ _ _
  · exact .ok

theorem nameMarks_halts (a : List Nat) : ∀ (names : Names) (l : List Nat), Halts (nameMarks h a names l)
  | _, [] => .ok
  | names, x :: l => by
    rw [nameMarks]
    split
    · rename_i he
      refine Halts.err ?_ he
      unfold nameStep
      split
      · exact .ok
      · split
        · exact .fail (by simp)
        · exact .ok
    · split
      · rename_i he; exact (nameMarks_halts a _ l).err he
      · exact .ok

theorem handleNthOfType_halts (asc : Bool) (l : List Nat) (d : SibData) : Halts (handleNthOfType h asc l d) := by
  unfold handleNthOfType
  split
  · exact .fail (by simp)
  · exact .ok
  · split
    · exact .fail (by simp)
    · simp only
      split
      · rename_i he; exact (nameMarks_halts _ _ _).err he
      · exact .ok

theorem nthOfTypeSpec_halts (asc : Bool) (i : Int) (x : Nat) : Halts (nthOfTypeSpec h asc i x) := by
  unfold nthOfTypeSpec
  split
  · simp only
    split
    · split
      · rename_i he; exact (nameMarks_halts _ _ _).err he
      · exact specPass_halts _ _ _
    · split
      · exact .fail (by simp)
      · split
        · rename_i he; exact (nameMarks_halts _ _ _).err he
        · exact specPass_halts _ _ _
  · exact .ok

theorem allowed_halts (n i : Option Int) (t : Nat) : Halts (getAllowedIndexs n i t) := by
  unfold getAllowedIndexs
  split
  · exact .ok
  · split
    · exact .fail (by simp)
    · split <;> exact .ok

theorem onlyOfTypeCb_halts (l : List Nat) (d : SibData) : Halts (onlyOfTypeCb h l d) := by
  unfold onlyOfTypeCb
  split
  · exact .fail (by simp)
  · simp only
    split
    · exact atAll_halts _ _
    · exact .ok

section
variable (sd : Firm h T env)
include sd

theorem Firm.optionBefore_halts {n x : Nat} (hx : Among h T x) (hn : toFront h x < n) : Halts (optionBefore h n x) := by
  induction n generalizing x with
  | zero => omega
  | succ n ih =>
    rw [optionBefore]
    split
    · rename_i he; exact (prevElem_halts x).err he
    · exact .ok
    · rename_i y hy
      split
      · exact .ok
      · have := sd.cp.prev_less hx hy
        have h1 := sd.cp.prevElem hx
        generalize h.prevElem (id x) = B at h1
        rw [hy] at h1
        cases h1 with
        | ok hab => exact ih (hab.2 y rfl) (by omega)

theorem Firm.selectedOption_halts {n n' x : Nat} (d : DownOk h h T n n' x) : Halts (selectedOption h n x) := by
  induction n generalizing n' x with
  | zero => obtain ⟨_, _, h1, _⟩ := sd.cp.down_pos d; cases h1
  | succ n ih =>
    obtain ⟨_, k', _, rfl⟩ := sd.cp.down_pos d
    rw [selectedOption]
    split
    · exact hasAttr_halts _ _
    · exact .any fun y hy => ih (d.child hy)

theorem Firm.selectedAfter_halts {n x : Nat} (hx : Among h T x) (hn : toEnd h x < n) : Halts (selectedAfter h n x) := by
  induction n generalizing x with
  | zero => omega
  | succ n ih =>
    rw [selectedAfter]
    split
    · exact .ok
    · rename_i y hy
      have hya := (sd.cp.nextElem hx).2 y hy
      have := sd.cp.next_less hx hy
      split
      · rename_i he; exact (sd.selectedOption_halts (sd.cp.down hya)).err he
      · exact .ok
      · exact ih hya (by omega)

theorem Firm.checkedOne_halts {x : Nat} (hx : Among h T x) : Halts (checkedOne h x) := by
  unfold checkedOne
  split
  · split
    · rename_i he; exact (getAttribute_halts _ _).err he
    · split
      · exact hasAttr_halts _ _
      · exact .ok
    · exact .ok
  · split
    · split
      · rename_i he; exact (hasAttr_halts (h := h) _ _).err he
      · exact .ok
      · unfold defaultOption
        split
        · exact .ok
        · split
          · split
            · rename_i he; exact (hasAttr_halts (h := h) _ _).err he
            · exact .ok
            · split
              · rename_i he; exact (sd.optionBefore_halts hx (sd.cp.toFront_fuel hx).1).err he
              · exact .ok
              · exact (sd.selectedAfter_halts hx (sd.cp.toEnd_fuel hx).1).map
          · exact .ok
    · exact .ok
end

/-- Parsing the text ends, and so does everything that is parsed. -/
def ReadEnd (h : Heap) (T : Nat → Prop) (rd : List Char → R (Except ParseErr (List Proc))) (t : List Char) : Prop :=
  Halts (rd t) ∧ ∀ sel, rd t = .ok (.ok sel) → ∀ p ∈ sel, PEnd h T p

/-- The text that the matcher of a part parses. -/
def nestedText : Part → Option (List Char)
  | .not t => some t
  | .has t => some t
  | .header => some headerText
  | .input => some inputText
  | .submit => some submitText
  | _ => none

section
variable (sd : Firm h T env)
include sd

theorem Firm.partMatcher_end {d : Nat} (p : Part) (hrd : ∀ t, nestedText p = some t → ReadEnd h T (Visdom.fromStr h env d false) t) :
    MEnd h T (Visdom.partMatcher h env (Visdom.fromStr h env d false) p) := by
  have hinn := sd.partMatcher (fun t sel hts => sd.fromStr d (b := false) (text := t) (sel := sel) hts) p
  have hkid := (sd.cp.partMatcher (sd.cp.fromStr d false) p).kid
  have ofOne : ∀ {m : Matcher} (_ : MIn h T m) (_ : KidSpec h T m) (_ : m.all = none) (_ : m.spec = none) (_ : ∀ g, m.one = some g → ∀ x, Among h T x → Halts (g x)),
      MEnd h T m := fun a b c d e => ⟨a, b, e, (by rw [c]; rintro F ⟨⟩), (by rw [d]; rintro F ⟨⟩)⟩
  have ofAll : ∀ {m : Matcher} (_ : MIn h T m) (_ : KidSpec h T m) (_ : m.one = none) (_ : m.spec = none)
      (_ : ∀ F, m.all = some F → ∀ l c, (∀ x ∈ l, Among h T x) → Halts (F l c)), MEnd h T m :=
    fun a b c d e => ⟨a, b, (by rw [c]; rintro F ⟨⟩), e, (by rw [d]; rintro F ⟨⟩)⟩
  have hap : ∀ {t : List Char} {f : List Nat → List Proc → R (List Nat)}, nestedText p = some t →
      (∀ l sel, (∀ x ∈ l, Among h T x) → (∀ p ∈ sel, PEnd h T p) → Halts (f l sel)) → ∀ F, (textApply (Visdom.fromStr h env d false) f t).all = some F →
      ∀ l c, (∀ x ∈ l, Among h T x) → Halts (F l c) := by
    rintro t f ht hf F ⟨⟩ l c hl
    simp only
    split
    · exact .ok
    · split
      · rename_i he; exact (hrd t ht).1.err he
      · exact .ok
      · rename_i sel hs; exact hf l sel hl ((hrd t ht).2 sel hs)
  have hnth : ∀ n i (asc : Bool) (l : List Nat) c, (∀ x ∈ l, Among h T x) → ∀ F, (Visdom.nthChildMatcher h asc n i).all = some F → Halts (F l c) := by
    rintro n i asc l c hl F ⟨⟩
    simp only
    split
    · exact groupDo_halts (fun t => (allowed_halts _ _ _).map) fun d => handleNthChild_halts _ _ _
    · split
      · rename_i he; exact (allowed_halts _ _ _).err he
      · exact nthChildHandle_halts _ _ _ _
  have htype : ∀ n i (asc : Bool) (l : List Nat) c, (∀ x ∈ l, Among h T x) → ∀ F, (Visdom.nthOfTypeMatcher h asc n i).all = some F → Halts (F l c) := by
    rintro n i asc l c hl F ⟨⟩
    simp only
    split
    · exact groupDo_halts (fun t => (allowed_halts _ _ _).map) fun d => handleNthOfType_halts _ _ _
    · split
      · rename_i he; exact (allowed_halts _ _ _).err he
      · exact handleNthOfType_halts _ _ _
  cases p with
  | all => exact all_end
  | name n => exact ofOne hinn hkid rfl rfl (by rintro g ⟨⟩ x hx; exact .ok)
  | cls c =>
    refine ofOne hinn hkid rfl rfl ?_
    rintro g ⟨⟩ x hx
    simp only
    split
    · exact (getAttribute_halts _ _).map
    · exact .fail (by simp)
  | id i => exact ofAll hinn hkid rfl rfl (by rintro g ⟨⟩ l c hl; exact .ok)
  | attr k m v =>
    refine ofOne hinn hkid rfl rfl ?_
    rintro g ⟨⟩ x hx
    simp only
    split
    · exact (getAttribute_halts _ _).map
    · exact .fail (by simp)
  | nth last ofType n i =>
    revert hinn hkid
    unfold Visdom.partMatcher Visdom.textNthMatcher
    simp only
    split
    · intro hinn hkid
      refine ofAll hinn hkid rfl rfl ?_
      rintro F ⟨⟩ l c hl
      simp only
      split
      · refine groupDo_halts (fun t => .fail (by simp)) fun d => ?_
        split
        · exact handleNthOfType_halts _ _ _
        · exact handleNthChild_halts _ _ _
      · exact .fail (by simp)
    · split
      · intro hinn hkid
        refine ⟨hinn, hkid, (by rintro g ⟨⟩), fun F hF l c hl => htype _ _ _ l c hl F hF, ?_⟩
        intro s hs x hx
        unfold Visdom.nthOfTypeMatcher at hs
        cases hn : n.bind parseIsize with
        | none => rw [hn] at hs; cases hs; exact nthOfTypeSpec_halts _ _ _
        | some _ => rw [hn] at hs; cases hs
      · intro hinn hkid
        refine ⟨hinn, hkid, (by rintro g ⟨⟩), fun F hF l c hl => hnth _ _ _ l c hl F hF, ?_⟩
        intro s hs x hx
        unfold Visdom.nthChildMatcher at hs
        cases hn : n.bind parseIsize with
        | none => rw [hn] at hs; cases hs; exact nthChildSpec_halts _ _ _
        | some _ => rw [hn] at hs; cases hs
  | edge last ofType =>
    revert hinn hkid
    rw [Visdom.partMatcher]
    split
    · intro hinn hkid
      refine ⟨hinn, hkid, (by rintro g ⟨⟩), ?_, ?_⟩
      · rintro F ⟨⟩ l c hl; exact groupDo_halts (fun t => .ok) fun d => handleNthOfType_halts _ _ _
      · rintro s ⟨⟩ x hx; exact nthOfTypeSpec_halts _ _ _
    · intro hinn hkid
      refine ⟨hinn, hkid, (by rintro g ⟨⟩), ?_, ?_⟩
      · rintro F ⟨⟩ l c hl; exact groupDo_halts (fun t => .ok) fun d => handleNthChild_halts _ _ _
      · rintro s ⟨⟩ x hx; exact nthChildSpec_halts _ _ _
  | only ofType =>
    revert hinn hkid
    rw [Visdom.partMatcher]
    split
    · intro hinn hkid
      refine ofAll hinn hkid rfl rfl ?_
      rintro F ⟨⟩ l c hl; exact groupDo_halts (fun t => .ok) fun d => onlyOfTypeCb_halts _ _
    · intro hinn hkid
      refine ofAll hinn hkid rfl rfl ?_
      rintro F ⟨⟩ l c hl; exact .ok
  | root => exact ⟨hinn, hkid, (by rintro g ⟨⟩ x hx; exact .ok), (by rintro F ⟨⟩), (by rintro s ⟨⟩ x hx; exact .ok)⟩
  | empty => exact ofOne hinn hkid rfl rfl (by rintro g ⟨⟩ x hx; exact .ok)
  | contains c => exact ofOne hinn hkid rfl rfl (by rintro g ⟨⟩ x hx; exact .ok)
  | checked => exact ofOne hinn hkid rfl rfl (by rintro g ⟨⟩ x hx; exact sd.checkedOne_halts hx)
  | not t => exact ofAll hinn hkid rfl rfl (hap rfl fun l sel hl hp => sd.notSel_halts hl hp)
  | has t => exact ofAll hinn hkid rfl rfl (hap rfl fun l sel hl hp => sd.hasSel_halts hl hp)
  | header => exact ofAll hinn hkid rfl rfl (hap rfl fun l sel hl hp => sd.filterSel_halts hl hp)
  | input => exact ofAll hinn hkid rfl rfl (hap rfl fun l sel hl hp => sd.filterSel_halts hl hp)
  | submit => exact ofAll hinn hkid rfl rfl (hap rfl fun l sel hl hp => sd.filterSel_halts hl hp)
end

/-! ### The texts -/

theorem optimizeCmpd_end {r : Cmpd} (hr : CmpdEnd h T r) : CmpdEnd h T (optimizeCmpd r) := by
  unfold optimizeCmpd
  split
  · exact hr
  · exact hr
  · rename_i s t ss
    have hp : (sortPriority (s :: t :: ss)).Perm (s :: t :: ss) := List.perm_insertionSort _ _
    split
    · rintro s ⟨⟩
    · rename_i a as ha
      rw [ha] at hp
      split
      · intro x hx
        rcases List.mem_cons.1 hx with rfl | hx
        · exact hr a (hp.subset List.mem_cons_self)
        · obtain ⟨n, hn, rfl⟩ := List.mem_map.1 hx
          exact hr n (hp.subset (List.mem_cons_of_mem _ hn))
      · exact fun x hx => hr x (hp.subset hx)

theorem optimizeGroup_end {b : Bool} {g : List Cmpd} (hg : ∀ r ∈ g, CmpdEnd h T r) : PEnd h T (optimizeGroup b g) := by
  have hq : ∀ r ∈ g.map optimizeCmpd, CmpdEnd h T r := by
    intro r hr
    obtain ⟨q, hq, rfl⟩ := List.mem_map.1 hr
    exact optimizeCmpd_end (hg q hq)
  have key : ∀ (cond : Bool) (mi : Nat), PEnd h T (if cond = true then { shouldIn := some ((g.map optimizeCmpd).take mi), query := (g.map optimizeCmpd).drop mi }
      else { query := g.map optimizeCmpd }) := by
    intro cond mi
    cases cond with
    | true => exact ⟨fun r hr => hq r (List.mem_of_mem_drop hr), by rintro g' ⟨⟩ r hr; exact hq r (List.mem_of_mem_take hr)⟩
    | false => exact ⟨hq, by rintro g' ⟨⟩⟩
  exact key _ _

theorem cmpdOf_fits {c : Comb} {l : List (Part × Comb)} {t : List Char} (hl : CmpdOf c l t) : ∀ s ∈ l, ∃ u, Fits s.1 u ∧ u.length ≤ t.length := by
  induction hl with
  | one hf => intro s hs; rw [List.mem_singleton.1 hs]; exact ⟨_, hf, Nat.le_refl _⟩
  | more _ hf ih =>
    intro s hs
    rw [List.length_append]
    rcases List.mem_append.1 hs with hs | hs
    · obtain ⟨u, h1, h2⟩ := ih s hs; exact ⟨u, h1, by omega⟩
    · rw [List.mem_singleton.1 hs]; exact ⟨_, hf, by omega⟩

theorem cplxOf_fits {c : Comb} {g : List (List (Part × Comb))} {t : List Char} (hg : CplxOf c g t) : ∀ l ∈ g, ∀ s ∈ l, ∃ u, Fits s.1 u ∧ u.length ≤ t.length := by
  induction hg with
  | one h1 => intro l hl; rw [List.mem_singleton.1 hl]; exact cmpdOf_fits h1
  | more _ _ h1 ih =>
    intro l hl s hs
    simp only [List.length_append]
    rcases List.mem_append.1 hl with hl | hl
    · obtain ⟨u, h2, h3⟩ := ih l hl s hs; exact ⟨u, h2, by omega⟩
    · rw [List.mem_singleton.1 hl] at hs
      obtain ⟨u, h2, h3⟩ := cmpdOf_fits h1 s hs; exact ⟨u, h2, by omega⟩

theorem listOf_fits {c : Comb} {gs : PGroups} {t : List Char} (hg : ListOf c gs t) : ∀ g ∈ gs, ∀ l ∈ g, ∀ s ∈ l, ∃ u, Fits s.1 u ∧ u.length ≤ t.length := by
  induction hg with
  | one h1 => intro g hg; rw [List.mem_singleton.1 hg]; exact cplxOf_fits h1
  | more _ _ h1 ih =>
    intro g hg l hl s hs
    simp only [List.length_append]
    rcases List.mem_append.1 hg with hg | hg
    · obtain ⟨u, h2, h3⟩ := ih g hg l hl s hs; exact ⟨u, h2, by omega⟩
    · rw [List.mem_singleton.1 hg] at hl
      obtain ⟨u, h2, h3⟩ := cplxOf_fits h1 l hl s hs; exact ⟨u, h2, by omega⟩

theorem groups_fits {text : List Char} {gs : PGroups} (he : parseGroups text = .ok (.ok gs)) : ∀ g ∈ gs, ∀ l ∈ g, ∀ s ∈ l, ∃ u, Fits s.1 u ∧ u.length ≤ text.length := by
  rcases parseGroups_says he with ⟨-, rfl⟩ | ⟨c, a, t, w, -, hlist, -, rfl⟩
  · rintro g ⟨⟩
  · intro g hg l hl s hs
    obtain ⟨u, h1, h2⟩ := listOf_fits hlist g hg l hl s hs
    exact ⟨u, h1, by simp only [List.length_append]; omega⟩

theorem fits_nested {p : Part} {t u : List Char} (hf : Fits p t) (hn : nestedText p = some u) :
    u.length < t.length ∨ (p = .header ∧ u = headerText) ∨ (p = .input ∧ u = inputText) ∨ (p = .submit ∧ u = submitText) := by
  cases p with
  | not v => cases hn; obtain ⟨w, w', -, -, rfl⟩ := hf; left; simp only [List.length_append, List.length_cons]; omega
  | has v => cases hn; obtain ⟨w, w', -, -, rfl⟩ := hf; left; simp only [List.length_append, List.length_cons]; omega
  | header => cases hn; exact .inr (.inl ⟨rfl, rfl⟩)
  | input => cases hn; exact .inr (.inr (.inl ⟨rfl, rfl⟩))
  | submit => cases hn; exact .inr (.inr (.inr ⟨rfl, rfl⟩))
  | _ => cases hn

section
variable (sd : Firm h T env)
include sd

theorem Firm.read_parts {d : Nat} {b : Bool} {text : List Char}
    (hp : ∀ gs, parseGroups text = .ok (.ok gs) → ∀ g ∈ gs, ∀ l ∈ g, ∀ s ∈ l, ∀ t, nestedText s.1 = some t → ReadEnd h T (Visdom.fromStr h env d false) t) :
    ReadEnd h T (Visdom.fromStr h env (d + 1) b) text := by
  constructor
  · rw [Visdom.fromStr]
    split
    · rename_i he; exact (parseGroups_halts text).err he
    · exact .ok
    · exact .ok
  · intro sel hs p hps
    rw [Visdom.fromStr] at hs
    split at hs
    · cases hs
    · cases hs
    · rename_i gs hgs
      cases hs
      obtain ⟨g, hg, rfl⟩ := List.mem_map.1 hps
      refine optimizeGroup_end fun r hr => ?_
      unfold groupCmpds at hr
      obtain ⟨c, hc, rfl⟩ := List.mem_map.1 hr
      intro s hs
      obtain ⟨q, hq, rfl⟩ := List.mem_map.1 hs
      exact sd.partMatcher_end q.1 (hp gs hgs g hg c hc q hq)

theorem Firm.read_alias {d : Nat} {u : List Char} (hu : u = headerText ∨ u = inputText ∨ u = submitText) : ReadEnd h T (Visdom.fromStr h env (d + 1) false) u := by
  refine sd.read_parts fun gs hgs g hg l hl s hs t ht => ?_
  exfalso
  rcases hu with rfl | rfl | rfl
  · rw [header_groups] at hgs
    cases hgs
    obtain ⟨n, -, rfl⟩ := List.mem_map.1 hg
    simp only [List.mem_singleton] at hl
    subst hl
    simp only [List.mem_singleton] at hs
    subst hs
    cases ht
  · rw [input_groups] at hgs
    cases hgs
    obtain ⟨n, -, rfl⟩ := List.mem_map.1 hg
    simp only [List.mem_singleton] at hl
    subst hl
    simp only [List.mem_singleton] at hs
    subst hs
    cases ht
  · rw [submit_groups] at hgs
    cases hgs
    obtain ⟨n, -, rfl⟩ := List.mem_map.1 hg
    simp only [List.mem_singleton] at hl
    subst hl
    simp only [List.mem_cons, List.not_mem_nil, or_false] at hs
    rcases hs with rfl | rfl <;> cases ht

theorem Firm.read_end : ∀ (d : Nat) (b : Bool) (text : List Char), text.length + 2 ≤ d → ReadEnd h T (Visdom.fromStr h env d b) text
  | 0, _, _, hd => by omega
  | d + 1, b, text, hd => by
    refine sd.read_parts fun gs hgs g hg l hl s hs t ht => ?_
    obtain ⟨u, h1, h2⟩ := groups_fits hgs g hg l hl s hs
    obtain ⟨k, rfl⟩ : ∃ k, d = k + 1 := ⟨d - 1, by omega⟩
    rcases fits_nested h1 ht with h3 | ⟨-, h3⟩ | ⟨-, h3⟩ | ⟨-, h3⟩
    · exact Firm.read_end (k + 1) false t (by omega)
    · exact sd.read_alias (.inl h3)
    · exact sd.read_alias (.inr (.inl h3))
    · exact sd.read_alias (.inr (.inr h3))

theorem Firm.parseSel_halts (b : Bool) (text : List Char) : Halts (Visdom.parseSel h env b text) := (sd.read_end _ b text (Nat.le_refl _)).1
theorem Firm.parseSel_end {b : Bool} {text : List Char} {sel : List Proc} (hs : Visdom.parseSel h env b text = .ok (.ok sel)) : ∀ p ∈ sel, PEnd h T p :=
  (sd.read_end _ b text (Nat.le_refl _)).2 sel hs

omit sd in
theorem throwErr_halts {α : Type} {own : Nat → Bool} {X : List Nat} {d : α} : Halts (throwErr own X d) := by
  unfold throwErr
  split
  · exact .fail (by simp)
  · exact .ok

theorem Firm.trigger_halts {α : Type} {own : Nat → Bool} {X : List Nat} {t : List Char} {d : α} {F : List Proc → R α}
    (hF : ∀ sel, (∀ p ∈ sel, PEnd h T p) → Halts (F sel)) : Halts (triggerMethod h env own X t d F) := by
  unfold triggerMethod
  split
  · exact .ok
  · split
    · rename_i he; exact (sd.parseSel_halts _ _).err he
    · exact throwErr_halts
    · rename_i sel hs; exact (hF sel (sd.parseSel_end hs)).map

theorem Firm.nav_halts {own : Nat → Bool} {U : List Nat} {t : List Char} {F : Option (List Proc) → R (List Nat)}
    (hF : ∀ sel, OEnd h T sel → Halts (F sel)) : Halts (navText h env own U t F) := by
  unfold navText
  split
  · exact (hF none (by rintro ps ⟨⟩)).map
  · exact sd.trigger_halts fun sel hp => hF (some sel) (by rintro ps ⟨⟩; exact hp)

theorem Firm.till_halts {own : Nat → Bool} {U : List Nat} {t u : List Char} {F : List Proc → Option (List Proc) → R (List Nat)}
    (hF : ∀ sel flt, (∀ p ∈ sel, PEnd h T p) → OEnd h T flt → Halts (F sel flt)) : Halts (untilText h env own U t u F) := by
  unfold untilText
  split
  · rename_i he; exact (sd.parseSel_halts _ _).err he
  · exact throwErr_halts
  · rename_i sel hs
    split
    · exact (hF sel none (sd.parseSel_end hs) (by rintro ps ⟨⟩)).map
    · split
      · rename_i he; exact (sd.parseSel_halts _ _).err he
      · exact throwErr_halts
      · rename_i flt hf
        exact (hF sel _ (sd.parseSel_end hs) (by rintro ps ⟨⟩; exact sd.parseSel_end hf)).map

end
end Visdom
