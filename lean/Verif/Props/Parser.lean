import Verif.Proofs.TextLen
import Verif.Props.Find
/-!
# C29: the text of a selector parses to the selector

`SelText sel text` (Spec/SelText.lean) says that `text` is one of the texts of the selector list `sel`.
-/
namespace Visdom
open Spec

/-! ## Sample texts -/

theorem blank_nil : Blank [] := by simp [Blank]
theorem blank_space : Blank [' '] := by simp [Blank]
theorem idTail_plain : ∀ {t : List Char}, (∀ c ∈ t, NameChar c) → IdTail t t
  | [], _ => .nil
  | c :: t, hc => .plain (hc c (List.mem_cons_self ..)) (idTail_plain fun x hx => hc x (List.mem_cons_of_mem _ hx))
theorem idText_plain {c : Char} {t : List Char} (hc : NameStart c) (ht : ∀ x ∈ t, NameChar x) : IdText (c :: t) (c :: t) :=
  .mk hc (idTail_plain ht)
/-- A letter is an identifier. -/
theorem idText_letter {c : Char} (hc : NameStart c) : IdText [c] [c] := idText_plain hc (by simp)

/-- The selector of the text below: `a > .b[c^=d]:nth-child(2n+1), :not(p)`. -/
def sampleSel : List Complex :=
  [[(.childrenAll, [.name ['a']]),
    (.children, [.cls ['b'], .attrTest ['c'] .startsWith ['d'], .nth false false 2 1])],
   [(.childrenAll, [.not [[(.childrenAll, [.name ['p']])]]])]]
def sampleText : List Char := " a > .b[c ^= 'd']:nth-child( 2n + 1 ), :not( p )".toList

theorem sample_selText : SelText sampleSel sampleText := by
  have hp : CoreD 0 [[(.childrenAll, [.name ['p']])]] ['p'] :=
    .mk .desc (.one (.name (idText_letter (by simp [NameStart])))) .nil .nil
  have hdig : ∀ c : Char, isDigit09 c = true → NumText (c.toNat - 48) [c] := by
    intro c hc
    have hc' := digit_iff.2 hc
    refine ⟨by simpa using hc', by simp, ?_, by simp [decimal], ?_⟩
    · intro h; simpa using h
    · have := hc'.2; omega
  have hnth : NthText 2 1 "2n + 1".toList :=
    .anb (neg := false) (neg' := false) (k := 2) (k' := 1) (s := []) (t := ['2']) (w := [' ']) (s' := ['+']) (w' := [' ']) (t' := ['1'])
      .none (.some (hdig '2' (by decide))) blank_space .plus blank_space (hdig '1' (by decide))
  have hattr : SimText (fun sel t => CoreD 0 sel t ∧ NestLast sel) (.attrTest ['c'] .startsWith ['d']) "[c ^= 'd']".toList :=
    .attrTest (w := []) (w' := [' ']) (w'' := [' ']) (t := "'d'".toList) (w''' := []) blank_nil
      ⟨by simp, by intro c hc; rw [List.mem_singleton.1 hc]; exact .inl (.inl (.inl ⟨by decide, by decide⟩))⟩ blank_space blank_space
      (.quoted (q := '\'') (.inl rfl) ⟨by decide, by decide, rfl⟩) blank_nil
  have hnot : SimText (fun sel t => CoreD 0 sel t ∧ NestLast sel) (.not [[(.childrenAll, [.name ['p']])]]) ":not( p )".toList :=
    SimText.not (P := fun sel t => CoreD 0 sel t ∧ NestLast sel) (t := ['p']) (w := [' ']) (w' := [' ']) blank_space
      ⟨hp, by simp [NestLast, simsOf]⟩ blank_space
  refine ⟨1, [' '], "a > .b[c ^= 'd']:nth-child( 2n + 1 ), :not( p )".toList, [], ?_, blank_space, blank_nil, by decide⟩
  exact .mk .desc (.one (.name (idText_letter (by simp [NameStart]))))
    (.cons (.sign (x := '>') (w := [' ']) (w' := [' ']) rfl blank_space blank_space)
      (.cons (.cls (idText_letter (by simp [NameStart]))) (by simp [Sim.isName])
        (.cons hattr (by simp [Sim.isName])
          (.one (.nth (last := false) (ofType := false) (w := [' ']) (w' := [' ']) blank_space hnth blank_space)))) .nil)
    (.cons (w := []) (w' := [' ']) blank_nil blank_space
      (.one hnot) .nil .nil)

/-! ## C29 -/

variable (h : Heap) (env : Env) (own : Nat → Bool)

/-- C29, proved part: a text of a selector parses, and the matchers are exactly those of its parts, in its structure.
Missing: selectors in which something follows a `:not(…)` or `:has(…)` that is itself nested (`C29_fails_nested`). -/
theorem C29_parse_partial {sel : List Complex} {text : List Char} (ht : SelText sel text) (lookup : Bool) :
    parseSel h env lookup text = .ok (.ok (sel.map fun c => optimizeGroup lookup (cplxCmpds h env c))) :=
  parseSel_text h env ht lookup

example : SelText sampleSel sampleText ∧ parseSel demo env0 true sampleText =
    .ok (.ok (sampleSel.map fun c => optimizeGroup true (cplxCmpds demo env0 c))) :=
  ⟨sample_selText, C29_parse_partial demo env0 sample_selText true⟩

/-- C29: two texts of the same selector are interchangeable, whatever white space, quotes and escapes they use. -/
theorem C29_same_selector_partial {sel : List Complex} {text text' : List Char} (ht : SelText sel text) (ht' : SelText sel text')
    (lookup : Bool) : parseSel h env lookup text = parseSel h env lookup text' := by
  rw [parseSel_text h env ht, parseSel_text h env ht']

example : SelText [[(.childrenAll, [.name ['p']])]] ['p'] ∧ SelText [[(.childrenAll, [.name ['p']])]] [' ', 'p'] :=
  have hp : CoreD 0 [[(.childrenAll, [.name ['p']])]] ['p'] :=
    .mk .desc (.one (.name (idText_letter (by simp [NameStart])))) .nil .nil
  ⟨⟨0, [], _, [], hp, blank_nil, blank_nil, rfl⟩, ⟨0, [' '], _, [], hp, blank_space, blank_nil, rfl⟩⟩

/-- C29: `find` with a text of a selector is `find` with the selector, and nothing is reported. -/
theorem C29_find_text_partial {sel : List Complex} {text : List Char} (ht : SelText sel text) (S : List Nat) :
    findText h env own S text = (find h env S sel).map (·, 0) := by
  rw [findText, parseSel_find h env ht]; rfl

/-- C29: a text of a complex selector, given to `find`, selects exactly the elements the selector describes. -/
theorem C29_find_text_exact_partial {r : Nat} (wf : TreeWF h r) (ev : Metas h r) {ph : Phase} {cx : Complex}
    (hok : FindOk h r env false ph cx) {text : List Char} (ht : SelText [cx] text) {S res : List Nat} {n : Nat} (hS : Nodes h r S)
    (hi : Inv h r ph S) (hr : findText h env own S text = .ok (res, n)) :
    n = 0 ∧ ∀ e, e ∈ res ↔ Sel h r (· ∈ S) (steps h r env cx) e := by
  rw [C29_find_text_partial h env own ht] at hr
  cases hf : find h env S [cx] with
  | error e => rw [hf] at hr; cases hr
  | ok l =>
    rw [hf] at hr
    cases hr
    exact ⟨rfl, C17_find_exact_partial wf ev hok hS hi hf⟩

example : SelText [[(.childrenAll, [.name ['p']])]] ['p', ' '] ∧ Basic [(.childrenAll, [.name ['p']])] ∧
    Nodes demo 0 [0] ∧ findText demo env0 (fun _ => true) [0] ['p', ' '] = .ok ([2, 6], 0) :=
  ⟨⟨0, [], ['p'], [' '], .mk .desc (.one (.name (idText_letter (by simp [NameStart])))) .nil .nil, blank_nil, blank_space, rfl⟩,
    ⟨by decide, by decide⟩, nodes_root demo_wf, by decide⟩

theorem triggerMethod_text {α : Type} {sel : List Complex} {text : List Char} (ht : SelText sel text) (X : List Nat) (d : α)
    (f : List Proc → R α) (hf : X.isEmpty = true → f (innerSel h env sel) = .ok d) :
    triggerMethod h env own X text d f = (f (innerSel h env sel)).map (·, 0) := by
  cases hX : X.isEmpty with
  | true => simp only [triggerMethod, hX, if_true, hf hX, Except.map]
  | false => simp only [triggerMethod, hX, Bool.false_eq_true, if_false, parseSel_inner h env ht]

/-- C29: `filter`, `not`, `is`, `is_all` and `has` with a text of a selector are the same methods with the selector. -/
theorem C29_filter_text_partial {sel : List Complex} {text : List Char} (ht : SelText sel text) (X : List Nat) :
    filterText h env own X text = (filterQ h env X sel).map (·, 0) ∧
    notText h env own X text = (notQ h env X sel).map (·, 0) ∧
    isText h env own X text = (isQ h env X sel).map (·, 0) ∧
    isAllText h env own X text = (isAllQ h env X sel).map (·, 0) ∧
    hasText h env own X text = (hasQ h env X sel).map (·, 0) :=
  ⟨triggerMethod_text h env own ht X _ _ fun hX => by rw [filterSel, if_pos hX],
    triggerMethod_text h env own ht X _ _ fun hX => by rw [notSel, if_pos hX],
    triggerMethod_text h env own ht X _ _ fun hX => by rw [isSel, if_pos hX],
    triggerMethod_text h env own ht X _ _ fun hX => by rw [isAllSel, if_pos hX],
    triggerMethod_text h env own ht X _ _ fun hX => by rw [hasSel, if_pos hX]⟩

example : filterText demo env0 (fun _ => true) [1, 2, 5] ":not( p )".toList = .ok ([1, 5], 0) := by decide

theorem selectWithComb_empty {U : List Nat} (hU : U.isEmpty = true) (ps : List Proc) (c : Comb) :
    selectWithComb h U (some ps) c = .ok [] := by simp only [selectWithComb, hU, if_true]

theorem navText_text {sel : List Complex} {text : List Char} (ht : SelText sel text) (U : List Nat)
    (f : Option (List Proc) → R (List Nat)) (hf : ∀ ps, U.isEmpty = true → f (some ps) = .ok []) :
    navText h env own U text f = (f (some (innerSel h env sel))).map (·, 0) := by
  rw [navText, if_neg (by rw [selText_ne ht]; decide)]
  exact triggerMethod_text h env own ht U [] (fun ps => f (some ps)) (hf _)

/-- C29: the navigation methods with a text of a selector are the same methods with the selector. -/
theorem C29_navigate_text_partial {sel : List Complex} {text : List Char} (ht : SelText sel text) (X : List Nat) :
    childrenText h env own X text = (childrenQ h env X (some sel)).map (·, 0) ∧
    prevText h env own X text = (prevQ h env X (some sel)).map (·, 0) ∧
    nextText h env own X text = (nextQ h env X (some sel)).map (·, 0) ∧
    prevAllText h env own X text = (prevAllQ h env X (some sel)).map (·, 0) ∧
    nextAllText h env own X text = (nextAllQ h env X (some sel)).map (·, 0) ∧
    parentText h env own X text = (parentQ h env X (some sel)).map (·, 0) ∧
    parentsText h env own X text = (parentsQ h env X (some sel)).map (·, 0) :=
  ⟨navText_text h env own ht _ _ fun ps hU => selectWithComb_empty h hU ps _,
    navText_text h env own ht _ _ fun ps hU => selectWithComb_empty h hU ps _,
    navText_text h env own ht _ _ fun ps hU => selectWithComb_empty h hU ps _,
    navText_text h env own ht _ _ fun ps hU => selectWithComb_empty h hU ps _,
    navText_text h env own ht _ _ fun ps hU => selectWithComb_empty h hU ps _,
    navText_text h env own ht _ _ fun ps hU => selectWithComb_empty h hU ps _,
    navText_text h env own ht _ _ fun ps hU => by
      rw [parentsSel, selectWithComb_empty h hU ps _]; rfl⟩

example : childrenText demo env0 (fun _ => true) [1, 8] " li".toList = .ok ([9], 0) := by decide

/-- C29: `siblings` (whose text is trimmed first), `closest` and the `until` methods. -/
theorem C29_closest_text_partial {sel : List Complex} {text : List Char} (ht : SelText sel text) (X : List Nat) :
    closestText h env own X text = (closestQ h env X (some sel)).map (·, 0) ∧
    (trim text = text → siblingsText h env own X text = (siblingsQ h env X (some sel)).map (·, 0)) := by
  constructor
  · rw [closestText, if_neg (by rw [selText_ne ht]; decide), parseSel_find h env ht]; rfl
  · intro htr
    rw [siblingsText, htr, if_neg (by rw [selText_ne ht]; decide), parseSel_find h env ht]; rfl

theorem untilText_text {sel flt : List Complex} {text filter : List Char} (ht : SelText sel text) (hf : SelText flt filter) (U : List Nat)
    (f : List Proc → Option (List Proc) → R (List Nat)) :
    untilText h env own U text filter f = (f (findSel h env sel) (some (findSel h env flt))).map (·, 0) ∧
    untilText h env own U text [] f = (f (findSel h env sel) none).map (·, 0) := by
  constructor
  · rw [untilText, parseSel_find h env ht]
    simp only [selText_ne hf, Bool.false_eq_true, if_false, parseSel_find h env hf]
  · rw [untilText, parseSel_find h env ht]; rfl

/-- C29: the `until` methods with the texts of a selector and of a filter (or without a filter). -/
theorem C29_until_text_partial {sel flt : List Complex} {text filter : List Char} (ht : SelText sel text) (hf : SelText flt filter)
    (X : List Nat) (c : Bool) :
    prevUntilText h env own X text filter c = (prevUntilQ h env X sel (some flt) c).map (·, 0) ∧
    nextUntilText h env own X text filter c = (nextUntilQ h env X sel (some flt) c).map (·, 0) ∧
    parentsUntilText h env own X text filter c = (parentsUntilQ h env X sel (some flt) c).map (·, 0) ∧
    prevUntilText h env own X text [] c = (prevUntilQ h env X sel none c).map (·, 0) ∧
    nextUntilText h env own X text [] c = (nextUntilQ h env X sel none c).map (·, 0) ∧
    parentsUntilText h env own X text [] c = (parentsUntilQ h env X sel none c).map (·, 0) :=
  ⟨(untilText_text h env own ht hf _ _).1, (untilText_text h env own ht hf _ _).1, (untilText_text h env own ht hf _ _).1,
    (untilText_text h env own ht hf _ _).2, (untilText_text h env own ht hf _ _).2, (untilText_text h env own ht hf _ _).2⟩

example : closestText demo env0 (fun _ => true) [6, 9] "div".toList = .ok ([5], 0) ∧
    nextUntilText row env0 (fun _ => true) [2] "i".toList "p".toList false = .ok ([4], 0) := by decide

/-- C29 does not hold in full: a selector that follows a nested `:has` inside `:not` is refused. -/
theorem C29_fails_nested : ∃ sel text, FullD 2 sel text ∧ parseGroups text = .ok (.error .nested) := by
  have hl : ∀ {P : List Complex → List Char → Prop} {c : Char}, NameStart c → SimText P (.name [c]) [c] := fun hc => .name (idText_letter hc)
  have ha : FullD 0 [[(.childrenAll, [.name ['a']])]] ['a'] := .mk .desc (.one (hl (by simp [NameStart]))) .nil .nil
  have hh : SimText (FullD 0) (.has [[(.childrenAll, [.name ['a']])]]) ":has(a)".toList := .has (w := []) (w' := []) blank_nil ha blank_nil
  have hb : FullD 1 [[(.childrenAll, [.has [[(.childrenAll, [.name ['a']])]]]), (.childrenAll, [.name ['b']])]] ":has(a) b".toList :=
    .mk .desc (.one hh) (.cons (.desc (w := [' ']) (by simp) blank_space) (.one (hl (by simp [NameStart]))) .nil) .nil
  have hn : SimText (FullD 1) (.not [[(.childrenAll, [.has [[(.childrenAll, [.name ['a']])]]]), (.childrenAll, [.name ['b']])]])
      ":not(:has(a) b)".toList := .not (w := []) (w' := []) blank_nil hb blank_nil
  exact ⟨_, _, .mk .desc (.one hn) .nil .nil, by decide⟩

end Visdom
