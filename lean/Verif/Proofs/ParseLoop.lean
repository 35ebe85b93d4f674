import Verif.Proofs.ParseText
/-!
# `from_str` on the texts of selectors
-/
namespace Visdom
open Spec

theorem onLast_append {α : Type} (f : α → α) : ∀ (l : List α) (x : α), onLast f (l ++ [x]) = l ++ [f x]
  | [], _ => rfl
  | [_], _ => rfl
  | y :: z :: l, x => by
    show y :: onLast f (z :: l ++ [x]) = _
    rw [onLast_append f (z :: l) x]; rfl

theorem addGroupItem_new (G : PGroups) (g : List (List (Part × Comb))) (item : Part × Comb) :
    addGroupItem (G ++ [g]) item true = G ++ [g ++ [[item]]] := by
  rw [addGroupItem, onLast_append]; rfl

theorem addGroupItem_old (G : PGroups) (g : List (List (Part × Comb))) (seg : List (Part × Comb)) (item : Part × Comb) :
    addGroupItem (G ++ [g ++ [seg]]) item false = G ++ [g ++ [seg ++ [item]]] := by
  rw [addGroupItem, onLast_append]
  simp only [Bool.false_eq_true, if_false]
  rw [onLast_append]

/-- The text kept for a nested selector: its core, perhaps with white space after it. -/
def KeptText (P : List Complex → List Char → Prop) (sel : List Complex) (u : List Char) : Prop :=
  ∃ t w, P sel t ∧ Blank w ∧ u = t ++ w

/-- One step of the loop at a simple selector. -/
theorem step_sim {P : List Complex → List Char → Prop} (hP : NestOK P) {s : Sim} {t R : List Char} (ht : SimText P s t)
    (hR : s.endsIdent = true → Stops isIdent R) (st : PState) (hst : st.rest = t ++ R) :
    ∃ p, IsPart (KeptText P) s p ∧ parseStep st = .ok (.ok
      { rest := R, comb := if (!(st.prevIn == .selector)) = true then st.comb else .chain, prevIn := .selector,
        lastIn := if (!(st.prevIn == .selector)) = true then .selector else st.lastIn,
        groups := addGroupItem st.groups (p, if (!(st.prevIn == .selector)) = true then st.comb else .chain) (!(st.prevIn == .selector)) }) := by
  obtain ⟨h1, h2, h3⟩ := sim_stops ht R
  cases hs : s.isNest with
  | false =>
    obtain ⟨r, m, p, hf, hm, hp⟩ := rule_plain (N := KeptText P) ht hs R hR
    refine ⟨p, hp, ?_⟩
    simp only [parseStep, selectorStep, hst, splitter_none h2 h3, hf, if_true, hm, List.drop_left, Except.map]
  | true =>
    obtain ⟨b, sel, w1, u, w2, hw1, hw2, hp, rfl, rfl⟩ := simText_nest ht hs
    obtain ⟨hu1, hu2⟩ := hP sel u hp
    have e : nestHead b ++ (w1 ++ u ++ w2 ++ [')']) ++ R = nestHead b ++ w1 ++ (u ++ (w2 ++ ')' :: R)) := by simp
    have hf := findRule_nest b hw1 (hu1 (w2 ++ ')' :: R))
    rw [← e] at hf
    obtain ⟨y, z, hyz, hres⟩ := hu2 w2 R 0 hw2
    have hd : List.drop (nestHead b ++ w1).length (nestHead b ++ (w1 ++ u ++ w2 ++ [')']) ++ R) = u ++ (w2 ++ ')' :: R) := by
      rw [e, List.drop_left]
    have hby : Blank y := by
      rcases hyz with ⟨rfl, -⟩ | ⟨rfl, -⟩
      · exact hw2
      · simp [Blank]
    have hd2 : List.drop (u.length + w2.length + 1) (u ++ (w2 ++ ')' :: R)) = R := by
      have e2 : u ++ (w2 ++ ')' :: R) = (u ++ w2 ++ [')']) ++ R := by simp
      have e3 : u.length + w2.length + 1 = (u ++ w2 ++ [')']).length := by simp; omega
      rw [e2, e3, List.drop_left]
    have hlen : ((2 : Nat) = (nestRule b).queues.length) = False := by simp [nestRule, callQueues]
    have hq : (nestRule b).queues[2]? = some .nested := rfl
    have hcl : (nestRule b).queues.drop 3 = closing := rfl
    refine ⟨if b then .not (u ++ y) else .has (u ++ y), ?_, ?_⟩
    · cases b
      · exact .has ⟨u, y, hp, hby, rfl⟩
      · exact .not ⟨u, y, hp, hby, rfl⟩
    · have hmk : makePart (nestRule b).id ([{ chars := nestHead b }, { chars := w1 }] ++
          [{ chars := u ++ y }, { chars := z }, { chars := [')'] }]) = .ok (if b then .not (u ++ y) else .has (u ++ y)) := by
        cases b <;> rfl
      have hres' : parseUntil ((u ++ (w2 ++ ')' :: R)).length + 1) (u ++ (w2 ++ ')' :: R)) (u ++ (w2 ++ ')' :: R)) 0 closing 0 = _ := hres
      simp only [if_true] at hres'
      simp only [parseStep, selectorStep, hst, splitter_none h2 h3, hf, hlen, if_false, hq, Pat.isNested, if_true, hd, hcl, hres',
        hmk, hd2, Except.map]

/-- The segments of a compound as parsed. -/
inductive SegsOf (N : List Complex → List Char → Prop) : Comb → List Sim → List (Part × Comb) → Prop
  | nil {c : Comb} : SegsOf N c [] []
  | cons {c : Comb} {s : Sim} {p : Part} {ss : List Sim} {l : List (Part × Comb)} : IsPart N s p → SegsOf N .chain ss l →
      SegsOf N c (s :: ss) ((p, c) :: l)
/-- The compounds of a complex selector as parsed. -/
def GroupOf (N : List Complex → List Char → Prop) (c : Complex) (g : List (List (Part × Comb))) : Prop :=
  List.Forall₂ (fun x y => SegsOf N x.1 x.2 y) c g
/-- The groups of a selector as parsed. -/
def GroupsOf (N : List Complex → List Char → Prop) (sel : List Complex) (gs : PGroups) : Prop :=
  List.Forall₂ (GroupOf N) sel gs

theorem loop_tail {P : List Complex → List Char → Prop} (hP : NestOK P) {ss : List Sim} {u : List Char} (hu : CmpdText P ss u) :
    ∀ {R : List Char}, Stops isIdent R → ∀ (st : PState), st.rest = u ++ R → st.prevIn = .selector → st.lastIn = .selector →
    ∀ {G : PGroups} {g : List (List (Part × Comb))} {seg : List (Part × Comb)}, st.groups = G ++ [g ++ [seg]] →
    ∃ l st', SegsOf (KeptText P) .chain ss l ∧ parseAll st = parseAll st' ∧ st'.rest = R ∧ st'.prevIn = .selector ∧
      st'.lastIn = .selector ∧ st'.groups = G ++ [g ++ [seg ++ l]] := by
  induction hu with
  | @one s t ht =>
    intro R hR st hst hp hl G g seg hg
    obtain ⟨p, hpart, hstep⟩ := step_sim hP ht (fun _ => hR) st hst
    rw [hp] at hstep
    have hne : st.rest.isEmpty = false := by rw [hst]; exact (sim_stops ht R).1
    refine ⟨[(p, .chain)], _, .cons hpart .nil, parseAll_step hne hstep, rfl, rfl, hl, ?_⟩
    rw [hg]
    exact addGroupItem_old ..
  | @cons s s' l t u ht hn hu ih =>
    intro R hR st hst hp hl G g seg hg
    rw [List.append_assoc] at hst
    obtain ⟨p, hpart, hstep⟩ := step_sim hP ht (cons_boundary hn hu R) st hst
    rw [hp] at hstep
    have hne : st.rest.isEmpty = false := by rw [hst]; exact (sim_stops ht _).1
    have hg' : addGroupItem st.groups (p, .chain) false = G ++ [g ++ [seg ++ [(p, .chain)]]] := by
      rw [hg]; exact addGroupItem_old ..
    obtain ⟨l', st', h1, h2, h3, h4, h5, h6⟩ := ih hR
      { rest := u ++ R, comb := .chain, prevIn := .selector, lastIn := st.lastIn, groups := addGroupItem st.groups (p, .chain) false }
      rfl rfl hl hg'
    refine ⟨(p, .chain) :: l', st', .cons hpart h1, (parseAll_step hne hstep).trans h2, h3, h4, h5, ?_⟩
    rw [h6]; simp

theorem loop_cmpd {P : List Complex → List Char → Prop} (hP : NestOK P) {ss : List Sim} {u : List Char} (hu : CmpdText P ss u)
    {R : List Char} (hR : Stops isIdent R) (st : PState) (hst : st.rest = u ++ R) (hp : st.prevIn ≠ .selector)
    {G : PGroups} {g : List (List (Part × Comb))} (hg : st.groups = G ++ [g]) :
    ∃ l st', SegsOf (KeptText P) st.comb ss l ∧ parseAll st = parseAll st' ∧ st'.rest = R ∧ st'.prevIn = .selector ∧
      st'.lastIn = .selector ∧ st'.groups = G ++ [g ++ [l]] := by
  have hb : (!(st.prevIn == .selector)) = true := by simpa using hp
  cases hu with
  | @one s t ht =>
    obtain ⟨p, hpart, hstep⟩ := step_sim hP ht (fun _ => hR) st hst
    rw [hb] at hstep
    have hne : st.rest.isEmpty = false := by rw [hst]; exact (sim_stops ht R).1
    refine ⟨[(p, st.comb)], _, .cons hpart .nil, parseAll_step hne hstep, rfl, rfl, rfl, ?_⟩
    rw [hg]
    exact addGroupItem_new ..
  | @cons s s' l t u ht hn hu =>
    rw [List.append_assoc] at hst
    obtain ⟨p, hpart, hstep⟩ := step_sim hP ht (cons_boundary hn hu R) st hst
    rw [hb] at hstep
    have hne : st.rest.isEmpty = false := by rw [hst]; exact (sim_stops ht _).1
    have hg' : addGroupItem st.groups (p, st.comb) true = G ++ [g ++ [[(p, st.comb)]]] := by
      rw [hg]; exact addGroupItem_new ..
    obtain ⟨l', st', h1, h2, h3, h4, h5, h6⟩ := loop_tail hP hu hR
      { rest := u ++ R, comb := st.comb, prevIn := .selector, lastIn := .selector, groups := addGroupItem st.groups (p, st.comb) true }
      rfl rfl rfl hg'
    refine ⟨(p, st.comb) :: l', st', .cons hpart h1, (parseAll_step hne hstep).trans h2, h3, h4, h5, ?_⟩
    rw [h6]; simp

theorem step_comb {c : Comb} {t R : List Char} (ht : CombText c t) (h1 : Stops isReSpace R) (h2 : Stops isOp R) (st : PState)
    (hst : st.rest = t ++ R) (hp : st.prevIn ≠ .splitter) :
    ∃ li, parseAll st = parseAll { st with rest := R, comb := c, prevIn := .splitter, lastIn := li } := by
  obtain ⟨m, hm, hc1, hc2, hne⟩ := comb_split ht h1 h2
  have hne' : st.rest.isEmpty = false := by
    obtain ⟨x, t', rfl⟩ := List.exists_cons_of_ne_nil hne; rw [hst]; rfl
  refine ⟨if (trim m.chars).isEmpty then st.prevIn else .splitter, parseAll_step hne' ?_⟩
  have hm0 : ([m] : List Matched)[0]? = some m := rfl
  simp only [parseStep, hst, hm, splitterStep, hm0, if_neg hp, if_neg hc1, hc2, List.drop_left]

theorem step_comma {w w' R : List Char} (hw : Blank w) (hw' : Blank w') (h1 : Stops isReSpace R) (st : PState)
    (hst : st.rest = w ++ ',' :: (w' ++ R)) (hp : st.prevIn = .selector) :
    ∃ li, parseAll st = parseAll { rest := R, comb := .childrenAll, prevIn := .splitter, lastIn := li, groups := st.groups ++ [[]] } := by
  obtain ⟨m, hm, hc⟩ := comma_split hw hw' h1
  have e : w ++ ',' :: (w' ++ R) = (w ++ ',' :: w') ++ R := by simp
  rw [e] at hst
  have hne : st.rest.isEmpty = false := by rw [hst]; simp
  refine ⟨.splitter, parseAll_step hne ?_⟩
  have hm0 : ([m] : List Matched)[0]? = some m := rfl
  have hp' : st.prevIn ≠ .splitter := by rw [hp]; decide
  simp only [parseStep, hst, hm, splitterStep, hm0, if_neg hp', hc, if_true, hp, ne_eq, not_true_eq_false, if_false, List.drop_left]
  rfl

theorem loop_end {w : List Char} (hw : Blank w) (st : PState) (hst : st.rest = w) (hp : st.prevIn = .selector)
    (hl : st.lastIn = .selector) : ∃ st', parseAll st = .ok (.ok st') ∧ st'.lastIn = .selector ∧ st'.groups = st.groups := by
  cases w with
  | nil => exact ⟨st, parseAll_nil hst, hl, rfl⟩
  | cons x w =>
    obtain ⟨g, hg⟩ := splitter_space (rest := []) hw (by simp) stops_nil stops_nil
    rw [List.append_nil] at hg
    have hne : st.rest.isEmpty = false := by rw [hst]; rfl
    refine ⟨{ rest := [], comb := .childrenAll, prevIn := .splitter, lastIn := .selector, groups := st.groups }, ?_, rfl, rfl⟩
    rw [parseAll_step hne (st' := { rest := [], comb := .childrenAll, prevIn := .splitter, lastIn := .selector, groups := st.groups })]
    · exact parseAll_nil rfl
    · have hp' : st.prevIn ≠ .splitter := by rw [hp]; decide
      have hm0 : ([{ chars := x :: w, groups := g }] : List Matched)[0]? = some { chars := x :: w, groups := g } := rfl
      have hne2 : ([] : List Char) ≠ [','] := by simp
      have hc : combOf [] = .ok .childrenAll := rfl
      simp only [parseStep, hst, hg, splitterStep, hm0, if_neg hp', trim_space hw, if_neg hne2, hc, List.drop_length,
        List.isEmpty_nil, if_true, hp]
      rfl

theorem loop_alts {P : List Complex → List Char → Prop} (hP : NestOK P) {sel : List Complex} {z : List Char} (hz : AltsText P sel z) :
    ∀ {l : Complex} {v : List Char}, StepsText P l v → ∀ {ss : List Sim} {u : List Char}, CmpdText P ss u →
    ∀ {w : List Char}, Blank w → ∀ (st : PState), st.rest = u ++ (v ++ (z ++ w)) → st.prevIn ≠ .selector →
    ∀ {G : PGroups} {g : List (List (Part × Comb))}, st.groups = G ++ [g] →
    ∃ seg cs gs st', parseAll st = .ok (.ok st') ∧ st'.lastIn = .selector ∧ st'.groups = G ++ ((g ++ seg :: cs) :: gs) ∧
      SegsOf (KeptText P) st.comb ss seg ∧ GroupOf (KeptText P) l cs ∧ GroupsOf (KeptText P) sel gs := by
  induction hz with
  | nil =>
    intro l v hv
    induction hv with
    | nil =>
      intro ss u hu w hw st hst hp G g hg
      have hR : Stops isIdent ([] ++ ([] ++ w)) := by
        have := stops_append (blank_notIdent hw) (stops_nil (p := isIdent))
        simpa using this
      obtain ⟨seg, st', h1, h2, h3, h4, h5, h6⟩ := loop_cmpd hP hu hR st hst hp hg
      obtain ⟨st'', k1, k2, k3⟩ := loop_end hw st' (by rw [h3]; rfl) h4 h5
      exact ⟨seg, [], [], st'', h2.trans k1, k2, by rw [k3, h6], h1, .nil, .nil⟩
    | @cons c ss' l t u' v ht hu' hl ih =>
      intro ss u hu w hw st hst hp G g hg
      have hR : Stops isIdent (t ++ (u' ++ v) ++ ([] ++ w)) := by
        refine steps_stops (.cons ht hu' hl) ?_
        have := stops_append (blank_notIdent hw) (stops_nil (p := isIdent))
        simpa using this
      obtain ⟨seg, st', h1, h2, h3, h4, h5, h6⟩ := loop_cmpd hP hu hR st hst hp hg
      have hst2 := cmpd_stops hu' (v ++ ([] ++ w))
      obtain ⟨li, k⟩ := step_comb ht hst2.2.1 hst2.2.2.1 st' (by rw [h3]; simp) (by rw [h4]; decide)
      obtain ⟨seg', cs, gs, st'', n1, n2, n3, n4, n5, n6⟩ := ih hu' hw
        { st' with rest := u' ++ (v ++ ([] ++ w)), comb := c, prevIn := .splitter, lastIn := li } rfl (by simp) h6
      refine ⟨seg, seg' :: cs, gs, st'', (h2.trans k).trans n1, n2, ?_, h1, .cons n4 n5, n6⟩
      rw [n3]; simp
  | @cons ss0 l0 sel w0 w1 u0 v0 z hw0 hw1 hu0 hv0 hz ihz =>
    intro l v hv
    have hzz : AltsText P (((.childrenAll, ss0) :: l0) :: sel) (w0 ++ ',' :: (w1 ++ (u0 ++ (v0 ++ z)))) := .cons hw0 hw1 hu0 hv0 hz
    induction hv with
    | nil =>
      intro ss u hu w hw st hst hp G g hg
      have hR : Stops isIdent ([] ++ (w0 ++ ',' :: (w1 ++ (u0 ++ (v0 ++ z))) ++ w)) := by
        rw [List.nil_append]
        refine alts_stops hzz ?_
        have := stops_append (blank_notIdent hw) (stops_nil (p := isIdent))
        simpa using this
      obtain ⟨seg, st', h1, h2, h3, h4, h5, h6⟩ := loop_cmpd hP hu hR st hst hp hg
      have hst2 := cmpd_stops hu0 (v0 ++ (z ++ w))
      obtain ⟨li, k⟩ := step_comma (R := u0 ++ (v0 ++ (z ++ w))) hw0 hw1 hst2.2.1 st' (by rw [h3]; simp) h4
      obtain ⟨seg', cs, gs, st'', n1, n2, n3, n4, n5, n6⟩ := ihz hv0 hu0 hw
        { rest := u0 ++ (v0 ++ (z ++ w)), comb := .childrenAll, prevIn := .splitter, lastIn := li, groups := st'.groups ++ [[]] }
        rfl (by simp) rfl
      refine ⟨seg, [], (seg' :: cs) :: gs, st'', (h2.trans k).trans n1, n2, ?_, h1, .nil, .cons (.cons n4 n5) n6⟩
      rw [n3, h6]; simp
    | @cons c ss' l t u' v ht hu' hl ih =>
      intro ss u hu w hw st hst hp G g hg
      generalize hZ : w0 ++ ',' :: (w1 ++ (u0 ++ (v0 ++ z))) = Z at *
      have hR : Stops isIdent (t ++ (u' ++ v) ++ (Z ++ w)) := by
        refine steps_stops (.cons ht hu' hl) (alts_stops hzz ?_)
        have := stops_append (blank_notIdent hw) (stops_nil (p := isIdent))
        simpa using this
      obtain ⟨seg, st', h1, h2, h3, h4, h5, h6⟩ := loop_cmpd hP hu hR st hst hp hg
      have hst2 := cmpd_stops hu' (v ++ (Z ++ w))
      obtain ⟨li, k⟩ := step_comb ht hst2.2.1 hst2.2.2.1 st' (by rw [h3]; simp) (by rw [h4]; decide)
      obtain ⟨seg', cs, gs, st'', n1, n2, n3, n4, n5, n6⟩ := ih hu' hw
        { st' with rest := u' ++ (v ++ (Z ++ w)), comb := c, prevIn := .splitter, lastIn := li } rfl (by simp) h6
      refine ⟨seg, seg' :: cs, gs, st'', (h2.trans k).trans n1, n2, ?_, h1, .cons n4 n5, n6⟩
      rw [n3]; simp

/-- White space and the leading combinator: the state from which the compounds are parsed. -/
theorem loop_head {P : List Complex → List Char → Prop} {c : Comb} {ss : List Sim} {w t u R : List Char} (hw : Blank w)
    (ht : HeadText c t) (hu : CmpdText P ss u) :
    ∃ pi li, pi ≠ .selector ∧ parseAll { rest := w ++ (t ++ (u ++ R)) } =
      parseAll { rest := u ++ R, comb := c, prevIn := pi, lastIn := li, groups := [[]] } := by
  obtain ⟨-, s1, s2, -⟩ := cmpd_stops hu R
  cases ht with
  | desc =>
    cases w with
    | nil => exact ⟨.begin, .begin, by decide, rfl⟩
    | cons x w =>
      obtain ⟨li, hk⟩ := step_comb (.desc (by simp) hw) s1 s2 { rest := x :: w ++ ([] ++ (u ++ R)) } rfl (by simp)
      exact ⟨.splitter, li, by decide, hk⟩
  | @sign c x w' hc hw' =>
    obtain ⟨li, hk⟩ := step_comb (.sign hc hw hw') s1 s2 { rest := w ++ (x :: w' ++ (u ++ R)) } (by simp) (by simp)
    exact ⟨.splitter, li, by decide, hk⟩

/-- The text of a selector parses to its groups. -/
theorem parse_core {P : List Complex → List Char → Prop} (hP : NestOK P) {sel : List Complex} {t w w' : List Char}
    (ht : CoreText P sel t) (hw : Blank w) (hw' : Blank w') :
    ∃ gs, parseGroups (w ++ t ++ w') = .ok (.ok gs) ∧ GroupsOf (KeptText P) sel gs := by
  cases ht with
  | @mk c ss l sel t u v z ht hu hv hz =>
    have e : w ++ (t ++ (u ++ (v ++ z))) ++ w' = w ++ (t ++ (u ++ (v ++ (z ++ w')))) := by simp
    obtain ⟨pi, li, hpi, hk⟩ := loop_head (R := v ++ (z ++ w')) hw ht hu
    obtain ⟨seg, cs, gs, st', n1, n2, n3, n4, n5, n6⟩ := loop_alts hP hz hv hu hw'
      { rest := u ++ (v ++ (z ++ w')), comb := c, prevIn := pi, lastIn := li, groups := [[]] } rfl hpi (G := []) (g := []) rfl
    refine ⟨(seg :: cs) :: gs, ?_, .cons (.cons n4 n5) n6⟩
    have hne : (w ++ (t ++ (u ++ (v ++ z))) ++ w').isEmpty = false := by
      obtain ⟨s, l, c, t', -, rfl, -⟩ := cmpdText_head hu
      simp
    rw [parseGroups, hne]
    simp only [Bool.false_eq_true, if_false]
    rw [e]
    have := hk.trans n1
    rw [parseAll] at this
    rw [this]
    simp only [n2, ne_eq, not_true_eq_false, if_false]
    rw [n3]; rfl

end Visdom
