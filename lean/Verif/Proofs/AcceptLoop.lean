import Verif.Proofs.Accept
import Verif.Proofs.ParseLoop
/-!
# What the loop of the parser accepts
-/
namespace Visdom
open Spec

theorem nested_rule {r : ParseRule} (hr : r ∈ ruleTable) {num : Nat} (hq : r.queues[num]? = some .nested) :
    num = 2 ∧ ((r.id = .not ∧ r.queues = callQueues [':', 'n', 'o', 't', '('] .nested) ∨
      (r.id = .has ∧ r.queues = callQueues [':', 'h', 'a', 's', '('] .nested)) := by
  have hd : ∀ r ∈ ruleTable, Pat.nested ∈ r.queues → (r.id = .not ∧ r.queues = callQueues [':', 'n', 'o', 't', '('] .nested) ∨
      (r.id = .has ∧ r.queues = callQueues [':', 'h', 'a', 's', '('] .nested) := by decide
  have h1 := hd r hr (List.mem_of_getElem? hq)
  refine ⟨?_, h1⟩
  have h2 : ∀ head, (callQueues head .nested)[num]? = some .nested → num = 2 := by
    intro head h3
    match num with
    | 0 | 1 | 3 | 4 => simp [callQueues] at h3
    | 2 => rfl
    | n + 5 => simp [callQueues] at h3
  rcases h1 with ⟨-, h1⟩ | ⟨-, h1⟩
  · exact h2 _ (h1 ▸ hq)
  · exact h2 _ (h1 ▸ hq)

theorem nested_fits {head t1 v t2 s : List Char} {ms nm : List Matched} {m : Matched}
    (h1 : Took [.lit head, .spaces] t1 ms) (h2 : Took [.spaces, .chr ')'] t2 nm) (hm : m.chars = v) :
    CallText head v (t1 ++ (v ++ t2)) ∧ charsAt (ms ++ m :: nm) 2 = .ok v := by
  obtain ⟨u0, t, m0, ms', h3, k, rfl, rfl⟩ := took_cons h1
  obtain ⟨m1, h4, rfl⟩ := took_one k
  obtain ⟨u3, t', m3, ms'', h5, k', rfl, rfl⟩ := took_cons h2
  obtain ⟨m4, h6, rfl⟩ := took_one k'
  obtain rfl : u0 = head := h3
  obtain rfl : t' = [')'] := h6
  exact ⟨⟨t, u3, h4, h5, by simp⟩, by simp [charsAt, hm]⟩

/-- A round at a simple selector takes a simple selector and makes the part it says. -/
theorem selectorStep_fits {st st' : PState} (he : selectorStep st = .ok (.ok st')) :
    ∃ p u, Fits p u ∧ st.rest = u ++ st'.rest ∧ st'.prevIn = .selector ∧
      st'.lastIn = (if (!(st.prevIn == .selector)) = true then .selector else st.lastIn) ∧
      st'.groups = addGroupItem st.groups (p, if (!(st.prevIn == .selector)) = true then st.comb else .chain)
        (!(st.prevIn == .selector)) := by
  unfold selectorStep at he
  simp only at he
  split at he
  · cases he
  · cases he
  · rename_i r m len num hf
    obtain ⟨hr, hx⟩ := findRule_inv hf
    obtain ⟨hle, t, s', hrest, rfl, ht⟩ := execPats_took hx
    split at he
    · rename_i hnum
      subst hnum
      rw [List.take_length] at ht
      cases hm : makePart r.id m with
      | error e => rw [hm] at he; cases he
      | ok p =>
        rw [hm] at he
        cases he
        exact ⟨p, t, part_fits hr ht hm, by simp [hrest], rfl, rfl, rfl⟩
    · split at he
      · cases he
      · rename_i q hq
        split at he
        · rename_i hnest
          have hqn : q = .nested := by
            revert hnest
            cases q <;> simp [Pat.isNested]
          subst hqn
          obtain ⟨rfl, hrule⟩ := nested_rule hr hq
          split at he
          · cases he
          · cases he
          · rename_i count nm hu
            rw [hrest, List.drop_left] at hu
            cases hm : makePart r.id (m ++ nm) with
            | error e => rw [hm] at he; cases he
            | ok p =>
              rw [hm] at he
              cases he
              have htk : ∀ {head : List Char}, r.queues = callQueues head .nested →
                  Took [.lit head, .spaces] t m ∧ r.queues.drop (2 + 1) = [.spaces, .chr ')'] := by
                intro head hh
                rw [hh] at ht
                exact ⟨ht, by rw [hh]; rfl⟩
              have hlen : m.length = 2 := by
                have key : ∀ {head : List Char}, Took [.lit head, .spaces] t m → m.length = 2 := by
                  intro head h1
                  obtain ⟨_, _, _, _, _, k, -, rfl⟩ := took_cons h1
                  obtain ⟨_, _, rfl⟩ := took_one k
                  rfl
                rcases hrule with ⟨-, hh⟩ | ⟨-, hh⟩
                · exact key (htk hh).1
                · exact key (htk hh).1
              rcases (parseUntil_took _ hu).2 rfl [] rfl rfl with rfl | ⟨v, u, s2, ms, h5, h6, h7, h8⟩
              · exfalso
                have hc : charsAt (m ++ []) 2 = .error .outOfBounds := by
                  simp [charsAt, hlen]
                rcases hrule with ⟨hid, -⟩ | ⟨hid, -⟩ <;> rw [hid] at hm <;> simp only [makePart, hc] at hm <;> cases hm
              · have hdrop : (st.rest.drop t.length).drop count = s2 := by
                  rw [hrest, List.drop_left, h5]
                  have : count = (v ++ u).length := by simp; omega
                  rw [this, ← List.append_assoc, List.drop_left]
                refine ⟨p, t ++ (v ++ u), ?_, ?_, rfl, rfl, rfl⟩
                · rcases hrule with ⟨hid, hh⟩ | ⟨hid, hh⟩
                  · obtain ⟨h9, h10⟩ := htk hh
                    rw [h10] at h7
                    obtain ⟨h11, h12⟩ := nested_fits (s := []) (m := { chars := [] ++ v }) h9 h7 rfl
                    rw [hid, h8] at hm
                    simp only [makePart, h12] at hm
                    cases hm
                    exact h11
                  · obtain ⟨h9, h10⟩ := htk hh
                    rw [h10] at h7
                    obtain ⟨h11, h12⟩ := nested_fits (s := []) (m := { chars := [] ++ v }) h9 h7 rfl
                    rw [hid, h8] at hm
                    simp only [makePart, h12] at hm
                    cases hm
                    exact h11
                · show st.rest = _ ++ (st.rest.drop t.length).drop count
                  rw [hdrop, hrest, h5]; simp
        · cases he

/-- What has been read when the loop is in a state. -/
inductive ReadAt (st : PState) (done : List Char) : Prop
  | begin : st.prevIn = .begin → st.lastIn = .begin → st.groups = [[]] → st.comb = .childrenAll → done = [] → ReadAt st done
  | lead : st.prevIn = .splitter → st.lastIn ≠ .selector → st.groups = [[]] → WideComb st.comb done → ReadAt st done
  | sel {c : Comb} {a t : List Char} : st.prevIn = .selector → st.lastIn = .selector → Lead c a → ListOf c st.groups t →
      done = a ++ t → ReadAt st done
  | comma {c : Comb} {a t w : List Char} {G : PGroups} : st.prevIn = .splitter → st.lastIn ≠ .selector → st.comb = .childrenAll →
      st.groups = G ++ [[]] → Lead c a → ListOf c G t → Comma w → done = a ++ (t ++ w) → ReadAt st done
  | comb {c : Comb} {a t w : List Char} : st.prevIn = .splitter → (st.lastIn = .selector → White w) → Lead c a →
      ListOf c st.groups t → WideComb st.comb w → done = a ++ (t ++ w) → ReadAt st done

theorem listOf_last {c : Comb} {G : PGroups} {t : List Char} (hl : ListOf c G t) :
    ∃ G0 g t0 u c', G = G0 ++ [g] ∧ t = t0 ++ u ∧ CplxOf c' g u ∧
      ∀ g' u', CplxOf c' g' u' → ListOf c (G0 ++ [g']) (t0 ++ u') := by
  cases hl with
  | one h1 => exact ⟨[], _, [], t, c, rfl, rfl, h1, fun g' u' h2 => .one h2⟩
  | @more gs g t w u h1 h2 h3 =>
    exact ⟨gs, g, t ++ w, u, .childrenAll, rfl, by simp, h3, fun g' u' h4 => by
      rw [List.append_assoc]; exact .more h1 h2 h4⟩

theorem cplxOf_last {c : Comb} {g : List (List (Part × Comb))} {t : List Char} (hl : CplxOf c g t) :
    ∃ g0 l t0 u c', g = g0 ++ [l] ∧ t = t0 ++ u ∧ CmpdOf c' l u ∧
      ∀ l' u', CmpdOf c' l' u' → CplxOf c (g0 ++ [l']) (t0 ++ u') := by
  cases hl with
  | one h1 => exact ⟨[], _, [], t, c, rfl, rfl, h1, fun l' u' h2 => .one h2⟩
  | @more g l c' t w u h1 h2 h3 =>
    exact ⟨g, l, t ++ w, u, c', rfl, by simp, h3, fun l' u' h4 => by
      rw [List.append_assoc]; exact .more h1 h2 h4⟩

/-- A part at the end of the last compound. -/
theorem listOf_chain {c : Comb} {G : PGroups} {t : List Char} (hl : ListOf c G t) {p : Part} {u : List Char} (hp : Fits p u) :
    ListOf c (addGroupItem G (p, .chain) false) (t ++ u) := by
  obtain ⟨G0, g, t0, v, c', rfl, rfl, h1, h2⟩ := listOf_last hl
  obtain ⟨g0, l, t1, v', c'', rfl, rfl, h3, h4⟩ := cplxOf_last h1
  rw [addGroupItem_old]
  have := h2 _ _ (h4 _ _ (.more h3 hp))
  simpa using this

/-- A new compound. -/
theorem listOf_new {c c' : Comb} {G : PGroups} {t w : List Char} (hl : ListOf c G t) (hw : WideComb c' w) {p : Part} {u : List Char}
    (hp : Fits p u) : ListOf c (addGroupItem G (p, c') true) (t ++ (w ++ u)) := by
  obtain ⟨G0, g, t0, v, c'', rfl, rfl, h1, h2⟩ := listOf_last hl
  rw [addGroupItem_new]
  have := h2 _ _ (.more h1 hw (.one hp))
  simpa using this

theorem at_selector {st st' : PState} {done : List Char} (ha : ReadAt st done) (he : selectorStep st = .ok (.ok st')) :
    ∃ u, st.rest = u ++ st'.rest ∧ ReadAt st' (done ++ u) := by
  obtain ⟨p, u, hp, hrest, hpi, hli, hg⟩ := selectorStep_fits he
  refine ⟨u, hrest, ?_⟩
  cases ha with
  | begin h1 h2 h3 h4 h5 =>
    have hb : (!(st.prevIn == .selector)) = true := by rw [h1]; rfl
    rw [hb] at hli hg
    rw [h3, h4] at hg
    subst h5
    refine .sel hpi (by rw [hli]; rfl) (c := .childrenAll) (a := []) (.inl ⟨rfl, rfl⟩) (t := u) ?_ rfl
    rw [hg]
    exact .one (.one (.one hp))
  | lead h1 h2 h3 h4 =>
    have hb : (!(st.prevIn == .selector)) = true := by rw [h1]; rfl
    rw [hb] at hli hg
    rw [h3] at hg
    refine .sel hpi (by rw [hli]; rfl) (.inr h4) (t := u) ?_ rfl
    rw [hg]
    exact .one (.one (.one hp))
  | @sel c a t h1 h2 h3 h4 h5 =>
    have hb : (!(st.prevIn == .selector)) = false := by rw [h1]; rfl
    rw [hb] at hli hg
    rw [h2] at hli
    refine .sel hpi (by rw [hli]; rfl) h3 (t := t ++ u) ?_ (by rw [h5, List.append_assoc])
    rw [hg]
    exact listOf_chain h4 hp
  | @comma c a t w G h1 h2 h3 h4 h5 h6 h7 h8 =>
    have hb : (!(st.prevIn == .selector)) = true := by rw [h1]; rfl
    rw [hb] at hli hg
    rw [h3, h4, addGroupItem_new] at hg
    refine .sel hpi (by rw [hli]; rfl) h5 (t := t ++ (w ++ u)) ?_ (by rw [h8]; simp)
    rw [hg]
    exact .more h6 h7 (.one (.one hp))
  | @comb c a t w h1 h2 h3 h4 h5 h6 =>
    have hb : (!(st.prevIn == .selector)) = true := by rw [h1]; rfl
    rw [hb] at hli hg
    refine .sel hpi (by rw [hli]; rfl) h3 (t := t ++ (w ++ u)) ?_ (by rw [h6]; simp)
    rw [hg]
    exact listOf_new h4 h5 hp

/-- What a separator is. -/
theorem separator_cases {t : List Char} (ht : Lang splitterRe t) (hne : t ≠ []) :
    (trim t = [','] ∧ Comma t) ∨ (trim t ≠ [','] ∧ ∃ c, combOf (trim t) = .ok c ∧ WideComb c t ∧ (trim t = [] → White t)) := by
  have up : ∀ {w : List Char}, (∀ y ∈ w, isReSpace y = true) → White w := fun h y hy => wsTable_iff.1 (h y hy)
  rcases splitter_word ht with ⟨w, x, w', rfl, hw, hx, hw'⟩ | hw
  · rw [trim_op hw hx hw']
    replace hw := up hw
    replace hw' := up hw'
    simp only [isOp, List.contains_eq_mem, List.mem_cons, List.not_mem_nil, or_false, decide_eq_true_eq] at hx
    rcases hx with rfl | rfl | rfl | rfl
    · exact .inr ⟨by decide, .children, rfl, .sign rfl hw hw', by simp⟩
    · exact .inl ⟨rfl, w, w', hw, hw', rfl⟩
    · exact .inr ⟨by decide, .nextAll, rfl, .sign rfl hw hw', by simp⟩
    · exact .inr ⟨by decide, .next, rfl, .sign rfl hw hw', by simp⟩
  · rw [trim_spaces hw]
    exact .inr ⟨by simp, .childrenAll, rfl, .desc hne (up hw), fun _ => up hw⟩

theorem at_splitter {st st' : PState} {done : List Char} {m : List Matched} {len num : Nat} (ha : ReadAt st done)
    (hs : execQueues splitterQueues st.rest = .ok (some (m, len, num))) (he : splitterStep st m len = .ok (.ok st')) :
    ∃ u, st.rest = u ++ st'.rest ∧ ReadAt st' (done ++ u) := by
  have hpos := execQueues_pos hs
  obtain ⟨m0, t, s', rfl, rfl, hrest, rfl, ht⟩ := splitter_inv hs
  have hne : m0.chars ≠ [] := by intro h0; simp [h0] at hpos
  have hd : st.rest.drop m0.chars.length = s' := by rw [hrest, List.drop_left]
  simp only [splitterStep, List.getElem?_cons_zero, hd] at he
  split at he
  · cases he
  · rename_i hpi
    rcases separator_cases ht hne with ⟨htr, hcm⟩ | ⟨htr, c', hc', hw, hbl⟩
    · simp only [htr, if_true] at he
      split at he
      · cases he
      · rename_i hsel
        have hsel : st.prevIn = .selector := by simpa using hsel
        cases he
        refine ⟨m0.chars, hrest, ?_⟩
        cases ha with
        | @sel c a t h1 h2 h3 h4 h5 =>
          exact .comma rfl (by simp) rfl rfl h3 h4 hcm (by rw [h5, List.append_assoc])
        | begin h1 => rw [hsel] at h1; cases h1
        | lead h1 => rw [hsel] at h1; cases h1
        | comma h1 => rw [hsel] at h1; cases h1
        | comb h1 => rw [hsel] at h1; cases h1
    · simp only [if_neg htr, hc'] at he
      cases he
      refine ⟨m0.chars, hrest, ?_⟩
      cases ha with
      | @sel c a t h1 h2 h3 h4 h5 =>
        refine .comb (c := c) (a := a) (t := t) (w := m0.chars) rfl ?_ h3 h4 hw (by rw [h5, List.append_assoc])
        intro hl
        apply hbl
        by_contra h0
        simp [h0] at hl
      | begin h1 h2 h3 h4 h5 =>
        subst h5
        refine .lead rfl ?_ h3 hw
        simp only [h1]
        split <;> simp
      | lead h1 => exact absurd h1 hpi
      | comma h1 => exact absurd h1 hpi
      | comb h1 => exact absurd h1 hpi

theorem parseLoop_at : ∀ (f : Nat) {st st' : PState} {done : List Char}, ReadAt st done → parseLoop f st = .ok (.ok st') →
    ReadAt st' (done ++ st.rest)
  | 0, st, st', done, ha, he => by
    simp only [parseLoop] at he
    split at he
    · rename_i h0
      cases he
      rw [List.isEmpty_iff.1 h0, List.append_nil]; exact ha
    · cases he
  | f + 1, st, st', done, ha, he => by
    simp only [parseLoop] at he
    split at he
    · rename_i h0
      cases he
      rw [List.isEmpty_iff.1 h0, List.append_nil]; exact ha
    · split at he
      · cases he
      · cases he
      · rename_i st1 hp
        have hstep : ∃ u, st.rest = u ++ st1.rest ∧ ReadAt st1 (done ++ u) := by
          unfold parseStep at hp
          split at hp
          · cases hp
          · rename_i m len num hs; exact at_splitter ha hs hp
          · exact at_selector ha hp
        obtain ⟨u, h1, h2⟩ := hstep
        have := parseLoop_at f h2 he
        rw [h1, ← List.append_assoc]; exact this

/-- What the parser accepts says what the parser makes of it. -/
theorem parseGroups_says {text : List Char} {gs : PGroups} (he : parseGroups text = .ok (.ok gs)) :
    (text = [] ∧ gs = []) ∨ Says gs text := by
  unfold parseGroups at he
  split at he
  · rename_i h0
    cases he
    exact .inl ⟨List.isEmpty_iff.1 h0, rfl⟩
  · split at he
    · cases he
    · cases he
    · rename_i st hl
      split at he
      · cases he
      · rename_i hli
        have hli : st.lastIn = .selector := by simpa using hli
        cases he
        have ha := parseLoop_at _ (.begin rfl rfl rfl rfl rfl) hl
        rw [List.nil_append] at ha
        refine .inr ?_
        cases ha with
        | begin h1 h2 => rw [hli] at h2; cases h2
        | lead h1 h2 => exact absurd hli h2
        | @sel c a t h1 h2 h3 h4 h5 => exact ⟨c, a, t, [], h3, h4, by simp [White], by simpa using h5⟩
        | comma h1 h2 => exact absurd hli h2
        | @comb c a t w h1 h2 h3 h4 h5 h6 => exact ⟨c, a, t, w, h3, h4, h2 hli, h6⟩

end Visdom
