import Verif.Spec.TreeCheck
import Verif.Spec.Selector
/-!
# Sample documents for the examples beside the theorems
-/
namespace Visdom.Spec

/-- An environment without ids and texts. -/
def env0 : Env := ⟨fun _ _ => none, fun _ => true, fun _ => []⟩

/-- An environment where the id `x` belongs to node 6. -/
def env6 : Env := ⟨fun _ i => if i = "x".toList then some 6 else none, fun _ => true, fun _ => []⟩

/-- A type selector. -/
def ty (n : String) : Sim := .name n.toList

/-- `<div><div><div><span><b></b></span></div></div><div></div></div>` -/
def nest : Heap := heapOf
  [rootN [1], el "div" 0 0 [2, 6], el "div" 1 0 [3], el "div" 2 0 [4], el "span" 3 0 [5], el "b" 4 0, el "div" 1 1]

/-- `<div></div>` -/
def lone : Heap := heapOf [rootN [1], el "div" 0 0]

/-- `<p></p><b></b><p></p><i></i>` in a `div` -/
def row : Heap := heapOf [rootN [1], el "div" 0 0 [2, 3, 4, 5], el "p" 1 0, el "b" 1 1, el "p" 1 2, el "i" 1 3]

theorem row_wf : TreeWF row 0 := wfCheck_sound (by decide)
theorem nest_wf : TreeWF nest 0 := wfCheck_sound (by decide)
theorem lone_wf : TreeWF lone 0 := wfCheck_sound (by decide)

/-- Test for `MetaWF`. -/
def metaCheck (m : Meta) : Bool :=
  m.lcMap.all fun p => (lowerStr p.1 == p.1) && decide (p.2 < m.attrs.length) &&
    m.lcMap.all fun p' => p'.2 != p.2 || p'.1 == p.1

theorem mapGet_mem {m : List (List Char × Nat)} {k : List Char} {i : Nat} (hg : mapGet m k = some i) : (k, i) ∈ m := by
  unfold mapGet at hg
  cases hf : m.find? (fun p => p.1 == k) with
  | none => rw [hf] at hg; cases hg
  | some p =>
    rw [hf] at hg
    have h1 := List.mem_of_find?_eq_some hf
    have h2 := List.find?_some hf
    obtain ⟨a, b⟩ := p
    obtain rfl : a = k := by simpa using h2
    obtain rfl : b = i := by simpa using hg
    exact h1

theorem metaCheck_sound {m : Meta} (hc : metaCheck m = true) : MetaWF m := by
  simp only [metaCheck, List.all_eq_true, Bool.and_eq_true, beq_iff_eq, decide_eq_true_eq, Bool.or_eq_true, bne_iff_ne,
    ne_eq] at hc
  refine ⟨fun k i hk => (hc _ (mapGet_mem hk)).1.1, fun k i hk => (hc _ (mapGet_mem hk)).1.2, fun k k' i hk hk' => ?_⟩
  exact ((hc _ (mapGet_mem hk')).2 _ (mapGet_mem hk)).resolve_left (fun h => h rfl)

/-- Every node knows the root and has a consistent attribute table. -/
def envCheck (h : Heap) (r : Nat) : Bool :=
  (List.range h.size).all fun x => ((h.node x).root == some r) && metaCheck (h.node x).attrs

theorem envCheck_sound {h : Heap} {r : Nat} {env : Env} (wf : TreeWF h r) (hc : envCheck h r = true)
    (hid : ∀ i e, env.byId r i = some e → Within h r e ∧ h.isElem e = true) : EnvOk h r env := by
  simp only [envCheck, List.all_eq_true, Bool.and_eq_true, beq_iff_eq, List.mem_range] at hc
  exact ⟨hid, fun x hx => (hc x (wf.bound x hx)).1, fun x hx _ => metaCheck_sound (hc x (wf.bound x hx)).2⟩

theorem demo_env : EnvOk demo 0 env0 := envCheck_sound demo_wf (by decide) (fun i e h => by cases h)
theorem demo_env6 : EnvOk demo 0 env6 := envCheck_sound demo_wf (by decide) (fun i e h => by
  simp only [env6] at h
  split at h
  · cases h; exact ⟨wfCheck_within [0, 1, 5] (by decide) rfl, by decide⟩
  · cases h)
theorem nest_env : EnvOk nest 0 env0 := envCheck_sound nest_wf (by decide) (fun i e h => by cases h)
theorem row_env : EnvOk row 0 env0 := envCheck_sound row_wf (by decide) (fun i e h => by cases h)
theorem lone_env : EnvOk lone 0 env0 := envCheck_sound lone_wf (by decide) (fun i e h => by cases h)

end Visdom.Spec
