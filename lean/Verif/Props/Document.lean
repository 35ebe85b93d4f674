import Verif.Model.Document
import Verif.Props.Parser
/-!
# C59: `document_element`, `head`, `body`, `title`
-/
namespace Visdom
open Spec

variable {h : Heap} {r : Nat} {env : Env} {own : Nat → Bool}

theorem name_selText {n : List Char} (hn : IdText n n) : SelText [[(.childrenAll, [.name n])]] n :=
  ⟨0, [], _, [], .mk .desc (.one (.name hn)) .nil .nil, blank_nil, blank_nil, by simp⟩

open Classical in
/-- `find` with a tag name, from any set in document order. -/
theorem find_named (wf : TreeWF h r) (ev : Metas h r) {S : List Nat} (hS : Nodes h r S) (hs : DocSorted h r S) {n : List Char}
    (hn : SelText [[(.childrenAll, [.name n])]] n) :
    ∃ T, findText h env own S n = .ok (T, 0) ∧ DocSorted h r T ∧ T.Nodup ∧ ∀ t, t ∈ T ↔ (∃ y ∈ S, Below h y t) ∧ Named h n t := by
  have hb : Basic [(.childrenAll, [Sim.name n])] := ⟨by simp, by simp [Comb.down, Sim.basic]⟩
  have hd : ∀ s ∈ [(Comb.childrenAll, [Sim.name n])], s.1 = Comb.childrenAll := by simp
  obtain ⟨T, hT⟩ := C19_find_basic_descendants (env := env) wf ev hb hd hS hs
  have ho := C18_find_descendants wf ev (basic_findOk (env := env) hb (by simp)) hd hS hs hT
  have hx := C17_find_basic wf ev hb hS hs hT
  refine ⟨T, by rw [C29_find_text_partial h env own hn, hT]; rfl, ho.1, ho.2, fun t => ?_⟩
  rw [hx t, steps, steps, step]
  show h.isElem t = true ∧ _ ∧ _ ↔ _
  rw [decide_eq_true_iff, cmpdSat, cmpdSat, Sim.Sat]
  constructor
  · rintro ⟨h1, ⟨h2, -⟩, h3⟩
    exact ⟨h3, h2⟩
  · rintro ⟨h1, h2⟩
    exact ⟨h2.1, ⟨h2, trivial⟩, h1⟩

/-- The first element with the name in document order, if there is any. -/
def IsFirst (h : Heap) (r : Nat) (n : List Char) : Option Nat → Prop
  | none => ∀ x, Below h r x → ¬ Named h n x
  | some x => Below h r x ∧ Named h n x ∧ ∀ y, Below h r y → Named h n y → y = x ∨ Before h r x y

theorem head_first {n : List Char} {T : List Nat} (hs : DocSorted h r T) (ht : ∀ t, t ∈ T ↔ (∃ y ∈ [r], Below h y t) ∧ Named h n t) :
    IsFirst h r n T.head? := by
  simp only [List.mem_singleton, exists_eq_left] at ht
  cases T with
  | nil => exact fun x hb hn => absurd ((ht x).2 ⟨hb, hn⟩) (by simp)
  | cons x T =>
    obtain ⟨h1, h2⟩ := (ht x).1 (by simp)
    refine ⟨h1, h2, fun y hb hn => ?_⟩
    rcases List.mem_cons.1 ((ht y).2 ⟨hb, hn⟩) with rfl | hy
    · exact .inl rfl
    · exact .inr (List.rel_of_pairwise_cons hs hy)

theorem html_text : SelText [[(.childrenAll, [.name "html".toList])]] "html".toList := by
  rw [show "html".toList = ['h', 't', 'm', 'l'] from by decide]
  exact name_selText (idText_plain (by simp [NameStart]) (by simp [NameChar, NameStart]))
theorem head_text : SelText [[(.childrenAll, [.name "head".toList])]] "head".toList := by
  rw [show "head".toList = ['h', 'e', 'a', 'd'] from by decide]
  exact name_selText (idText_plain (by simp [NameStart]) (by simp [NameChar, NameStart]))
theorem body_text : SelText [[(.childrenAll, [.name "body".toList])]] "body".toList := by
  rw [show "body".toList = ['b', 'o', 'd', 'y'] from by decide]
  exact name_selText (idText_plain (by simp [NameStart]) (by simp [NameChar, NameStart]))
theorem title_text : SelText [[(.childrenAll, [.name "title".toList])]] "title".toList := by
  rw [show "title".toList = ['t', 'i', 't', 'l', 'e'] from by decide]
  exact name_selText (idText_plain (by simp [NameStart]) (by simp [NameChar, NameStart]))

theorem docFirst_ok (wf : TreeWF h r) (ev : Metas h r) {n : List Char} (hn : SelText [[(.childrenAll, [.name n])]] n) :
    ∃ o, docFirst h env own r n = .ok o ∧ IsFirst h r n o := by
  obtain ⟨T, h1, h2, -, h4⟩ := find_named (env := env) (own := own) wf ev (nodes_root wf) (docSorted_single r) hn
  exact ⟨T.head?, by rw [docFirst, h1]; rfl, head_first h2 h4⟩

/-- C59: `document_element`, `head` and `body` do not panic and return the first element of that name in document order,
`None` only if there is none. -/
theorem C59_elements (wf : TreeWF h r) (ev : Metas h r) :
    (∃ o, documentElement h env own r = .ok o ∧ IsFirst h r "html".toList o) ∧ (∃ o, docHead h env own r = .ok o ∧ IsFirst h r "head".toList o) ∧
      ∃ o, docBody h env own r = .ok o ∧ IsFirst h r "body".toList o :=
  ⟨docFirst_ok wf ev html_text, docFirst_ok wf ev head_text, docFirst_ok wf ev body_text⟩

/-- C59: `title` is the text of the `title` elements inside the head of the document, `None` if there are none. -/
theorem C59_title (wf : TreeWF h r) (ev : Metas h r) :
    ∃ head T, docHead h env own r = .ok head ∧ DocSorted h r T ∧ T.Nodup ∧ (∀ t, t ∈ T ↔ (∃ y, head = some y ∧ Below h y t) ∧ Named h "title".toList t) ∧
      docTitle h env own r = .ok (if T = [] then none else some (T.flatMap env.text)) := by
  obtain ⟨H, h1, h2, h3, h4⟩ := find_named (env := env) (own := own) wf ev (nodes_root wf) (docSorted_single r) head_text
  have hS : Nodes h r (eqAt H 0) ∧ DocSorted h r (eqAt H 0) ∧ ∀ y, y ∈ eqAt H 0 ↔ H.head? = some y := by
    cases H with
    | nil => exact ⟨fun x hx => absurd hx (by simp [eqAt]), List.Pairwise.nil, by simp [eqAt]⟩
    | cons x H =>
      obtain ⟨⟨y, hy, hb⟩, hn⟩ := (h4 x).1 (by simp)
      rw [List.mem_singleton] at hy
      subst hy
      refine ⟨?_, docSorted_single x, by simp [eqAt, eq_comm]⟩
      intro z hz
      obtain rfl : z = x := by simpa [eqAt] using hz
      exact ⟨by obtain ⟨c, h1, h2⟩ := hb; exact (Within.step .self h1).trans h2, .inl hn.1⟩
  obtain ⟨T, g1, g2, g3, g4⟩ := find_named (env := env) (own := own) wf ev hS.1 hS.2.1 title_text
  refine ⟨H.head?, T, by rw [docHead, docFirst, h1]; rfl, g2, g3, fun t => ?_, ?_⟩
  · rw [g4]
    constructor
    · rintro ⟨⟨y, hy, hb⟩, hn⟩
      exact ⟨⟨y, (hS.2.2 y).1 hy, hb⟩, hn⟩
    · rintro ⟨⟨y, hy, hb⟩, hn⟩
      exact ⟨⟨y, (hS.2.2 y).2 hy, hb⟩, hn⟩
  · simp only [docTitle, h1, g1, textOfAll, List.isEmpty_iff]

/-- `<html><head><title/></head><body><title/></body></html>` -/
def titled : Heap := heapOf [rootN [1], el "html" 0 0 [2, 4], el "HEAD" 1 0 [3], el "title" 2 0, el "body" 1 1 [5], el "title" 4 0]
/-- the texts of the page -/
def titledEnv : Env := { env0 with text := fun x => if x = 3 then "t".toList else "u".toList }

theorem titled_wf : TreeWF titled 0 := wfCheck_sound (by decide)

example : documentElement titled titledEnv (fun _ => true) 0 = .ok (some 1) ∧ docHead titled titledEnv (fun _ => true) 0 = .ok (some 2) ∧
    docBody titled titledEnv (fun _ => true) 0 = .ok (some 4) ∧ docTitle titled titledEnv (fun _ => true) 0 = .ok (some "t".toList) ∧
    docHead demo env0 (fun _ => true) 0 = .ok none ∧ docTitle demo env0 (fun _ => true) 0 = .ok none := by decide

end Visdom
