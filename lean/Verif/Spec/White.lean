import Verif.Model.Attr
/-!
# Specification: white space
-/
namespace Visdom.Spec

/-- The characters with the Unicode property `White_Space`: tab, line feed, line tabulation, form feed, carriage return, space, next line, no-break space, ogham
space mark, en quad to hair space, line separator, paragraph separator, narrow no-break space, medium mathematical space, ideographic space. -/
def WhiteSpace (c : Char) : Prop :=
  c.toNat ∈ [0x9, 0xA, 0xB, 0xC, 0xD, 0x20, 0x85, 0xA0, 0x1680, 0x2000, 0x2001, 0x2002, 0x2003, 0x2004, 0x2005, 0x2006, 0x2007, 0x2008, 0x2009, 0x200A,
    0x2028, 0x2029, 0x202F, 0x205F, 0x3000]
instance (c : Char) : Decidable (WhiteSpace c) := inferInstanceAs (Decidable (_ ∈ _))

end Visdom.Spec

namespace Visdom
open Spec

theorem wsTable_iff {c : Char} : isUnicodeWs c = true ↔ WhiteSpace c := by
  simp only [isUnicodeWs, WhiteSpace, Bool.or_eq_true, Bool.and_eq_true, decide_eq_true_eq, beq_iff_eq, List.mem_cons, List.not_mem_nil, or_false]
  omega

theorem wsTable_not {c : Char} : isUnicodeWs c = false ↔ ¬ WhiteSpace c := by rw [← wsTable_iff, Bool.not_eq_true]

end Visdom
