import Verif.Float64
import Verif.Spec.Decimal
import Verif.Spec.Float64

/-! # Specification of the texts that `float` understands -/

namespace Bitforge.Spec

/-- White space of Unicode 5.2, as Python's `isspace`. -/
def spaces : List Nat :=
  [0x9, 0xA, 0xB, 0xC, 0xD, 0x1C, 0x1D, 0x1E, 0x1F, 0x20, 0x85, 0xA0, 0x1680, 0x180E, 0x2000, 0x2001, 0x2002, 0x2003, 0x2004,
   0x2005, 0x2006, 0x2007, 0x2008, 0x2009, 0x200A, 0x2028, 0x2029, 0x202F, 0x205F, 0x3000]

/-- A character and what the parsers of numbers see instead: digits of all scripts, any white space, Latin-1. -/
inductive Seen (c : Char) : Char → Prop
  | space : c.toNat ∈ spaces → Seen c ' '
  | digit {d s} : DigitChar c d → s.toNat = 48 + d → Seen c s
  | other : c.toNat ∉ spaces → (∀ d, ¬ DigitChar c d) → 0 < c.toNat → c.toNat < 256 → Seen c c

/-- The text is, with white space around, a sign or none, and `body`. -/
def Signed (t : Text) (neg : Bool) (body : Text) : Prop :=
  ∃ s a sign b : Text, List.Forall₂ Seen t s ∧ s = a ++ (sign ++ (body ++ b)) ∧ (∀ c ∈ a, c = ' ') ∧ (∀ c ∈ b, c = ' ') ∧
    ((sign = [] ∨ sign = ['+']) ∧ neg = false ∨ sign = ['-'] ∧ neg = true)

/-- A word in any case. -/
def Word (w : String) (t : Text) : Prop := t.map Char.toLower = w.toList

/-- The number that `float(text)` returns. -/
inductive FloatOf (t : Text) : Float64 → Prop
  | finite {neg body q v} : Signed t neg body → Literal body q → Rounded64 (if neg then -q else q) v → |q| < 2 ^ 970 * (2 ^ 54 - 1) →
      FloatOf t (.fin v)
  | overflow {neg body q} : Signed t neg body → Literal body q → 2 ^ 970 * (2 ^ 54 - 1) ≤ q → FloatOf t (.inf neg)
  | infinity {neg body} : Signed t neg body → Word "inf" body ∨ Word "infinity" body → FloatOf t (.inf neg)
  | nan {neg body} : Signed t neg body → Word "nan" body → FloatOf t .nan

end Bitforge.Spec
