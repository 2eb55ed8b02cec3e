import Mathlib.Data.Rat.Floor
import Mathlib.Algebra.Order.Field.Rat

/-! # Specification of binary64 numbers -/

namespace Bitforge.Spec

/-- The finite binary64 numbers: 53-bit significands, exponents from -1074 to 971. -/
def Binary64 (v : ℚ) : Prop := ∃ m e : Int, |m| < 2 ^ 53 ∧ -1074 ≤ e ∧ e ≤ 971 ∧ v = m * (2 : ℚ) ^ e

/-- `v` is a binary64 number closest to `q`. -/
def Nearest64 (q v : ℚ) : Prop := Binary64 v ∧ ∀ d, Binary64 d → |v - q| ≤ |d - q|

/-- `v` is the binary64 number closest to `q`; of two, the one that is an even multiple of their distance. -/
def Rounded64 (q v : ℚ) : Prop := Nearest64 q v ∧ ∀ w, Nearest64 q w → w ≠ v → ∃ k : Int, v = 2 * k * |w - v|

end Bitforge.Spec
