import Verif.Py
import Mathlib.Data.Int.Log
import Mathlib.Data.Rat.Floor
import Mathlib.Algebra.Order.Field.Rat

/-! # Python's `float`: IEEE 754 binary64 with rounding to nearest, ties to even

Finite values are rational numbers; the sign of zero is not modelled (no modelled code depends on it). -/

namespace Bitforge

/-- A Python `float`. -/
inductive Float64
  | fin (q : ℚ)
  | inf (negative : Bool)
  | nan
  deriving DecidableEq, Repr

/-- A Python number: `int` (or `long`), or `float`. -/
inductive Num
  | int (n : Int)
  | float (f : Float64)
  deriving DecidableEq, Repr

/-- The nearest integer, ties to even. -/
def roundEven (q : ℚ) : Int :=
  let f := ⌊q⌋
  if q - f < 1 / 2 then f
  else if 1 / 2 < q - f then f + 1
  else if f % 2 = 0 then f else f + 1

namespace Float64

/-- The exponent of the last of the 53 bits of a number of this size. -/
def ulpExp (q : ℚ) : Int := max (Int.log 2 |q|) (-1022) - 52

/-- The correctly rounded `float` of a rational number. -/
def rnd (q : ℚ) : Float64 :=
  let v := roundEven (q / 2 ^ ulpExp q) * (2 : ℚ) ^ ulpExp q
  if |v| < 2 ^ 1024 then .fin v else .inf (v < 0)

/-- Is the number negative?  (Zeros and NaN are not.) -/
def negative : Float64 → Bool
  | .fin q => q < 0
  | .inf neg => neg
  | .nan => false

/-- `x * y`. -/
def mul (x y : Float64) : Float64 :=
  match x, y with
  | .fin p, .fin q => rnd (p * q)
  | .nan, _ => .nan
  | _, .nan => .nan
  | x, y => if x = .fin 0 ∨ y = .fin 0 then .nan else .inf (x.negative != y.negative)

/-- `x / y`. -/
def div (x y : Float64) : Except Err Float64 :=
  if y = .fin 0 then .error .zeroDivisionError
  else .ok (match x, y with
    | .fin p, .fin q => rnd (p / q)
    | .fin _, .inf _ => .fin 0
    | .inf n, .fin q => .inf (n != decide (q < 0))
    | _, _ => .nan)

/-- `int(x)`: truncation towards zero. -/
def toInt (x : Float64) : Except Err Int :=
  match x with
  | .fin q => .ok (if 0 ≤ q then ⌊q⌋ else ⌈q⌉)
  | .inf _ => .error .overflowError
  | .nan => .error .valueError

/-- `float(n)`, as in mixed arithmetic. -/
def ofInt (n : Int) : Except Err Float64 :=
  match rnd n with
  | .fin q => .ok (.fin q)
  | _ => .error .overflowError

end Float64

namespace Num

/-- The operand of a float operation. -/
def toFloat : Num → Except Err Float64
  | .int n => Float64.ofInt n
  | .float f => .ok f

/-- `int(x)`. -/
def toInt : Num → Except Err Int
  | .int n => .ok n
  | .float f => f.toInt

end Num
end Bitforge
