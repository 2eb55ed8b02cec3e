import Verif.Float64
import Verif.Unicode

/-! # Reading and writing `float`s: `float(text)` and `str(float)` of CPython 2.7

Neither is code of the library; both are used by `bitforge/uri.py`. -/

namespace Bitforge

/-- The number written by a list of decimal digits. -/
def decValue (t : Text) : Nat := t.foldl (fun v c => 10 * v + (c.toNat - 48)) 0

/-- An optional sign: is it a minus, and what follows. -/
def splitSign : Text → Bool × Text
  | '-' :: t => (true, t)
  | '+' :: t => (false, t)
  | t => (false, t)

/-- The exponent part of a decimal literal, up to the end of the text. -/
def parseExponent : Text → Option Int
  | [] => some 0
  | c :: t =>
    if c = 'e' ∨ c = 'E' then
      let (neg, d) := splitSign t
      if d ≠ [] ∧ d.all Char.isDigit then some (if neg then -decValue d else decValue d) else none
    else none

/-- The fraction part of a decimal literal, and what follows. -/
def splitFraction : Text → Text × Text
  | '.' :: t => (t.takeWhile Char.isDigit, t.dropWhile Char.isDigit)
  | t => ([], t)

/-- A decimal literal without sign: its exact value. -/
def parseDecimal (t : Text) : Option ℚ :=
  let int := t.takeWhile Char.isDigit
  let (frac, rest) := splitFraction (t.dropWhile Char.isDigit)
  if int = [] ∧ frac = [] then none
  else match parseExponent rest with
    | none => none
    | some e => some (decValue (int ++ frac) * (10 : ℚ) ^ (e - frac.length))

/-- `float(text)` of a `unicode` object.  Exact for every text; CPython clips exponents beyond 19999, which matters only
for texts of some 20000 digits. -/
def parseFloat (t : Text) : Except Err Float64 :=
  match encodeDecimal t with
  | .error e => .error e
  | .ok t =>
    let (neg, s) := splitSign (stripText t)
    let low := s.map Char.toLower
    if low = "inf".toList ∨ low = "infinity".toList then .ok (.inf neg)
    else if low = "nan".toList then .ok .nan
    else match parseDecimal s with
      | none => .error .valueError
      | some q => .ok (Float64.rnd (if neg then -q else q))

/-- The last `k` decimal digits of a number. -/
def fixedDigits : Nat → Nat → Text
  | 0, _ => []
  | k + 1, d => fixedDigits k (d / 10) ++ [digitChar d]

/-- A positive number rounded to 12 significant digits, ties to even: the digits as a number from `10^11` to
`10^12 - 1`, and the exponent of the last one. -/
def sig12 (q : ℚ) : Nat × Int :=
  let e := Int.log 10 q - 11
  let d := (roundEven (q / 10 ^ e)).toNat
  if d = 10 ^ 12 then (10 ^ 11, e + 1) else (d, e)

/-- Remove the zeros at the end. -/
def stripZeros (t : Text) : Text := (t.reverse.dropWhile (· = '0')).reverse

/-- The exponent, with a sign and at least two digits. -/
def exponentText (e : Int) : Text :=
  (if e < 0 then '-' else '+') :: fixedDigits (if e.natAbs < 100 then 2 else 3) e.natAbs

/-- Significant digits `s`, the decimal point after the first `point` of them: the layout of format `g` with
precision 12 and the flag that adds `.0` to integers. -/
def layout (s : Text) (point : Int) : Text :=
  if point ≤ -4 ∨ 11 < point then
    (match s with
      | [] => []
      | [c] => [c]
      | c :: r => c :: '.' :: r) ++ 'e' :: exponentText (point - 1)
  else if point ≤ 0 then '0' :: '.' :: List.replicate (-point).toNat '0' ++ s
  else if s.length ≤ point then s ++ List.replicate (point - s.length).toNat '0' ++ ['.', '0']
  else s.take point.toNat ++ '.' :: s.drop point.toNat

/-- `str(x)` of a positive finite number. -/
def positiveText (q : ℚ) : Text := layout (stripZeros (fixedDigits 12 (sig12 q).1)) ((sig12 q).2 + 12)

/-- `str(x)` of a `float` (`'%.12g'`, with `.0` added to integers). -/
def floatText (x : Float64) : Text :=
  match x with
  | .fin q => if q = 0 then "0.0".toList else if 0 < q then positiveText q else '-' :: positiveText (-q)
  | .inf neg => if neg then "-inf".toList else "inf".toList
  | .nan => "nan".toList

example : floatText (.fin 1.5) = "1.5".toList := by decide +kernel
example : floatText (.fin (1 / 100000)) = "1e-05".toList := by decide +kernel
example : floatText (.fin (110001 / 100000)) = "1.10001".toList := by decide +kernel
example : floatText (.fin 21000000) = "21000000.0".toList := by decide +kernel
example : floatText (.fin 99999999999) = "99999999999.0".toList := by decide +kernel
example : floatText (.fin 100000000000) = "1e+11".toList := by decide +kernel
example : floatText (.fin (9999999999999 / 10000)) = "1000000000.0".toList := by decide +kernel
example : floatText (.fin (1 / 3000)) = "0.000333333333333".toList := by decide +kernel
example : floatText (.fin (-20000001 / 100000000000)) = "-0.00020000001".toList := by decide +kernel
example : parseFloat " +1.5e1 ".toList = .ok (.fin 15) := by decide +kernel
example : parseFloat "1e400".toList = .ok (.inf false) := by decide +kernel
example : parseFloat "-Infinity".toList = .ok (.inf true) := by decide +kernel
example : parseFloat ".".toList = .error .valueError := by decide +kernel
example : parseFloat "1e".toList = .error .valueError := by decide +kernel
example : parseFloat "\u3000\u0661.\uff15".toList = .ok (.fin 1.5) := by decide +kernel
example : parseFloat "\u00b2".toList = .error .valueError := by decide +kernel
example : parseFloat "\u2460".toList = .error .unicodeEncodeError := by decide +kernel

end Bitforge
