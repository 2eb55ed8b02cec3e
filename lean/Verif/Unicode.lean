import Verif.Py

/-! # The parts of CPython 2.7's `unicode` type that depend on the Unicode database (version 5.2)

Not code of the library; used by `bitforge/script/script.py` (`isdigit`, `int`) and `bitforge/uri.py` (`float`).
Characters are code points, as in a wide build. -/

namespace Bitforge

/-- The characters with a decimal value (field 6 of `UnicodeData.txt`), in runs: the first one, their number, and the
value of the first. -/
def decimalRuns : List (Nat × Nat × Nat) :=
  [(0x30, 10, 0), (0x660, 10, 0), (0x6F0, 10, 0), (0x7C0, 10, 0), (0x966, 10, 0), (0x9E6, 10, 0), (0xA66, 10, 0),
   (0xAE6, 10, 0), (0xB66, 10, 0), (0xBE6, 10, 0), (0xC66, 10, 0), (0xCE6, 10, 0), (0xD66, 10, 0), (0xE50, 10, 0),
   (0xED0, 10, 0), (0xF20, 10, 0), (0x1040, 10, 0), (0x1090, 10, 0), (0x17E0, 10, 0), (0x1810, 10, 0), (0x1946, 10, 0),
   (0x19D0, 10, 0), (0x1A80, 10, 0), (0x1A90, 10, 0), (0x1B50, 10, 0), (0x1BB0, 10, 0), (0x1C40, 10, 0), (0x1C50, 10, 0),
   (0xA620, 10, 0), (0xA8D0, 10, 0), (0xA900, 10, 0), (0xA9D0, 10, 0), (0xAA50, 10, 0), (0xABF0, 10, 0), (0xFF10, 10, 0),
   (0x104A0, 10, 0), (0x1D7CE, 10, 0), (0x1D7D8, 10, 0), (0x1D7E2, 10, 0), (0x1D7EC, 10, 0), (0x1D7F6, 10, 0),
   (0x19DA, 1, 1)]

/-- The value of a character in a list of runs. -/
def lookupRun (n : Nat) : List (Nat × Nat × Nat) → Option Nat
  | [] => none
  | (first, count, value) :: rest =>
    if first ≤ n ∧ n < first + count then some (value + (n - first)) else lookupRun n rest

/-- `Py_UNICODE_TODECIMAL`; `none` is -1. -/
def decimalValue (c : Char) : Option Nat := lookupRun c.toNat decimalRuns

/-- The other characters with a digit value (field 7): superscripts, subscripts, circled digits and the like.  First and
last of each run. -/
def digitRuns : List (Nat × Nat) :=
  [(0xB2, 0xB3), (0xB9, 0xB9), (0x1369, 0x1371), (0x2070, 0x2070), (0x2074, 0x2079), (0x2080, 0x2089), (0x2460, 0x2468),
   (0x2474, 0x247C), (0x2488, 0x2490), (0x24EA, 0x24EA), (0x24F5, 0x24FD), (0x24FF, 0x24FF), (0x2776, 0x277E),
   (0x2780, 0x2788), (0x278A, 0x2792), (0x10A40, 0x10A43), (0x10E60, 0x10E68), (0x1F100, 0x1F10A)]

/-- `Py_UNICODE_ISDIGIT` -/
def isDigitChar (c : Char) : Bool :=
  (decimalValue c).isSome || digitRuns.any fun r => r.1 ≤ c.toNat && c.toNat ≤ r.2

/-- `text.isdigit()` -/
def isDigitText (t : Text) : Bool := t ≠ [] ∧ t.all isDigitChar

/-- `Py_UNICODE_ISSPACE` -/
def isSpaceChar (c : Char) : Bool :=
  (9 ≤ c.toNat && c.toNat ≤ 13) || (28 ≤ c.toNat && c.toNat ≤ 32) || c.toNat = 0x85 || c.toNat = 0xa0 ||
  c.toNat = 0x1680 || c.toNat = 0x180e || (0x2000 ≤ c.toNat && c.toNat ≤ 0x200a) || c.toNat = 0x2028 ||
  c.toNat = 0x2029 || c.toNat = 0x202f || c.toNat = 0x205f || c.toNat = 0x3000

/-- The ASCII character of a digit. -/
def digitChar (d : Nat) : Char := Char.ofNat (48 + d % 10)

/-- One character of `PyUnicode_EncodeDecimal`, which prepares the text for `int` and `float`; `none` is the
UnicodeEncodeError. -/
def encodeDecimalChar (c : Char) : Option Char :=
  if isSpaceChar c then some ' '
  else match decimalValue c with
    | some d => some (digitChar d)
    | none => if 0 < c.toNat ∧ c.toNat < 256 then some c else none

/-- `PyUnicode_EncodeDecimal` -/
def encodeDecimal : Text → Except Err Text
  | [] => .ok []
  | c :: t =>
    match encodeDecimalChar c with
    | none => .error .unicodeEncodeError
    | some c' => match encodeDecimal t with
      | .error e => .error e
      | .ok t' => .ok (c' :: t')

/-- `text.strip()` of an encoded text. -/
def stripText (t : Text) : Text := ((t.dropWhile (· = ' ')).reverse.dropWhile (· = ' ')).reverse

/-- The number written by a list of ASCII digits. -/
def intOfText (t : Text) : Nat := t.foldl (fun n c => n * 10 + (c.toNat - '0'.toNat)) 0

/-- `int(text)` of a `unicode` object for which `isdigit` holds: no signs or spaces. -/
def intOfDigits (t : Text) : Except Err Nat :=
  match encodeDecimal t with
  | .error e => .error e
  | .ok s => if s.all Char.isDigit then .ok (intOfText s) else .error .valueError

end Bitforge
