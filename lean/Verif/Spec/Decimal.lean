import Verif.Py
import Mathlib.Data.Nat.Digits.Defs
import Mathlib.Data.List.Forall2
import Mathlib.Algebra.Order.Field.Rat

/-! # Specification of decimal literals -/

namespace Bitforge.Spec

/-- A list of decimal digits. -/
def Digits (t : Text) : Prop := ∀ c ∈ t, '0'.toNat ≤ c.toNat ∧ c.toNat ≤ '9'.toNat

/-- The number written by a list of digits. -/
def digitsValue (t : Text) : Nat := Nat.ofDigits 10 (t.reverse.map fun c => c.toNat - '0'.toNat)

/-- The zeros among the decimal digits (general category Nd) of Unicode 5.2: ASCII, Arabic-Indic and Persian, N'Ko,
Devanagari, Bengali, Gurmukhi, Gujarati, Oriya, Tamil, Telugu, Kannada, Malayalam, Thai, Lao, Tibetan, Myanmar and Shan,
Khmer, Mongolian, Limbu, New Tai Lue, Tai Tham (two), Balinese, Sundanese, Lepcha, Ol Chiki, Vai, Saurashtra, Kayah Li,
Javanese, Cham, Meetei Mayek, fullwidth, Osmanya, mathematical (five).  The other nine digits follow each. -/
def zeros : List Nat :=
  [0x30, 0x660, 0x6F0, 0x7C0, 0x966, 0x9E6, 0xA66, 0xAE6, 0xB66, 0xBE6, 0xC66, 0xCE6, 0xD66, 0xE50, 0xED0, 0xF20, 0x1040,
   0x1090, 0x17E0, 0x1810, 0x1946, 0x19D0, 0x1A80, 0x1A90, 0x1B50, 0x1BB0, 0x1C40, 0x1C50, 0xA620, 0xA8D0, 0xA900, 0xA9D0,
   0xAA50, 0xABF0, 0xFF10, 0x104A0, 0x1D7CE, 0x1D7D8, 0x1D7E2, 0x1D7EC, 0x1D7F6]

/-- A decimal digit and its value.  One stands alone: New Tai Lue Tham Digit One. -/
def DigitChar (c : Char) (d : Nat) : Prop := (d < 10 ∧ ∃ z ∈ zeros, c.toNat = z + d) ∨ (c.toNat = 0x19DA ∧ d = 1)

/-- The Latin-1 characters that are digits but not decimal digits. -/
def superscripts : List Char := ['²', '³', '¹']

/-- A number in decimal digits of any scripts. -/
def Numeral (t : Text) (n : Nat) : Prop := t ≠ [] ∧ ∃ ds, List.Forall₂ DigitChar t ds ∧ Nat.ofDigits 10 ds.reverse = n

/-- A plain decimal number, as in BIP 21: digits, perhaps a point and more digits. -/
def PlainDecimal (t : Text) (q : ℚ) : Prop :=
  ∃ a b, Digits a ∧ Digits b ∧ a ++ b ≠ [] ∧ (t = a ++ '.' :: b ∨ (b = [] ∧ t = a)) ∧
    q = digitsValue (a ++ b) / 10 ^ b.length

/-- The exponent part. -/
def Exponent (t : Text) (e : Int) : Prop :=
  ∃ d mark, Digits d ∧ d ≠ [] ∧ (mark = 'e' ∨ mark = 'E') ∧
    ((t = mark :: '-' :: d ∧ e = -digitsValue d) ∨ ((t = mark :: '+' :: d ∨ t = mark :: d) ∧ e = digitsValue d))

/-- A decimal literal: a plain number, perhaps with an exponent. -/
def Literal (t : Text) (q : ℚ) : Prop :=
  PlainDecimal t q ∨ ∃ m x p e, t = m ++ x ∧ PlainDecimal m p ∧ Exponent x e ∧ q = p * 10 ^ e

/-- A decimal literal, perhaps with a minus sign. -/
def SignedLiteral (t : Text) (q : ℚ) : Prop := Literal t q ∨ ∃ m, t = '-' :: m ∧ Literal m (-q)

/-- Numbers with at most 12 significant decimal digits. -/
def Decimal12 (v : ℚ) : Prop := ∃ m e : Int, |m| < 10 ^ 12 ∧ v = m * (10 : ℚ) ^ e

/-- `m` is the number `n` rounded to 12 significant decimal digits (up or down if it is in the middle). -/
def Round12 (n m : Int) : Prop :=
  ∃ k : Nat, |n| < 10 ^ (12 + k) ∧ (k = 0 ∨ 10 ^ (11 + k) ≤ |n|) ∧ 10 ^ k ∣ m ∧ 2 * |m - n| ≤ 10 ^ k

end Bitforge.Spec
