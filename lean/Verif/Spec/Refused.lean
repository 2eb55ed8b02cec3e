import Verif.Spec.Names
import Verif.Spec.Errors

/-! # Specification of why a text is refused as a script

The first word that does not fit decides. -/

namespace Bitforge.Spec

/-- The digits that have no decimal value: superscripts, Ethiopic, subscripts, circled, in brackets, with full stop,
double circled, dingbats, Kharoshthi, Rumi, with comma. First and last of each run. -/
def otherDigits : List (Nat × Nat) :=
  [(0xB2, 0xB3), (0xB9, 0xB9), (0x1369, 0x1371), (0x2070, 0x2070), (0x2074, 0x2079), (0x2080, 0x2089), (0x2460, 0x2468),
   (0x2474, 0x247C), (0x2488, 0x2490), (0x24EA, 0x24EA), (0x24F5, 0x24FD), (0x24FF, 0x24FF), (0x2776, 0x277E),
   (0x2780, 0x2788), (0x278A, 0x2792), (0x10A40, 0x10A43), (0x10E60, 0x10E68), (0x1F100, 0x1F10A)]

def OtherDigit (c : Char) : Prop := ∃ r ∈ otherDigits, r.1 ≤ c.toNat ∧ c.toNat ≤ r.2

/-- A word of digits of any kind. -/
def DigitText (t : Text) : Prop := t ≠ [] ∧ ∀ c ∈ t, (∃ d, DigitChar c d) ∨ OtherDigit c

/-- A word of digits that is not a number: those outside Latin-1 cannot be encoded, the others are not understood. -/
inductive NotNumber (t : Text) : Err → Prop
  | unencodable : DigitText t → (∃ c ∈ t, OtherDigit c ∧ 256 ≤ c.toNat) → NotNumber t .unicodeEncodeError
  | value : DigitText t → (∃ c ∈ t, OtherDigit c) → (∀ c ∈ t, OtherDigit c → c.toNat < 256) → NotNumber t .valueError

/-- A word that is not `0x` and an even number of hexadecimal digits. -/
inductive NotHex (t : Text) : Err → Prop
  | mark : (∀ h, t ≠ '0' :: 'x' :: h) → NotHex t .scrInvalidPushData
  | unencodable {h} : t = '0' :: 'x' :: h → ¬ Ascii h → NotHex t .unicodeEncodeError
  | digits {h} : t = '0' :: 'x' :: h → Ascii h → (∀ b, ¬ HexBytes t b) → NotHex t .invalidHex

/-- The words are refused with this exception. -/
inductive Refused : List Text → Err → Prop
  | later {ws i rest e} : Words ws i → Refused rest e → Refused (ws ++ rest) e
  /- the word for the opcode -/
  | unknown {w rest} : (∀ op, ¬ NameOf w op) → ¬ DigitText w → Refused (w :: rest) .scrUnknownOpcodeName
  | notNumber {w rest e} : NotNumber w e → Refused (w :: rest) e
  | size {w rest n} : Numeral w n → ¬ (1 ≤ n ∧ n ≤ 75) → Refused (w :: rest) .opInvalidConstPushLength
  /- pushes of 1 to 75 bytes -/
  | noArgument {w n} : Numeral w n → 1 ≤ n ∧ n ≤ 75 → Refused [w] .scrMissingPushArguments
  | argument {w hex rest n e} : Numeral w n → 1 ≤ n ∧ n ≤ 75 → NotHex hex e → Refused (w :: hex :: rest) e
  | length {w hex rest n b} : Numeral w n → 1 ≤ n ∧ n ≤ 75 → HexBytes hex b → b.length ≠ n →
      Refused (w :: hex :: rest) .insInvalidDataLength
  /- PUSHDATA -/
  | noArguments {w op k rest} : NameOf w op → pushKind op = .counted k → rest.length < 2 →
      Refused (w :: rest) .scrMissingPushArguments
  | countedSize {w op k size hex rest} : NameOf w op → pushKind op = .counted k → ¬ DigitText size →
      Refused (w :: size :: hex :: rest) .scrInvalidPushSize
  | countedArgument {w op k size hex rest e} : NameOf w op → pushKind op = .counted k → DigitText size →
      NotHex hex e → Refused (w :: size :: hex :: rest) e
  | countedNumber {w op k size hex rest b e} : NameOf w op → pushKind op = .counted k → NotNumber size e →
      HexBytes hex b → Refused (w :: size :: hex :: rest) e
  | countedLength {w op k size hex rest n b} : NameOf w op → pushKind op = .counted k → Numeral size n →
      HexBytes hex b → b.length ≠ n → Refused (w :: size :: hex :: rest) .scrInvalidPushDataLength
  | tooLong {w op k size hex rest b} : NameOf w op → pushKind op = .counted k → Numeral size b.length →
      HexBytes hex b → 256 ^ k ≤ b.length → Refused (w :: size :: hex :: rest) .insInvalidDataLength

end Bitforge.Spec
