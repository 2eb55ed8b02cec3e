import Verif.Spec.Codec

/-! # Specification of strict DER signatures (BIP 66) -/

namespace Bitforge.Spec

/-- `b` is read as the integer `n` by ASN.1 DER, which uses big-endian two's complement (X.690, 8.3). -/
def TwosComplement (b : Bytes) (n : Int) : Prop :=
  b ≠ [] ∧ n = if 2 * beValue b < 256 ^ b.length then (beValue b : Int)
    else (beValue b : Int) - 256 ^ b.length

/-- `b` is the shortest encoding of a non-negative integer. -/
def DerNat (b : Bytes) : Prop :=
  ∃ n : Int, 0 ≤ n ∧ TwosComplement b n ∧ ∀ b', TwosComplement b' n → b.length ≤ b'.length

/-- A tag, a one-byte length, and contents of that length. -/
def Tlv (tag : Byte) (content b : Bytes) : Prop :=
  ∃ l : Byte, l.val = content.length ∧ b = tag :: l :: content

/-- A DER sequence (tag 0x30) of two non-negative integers (tag 0x02) and a byte for the type of the
hash, at most 73 bytes in all. -/
def StrictDer (sig : Bytes) : Prop :=
  ∃ r s rb sb seq : Bytes, ∃ hashType : Byte, DerNat r ∧ DerNat s ∧ Tlv 0x02 r rb ∧ Tlv 0x02 s sb ∧
    Tlv 0x30 (rb ++ sb) seq ∧ sig = seq ++ [hashType] ∧ 9 ≤ sig.length ∧ sig.length ≤ 73

/-- `b` is the DER form of the integer `n ≥ 0`. -/
def DerOf (n : Int) (b : Bytes) : Prop :=
  0 ≤ n ∧ TwosComplement b n ∧ ∀ b', TwosComplement b' n → b.length ≤ b'.length

/-- `sig` is the DER text of the signature `(r, s)`. -/
def SigText (sig : Bytes) (r s : Int) : Prop :=
  ∃ rc sc rb sb : Bytes, DerOf r rc ∧ DerOf s sc ∧ Tlv 0x02 rc rb ∧ Tlv 0x02 sc sb ∧ Tlv 0x30 (rb ++ sb) sig

end Bitforge.Spec
