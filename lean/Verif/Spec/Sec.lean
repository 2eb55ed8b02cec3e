import Verif.Spec.Codec

/-! # Specification of public keys: secp256k1 points and their SEC encodings -/

namespace Bitforge.Spec

/-- `(x, y)` satisfies the secp256k1 equation modulo the field prime. -/
def OnSecp (x y : Int) : Prop := (y ^ 2 - (x ^ 3 + 7)) % (2 ^ 256 - 2 ^ 32 - 977) = 0

/-- A coordinate in `[0, p)`. -/
def reduced (v : Int) : Prop := 0 ≤ v ∧ v < 2 ^ 256 - 2 ^ 32 - 977

/-- `b` is the SEC encoding of `(x, y)`: `02`/`03` (parity of `y`) and `x`, or `04`, `x` and `y`;
coordinates are 32 bytes, big-endian. -/
def Sec (x y : Nat) (compressed : Bool) (b : Bytes) : Prop :=
  ∃ bx, bx.length = 32 ∧ beValue bx = x ∧
    if compressed then b = (if y % 2 = 0 then 0x02 else 0x03) :: bx
    else ∃ by', by'.length = 32 ∧ beValue by' = y ∧ b = 0x04 :: bx ++ by'

end Bitforge.Spec
