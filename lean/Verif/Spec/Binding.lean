import Verif.Py

/-! # Collisions of the hash functions that make identifiers -/

namespace Bitforge.Spec

/-- Two different byte strings with the same RIPEMD-160 of SHA-256. -/
def Collide160 (H : Hashes) (a b : Bytes) : Prop := a ≠ b ∧ H.ripemd160 (H.sha256 a) = H.ripemd160 (H.sha256 b)

/-- Two different byte strings with the same double SHA-256. -/
def Collide256 (H : Hashes) (a b : Bytes) : Prop := a ≠ b ∧ H.sha256 (H.sha256 a) = H.sha256 (H.sha256 b)

end Bitforge.Spec
