import Verif.Proofs.Secp
import Verif.Spec.Sec

/-! # Specification of ECDSA over the secp256k1 group

`G` is the generator as an element of Mathlib's group of the curve (`Verif/Proofs/Secp.lean`). -/

namespace Bitforge.Spec

/-- `x` is the x-coordinate (in `[0, p)`) of a group element other than 0. -/
def HasX (T : SecpGroup) (x : Int) : Prop := reduced x ∧ ∃ y, IsPoint x y T

/-- The signature equation: the x-coordinate of `(z/s)·G + (r/s)·Q` is `r` modulo `n`. -/
def SigEquation (Q : SecpGroup) (z r s : Int) : Prop :=
  ∃ w x : Int, (s * w) % secpN = 1 ∧ HasX ((z * w) • G + (r * w) • Q) x ∧ x % secpN = r % secpN

/-- `(r, s)` is a valid signature of `z` by the public key `Q`. -/
def ValidSig (Q : SecpGroup) (z r s : Int) : Prop :=
  1 ≤ r ∧ r ≤ secpN - 1 ∧ 1 ≤ s ∧ s ≤ secpN - 1 ∧ SigEquation Q z r s

end Bitforge.Spec
