import Verif.Curve
import Mathlib.AlgebraicGeometry.EllipticCurve.Affine.Point
import Mathlib.Data.ZMod.Basic
import Mathlib.FieldTheory.Finite.Basic

/-! # Specification of the curve layer: Mathlib's elliptic curve group over `ZMod p` -/

namespace Bitforge.Spec

/-- The Weierstrass curve `y² = x³ + a·x + b` over `ZMod p`. -/
def curve (c : CurveFp) : WeierstrassCurve.Affine (ZMod c.p) :=
  { a₁ := 0, a₂ := 0, a₃ := 0, a₄ := (c.a : ZMod c.p), a₆ := (c.b : ZMod c.p) }

/-- A curve over a prime field of odd characteristic without singular points. -/
structure Regular (c : CurveFp) : Prop where
  odd : c.p ≠ 2
  disc : (4 * c.a ^ 3 + 27 * c.b ^ 2) % (c.p : Int) ≠ 0

/-- A Python point denotes a group element: INFINITY denotes 0; `(x, y)` with `0 ≤ x < p` denotes the point
with these coordinates modulo `p` (`y` need not be reduced, whatever the declared order). -/
inductive Denotes (c : CurveFp) [Fact c.p.Prime] : Point → (curve c).Point → Prop
  | infinity : Denotes c .infinity 0
  | affine (x y : Int) (o : Option Nat) (hx : 0 ≤ x) (hx' : x < c.p)
      (h : (curve c).Nonsingular (x : ZMod c.p) (y : ZMod c.p)) :
      Denotes c (.affine x y o) (.some _ _ h)

/-- The secp256k1 group element with given integer coordinates. -/
def IsPoint (x y : Int) (P : (curve secp).Point) : Prop :=
  ∃ h : (curve secp).Nonsingular (x : ZMod secp.p) (y : ZMod secp.p), P = .some _ _ h

end Bitforge.Spec
