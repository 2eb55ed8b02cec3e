import Verif.NumberTheory

/-! # `bitforge/utils/numbertheory.py` for moduli of either sign -/

namespace Bitforge

/-- The `while c != 0` loop of `inverse_mod`, numbertheory.py:12-14, on any integers; `divmod` rounds down.
`none` means the fuel ran out (it never does: `c` comes closer to 0). -/
def inverseLoopZ : Nat → Int → Int → Int → Int → Int → Int → Option (Int × Int)
  | 0, _, _, _, _, _, _ => none
  | fuel + 1, c, d, uc, vc, ud, vd =>
    if c = 0 then some (d, ud)
    else inverseLoopZ fuel (d.fmod c) c (ud - d.fdiv c * uc) (vd - d.fdiv c * vc) uc vc

/-- `inverse_mod`, numbertheory.py:3-21. -/
def inverseModZ (a m : Int) : Except Err Int :=
  match (if a < 0 ∨ m ≤ a then (if m = 0 then .error .zeroDivisionError else .ok (a.fmod m)) else .ok a : Except Err Int) with
  | .error e => .error e
  | .ok a =>
    match inverseLoopZ (a.natAbs + 1) a m 1 0 0 1 with
    | none => .error .diverges
    | some (d, ud) => if d = 1 then .ok (if ud > 0 then ud else ud + m) else .error .assertionError

/-- The built-in `pow` with three integers: the exponent is looked at first; the result has the sign of the modulus. -/
def pow3 (b e m : Int) : Except Err Int :=
  if e < 0 then .error .typeError
  else if m = 0 then .error .valueError
  else
    let r : Int := powMod b e.toNat m.natAbs
    .ok (if m < 0 ∧ r ≠ 0 then r + m else r)

/-- `legendre_symbol`, numbertheory.py:106-116. -/
def legendreSymbolZ (a p : Int) : Except Err Int :=
  match pow3 a ((p - 1).fdiv 2) p with
  | .error e => .error e
  | .ok ls => .ok (if ls = p - 1 then -1 else ls)

/-- `modular_sqrt`, numbertheory.py:25-104.  The first thing it does is to ask for the symbol, line 43, which fails unless
`p` is positive; what follows is `modularSqrt`. -/
def modularSqrtZ (a p : Int) : Except Err Int :=
  match legendreSymbolZ a p with
  | .error e => .error e
  | .ok _ =>
    match modularSqrt a p.toNat with
    | .error e => .error e
    | .ok x => .ok x

end Bitforge
