import Verif.Py

/-! # `bitforge/utils/numbertheory.py` -/

namespace Bitforge

/-- The `while c != 0` loop of `inverse_mod`, numbertheory.py:12-14; returns `(d, ud)`.
`none` means the fuel ran out (it never does: `c` decreases). -/
def inverseModLoop : Nat → Nat → Nat → Int → Int → Int → Int → Option (Nat × Int)
  | 0, _, _, _, _, _, _ => none
  | fuel + 1, c, d, uc, vc, ud, vd =>
    if c = 0 then some (d, ud)
    else
      let q : Int := ((d / c : Nat) : Int)
      inverseModLoop fuel (d % c) c (ud - q * uc) (vd - q * vc) uc vc

/-- `inverse_mod`, numbertheory.py:3-21, for a modulus `m ≥ 0` (all callers pass a positive modulus).
The guarded reduction on line 6 equals an unconditional `a % m`. -/
def inverseMod (a : Int) (m : Nat) : Except Err Int :=
  if m = 0 then .error .zeroDivisionError
  else
    let c := (a % (m : Int)).toNat
    match inverseModLoop (c + 1) c m 1 0 0 1 with
    | none => .error .diverges
    | some (d, ud) =>
      if d = 1 then .ok (if ud > 0 then ud else ud + m)
      else .error .assertionError

/-- Binary exponentiation, the built-in three-argument `pow` on non-negative arguments. -/
def powModAux : Nat → Nat → Nat → Nat → Nat
  | 0, _, _, m => 1 % m
  | fuel + 1, b, e, m =>
    if e = 0 then 1 % m
    else
      let h := powModAux fuel (b * b % m) (e / 2) m
      if e % 2 = 1 then h * b % m else h

/-- The built-in `pow(b, e, m)` for an integer base, `e ≥ 0`, `m > 0`: the result is in `[0, m)`. -/
def powMod (b : Int) (e m : Nat) : Nat := powModAux e (b % (m : Int)).toNat e m

/-- `legendre_symbol`, numbertheory.py:106-116, for `p ≥ 1`. -/
def legendreSymbol (a : Int) (p : Nat) : Int :=
  let ls := powMod a ((p - 1) / 2) p
  if ls = p - 1 then -1 else ls

/-- `while s % 2 == 0`, numbertheory.py:56-60, returning `(s, e)`. -/
def splitTwos : Nat → Nat → Nat → Nat × Nat
  | 0, s, e => (s, e)
  | fuel + 1, s, e => if s % 2 = 0 then splitTwos fuel (s / 2) (e + 1) else (s, e)

/-- `while legendre_symbol(n, p) != -1`, numbertheory.py:65-67. -/
def findNonResidue (p : Nat) : Nat → Nat → Option Nat
  | 0, _ => none
  | fuel + 1, n => if legendreSymbol n p = -1 then some n else findNonResidue p fuel (n + 1)

/-- `for m in range(r)`, numbertheory.py:91-95: `rem` iterations remain, the next index is `i`, the last
index used is `m`. -/
def tonelliFor (p : Nat) : Nat → Nat → Nat → Nat → Nat
  | 0, _, m, _ => m
  | rem + 1, i, _, t => if t = 1 then i else tonelliFor p rem (i + 1) i (powMod t 2 p)

/-- `while True`, numbertheory.py:89-104. -/
def tonelliLoop (p : Nat) : Nat → Nat → Nat → Nat → Nat → Option Nat
  | 0, _, _, _, _ => none
  | fuel + 1, x, b, g, r =>
    let m := tonelliFor p r 0 0 b
    if m = 0 then some x
    else
      let gs := powMod g (2 ^ (r - m - 1)) p
      let g := gs * gs % p
      tonelliLoop p fuel (x * gs % p) (b * g % p) g m

/-- `modular_sqrt`, numbertheory.py:25-104, for `p ≥ 1`.  Loops that would not end give `diverges`: the
search for a non-residue is cut off after `p` candidates, by when it has repeated. -/
def modularSqrt (a : Int) (p : Nat) : Except Err Nat :=
  if legendreSymbol a p ≠ 1 then .ok 0
  else if a = 0 then .ok 0
  else if p = 2 then .ok p
  else if p % 4 = 3 then .ok (powMod a ((p + 1) / 4) p)
  else
    let (s, e) := splitTwos p (p - 1) 0
    match findNonResidue p p 2 with
    | none => .error .diverges
    | some n =>
      let x := powMod a ((s + 1) / 2) p
      let b := powMod a s p
      let g := powMod n s p
      match tonelliLoop p (e + 1) x b g e with
      | none => .error .diverges
      | some x => .ok x

end Bitforge
