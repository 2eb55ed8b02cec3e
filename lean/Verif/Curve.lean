import Verif.NumberTheory

/-! # `bitforge/utils/ellipticcurve.py`, `bitforge/utils/secp256k1.py` -/

namespace Bitforge

/-- `CurveFp`, ellipticcurve.py:40-55: `y² = x³ + a·x + b (mod p)`. -/
structure CurveFp where
  p : Nat
  a : Int
  b : Int

/-- `Point`, ellipticcurve.py:68-80.  `infinity` is the module constant INFINITY.  All points in a
computation are on one curve object, so the curve is a parameter of the operations instead of a field, and
`assert self.__curve == other.__curve` (line 98) cannot fail. -/
inductive Point
  | infinity
  | affine (x y : Int) (order : Option Nat)
  deriving DecidableEq, Repr

namespace CurveFp

/-- `contains_point`, ellipticcurve.py:57-59. -/
def containsPoint (c : CurveFp) (x y : Int) : Bool :=
  (y * y - (x * x * x + c.a * x + c.b)) % (c.p : Int) == 0

end CurveFp

namespace Point

/-- `Point.__init__`, ellipticcurve.py:71-80, for a real curve.  The assertion on line 80,
`self * order == INFINITY`, always holds because `__mul__` first reduces `order` modulo itself to 0. -/
def make (c : CurveFp) (x y : Int) (order : Option Nat := none) : Except Err Point :=
  if c.containsPoint x y then .ok (.affine x y order) else .error .noSuchPointError

/-- `double`, ellipticcurve.py:158-175. -/
def double (c : CurveFp) : Point → Except Err Point
  | .infinity => .ok .infinity
  | .affine x y _ =>
    match inverseMod (2 * y) c.p with
    | .error e => .error e
    | .ok inv =>
      let l := ((3 * x * x + c.a) * inv) % c.p
      let x3 := (l * l - 2 * x) % c.p
      let y3 := (l * (x - x3) - y) % c.p
      make c x3 y3

/-- `__add__`, ellipticcurve.py:91-113. -/
def add (c : CurveFp) (self other : Point) : Except Err Point :=
  match self, other with
  | self, .infinity => .ok self
  | .infinity, other => .ok other
  | .affine x1 y1 o1, .affine x2 y2 _ =>
    if x1 = x2 then
      if (y1 + y2) % (c.p : Int) = 0 then .ok .infinity
      else double c (.affine x1 y1 o1)
    else
      match inverseMod (x2 - x1) c.p with
      | .error e => .error e
      | .ok inv =>
        let l := ((y2 - y1) * inv) % c.p
        let x3 := (l * l - x1 - x2) % c.p
        let y3 := (l * (x1 - x3) - y1) % c.p
        make c x3 y3

/-- The loop of `leftmost_bit`, ellipticcurve.py:120-121. -/
def leftmostLoop : Nat → Nat → Nat → Nat
  | 0, result, _ => result
  | fuel + 1, result, x => if result ≤ x then leftmostLoop fuel (2 * result) x else result

/-- `leftmost_bit`, ellipticcurve.py:118-122, for `x > 0`. -/
def leftmostBit (x : Nat) : Nat := leftmostLoop x 1 x / 2

/-- The double-and-add loop, ellipticcurve.py:137-142. -/
def mulLoop (c : CurveFp) (self negSelf : Point) (e e3 : Nat) : Nat → Nat → Point → Except Err Point
  | 0, _, result => .ok result
  | fuel + 1, i, result =>
    if i > 1 then do
      let result ← double c result
      let result ← if e3 &&& i ≠ 0 ∧ e &&& i = 0 then add c result self else .ok result
      let result ← if e3 &&& i = 0 ∧ e &&& i ≠ 0 then add c result negSelf else .ok result
      mulLoop c self negSelf e e3 fuel (i / 2) result
    else .ok result

/-- `__mul__` (and `__rmul__`), ellipticcurve.py:115-149.  `if self.__order` treats an order of 0 as absent. -/
def mul (c : CurveFp) (self : Point) (other : Int) : Except Err Point :=
  let order := match self with
    | .infinity => none
    | .affine _ _ o => o
  let e : Int := match order with
    | some (n + 1) => other % ((n + 1 : Nat) : Int)
    | _ => other
  if e = 0 then .ok .infinity
  else match self with
    | .infinity => .ok .infinity
    | .affine x y o =>
      if e > 0 then
        let e := e.toNat
        let e3 := 3 * e
        match make c x (-y) o with
        | .error err => .error err
        | .ok negSelf =>
          let i := leftmostBit e3 / 2
          mulLoop c self negSelf e e3 i i self
      else .error .assertionError

/-- `pair`, ellipticcurve.py:183-184; `none` is `(None, None)`. -/
def pair : Point → Option (Int × Int)
  | .infinity => none
  | .affine x y _ => some (x, y)

/-- `order`, ellipticcurve.py:189-190. -/
def order : Point → Option Nat
  | .infinity => none
  | .affine _ _ o => o

end Point

/-! ## secp256k1.py:4-11 -/

/-- `_p`, secp256k1.py:6. -/
def secpP : Nat := 0xfffffffffffffffffffffffffffffffffffffffffffffffffffffffefffffc2f
/-- `_r`, secp256k1.py:9, the declared order of the generator. -/
def secpN : Nat := 0xfffffffffffffffffffffffffffffffebaaedce6af48a03bbfd25e8cd0364141
/-- `_Gx`, secp256k1.py:7. -/
def secpGx : Int := 0x79be667ef9dcbbac55a06295ce870b07029bfcdb2dce28d959f2815b16f81798
/-- `_Gy`, secp256k1.py:8. -/
def secpGy : Int := 0x483ada7726a3c4655da4fbfc0e1108a8fd17b448a68554199c47d08ffb10d4b8

/-- `CurveFp(_p, _a, _b)`, secp256k1.py:11. -/
def secp : CurveFp := ⟨secpP, 0, 7⟩

/-- `generator_secp256k1`, secp256k1.py:11. -/
def secpG : Point := .affine secpGx secpGy (some secpN)

end Bitforge
