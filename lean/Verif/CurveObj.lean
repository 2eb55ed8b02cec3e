import Verif.Curve
import Verif.Repr

/-! # `bitforge/utils/ellipticcurve.py` with the curve of each point

`Curve.lean` models points on one curve.  Here a point carries its curve, so that points of several curves, points
without a curve and the comparison of points can be described. -/

namespace Bitforge

deriving instance DecidableEq for CurveFp

/-- A `CurveFp`, ellipticcurve.py:40-65, with its address in memory.  The class has no `__eq__`: two curves are equal
if they are the same object. -/
structure CurveObj where
  id : Nat
  curve : CurveFp
  deriving DecidableEq

namespace CurveObj

/-- `==` of two curves, or of a curve and `None`. -/
def same : Option CurveObj → Option CurveObj → Bool
  | none, none => true
  | some c, some d => c.id == d.id
  | _, _ => false

/-- `CurveFp.__str__`, ellipticcurve.py:64-65. -/
def str (c : CurveObj) : Text := "y^2 = x^3 + ".toList ++ showInt c.curve.a ++ "*x + ".toList ++ showInt c.curve.b ++
  " (mod ".toList ++ showInt c.curve.p ++ ")".toList

end CurveObj

/-- The state of a `Point`, ellipticcurve.py:71-76; `none` is `None`. -/
structure PointObj where
  curve : Option CurveObj
  x : Option Int
  y : Option Int
  order : Option Int
  deriving DecidableEq

namespace PointObj

/-- `INFINITY`, ellipticcurve.py:194. -/
def infinity : PointObj := ⟨none, none, none, none⟩

/-- `__eq__`, ellipticcurve.py:82-89: the order is not compared. -/
def eq (self other : PointObj) : Bool := CurveObj.same self.curve other.curve && self.x == other.x && self.y == other.y

/-- `!=`: there is no `__ne__`, and Python 2 does not derive it from `__eq__`; the default compares addresses. -/
def ne (id id' : Nat) : Bool := id != id'

/-- `hash`: there is no `__hash__`; the default depends on the address alone, `h` says how. -/
def hash (h : Nat → Int) (id : Nat) : Int := h id

/-- `Point(curve, x, y)`, ellipticcurve.py:71-80, without an order.  A `None` coordinate is a TypeError in
`contains_point`. -/
def bare (curve : Option CurveObj) (x y : Option Int) (order : Option Int := none) : Except Err PointObj :=
  match curve with
  | none => .ok ⟨none, x, y, order⟩
  | some c => match x, y with
    | some x', some y' =>
      if c.curve.containsPoint x' y' then .ok ⟨some c, x, y, order⟩ else .error .noSuchPointError
    | _, _ => .error .typeError

/-- `double`, ellipticcurve.py:158-175. -/
def double (self : PointObj) : Except Err PointObj :=
  if self.eq infinity then .ok infinity
  else match self.curve with
    | none => .error .attributeError
    | some c => match self.x, self.y with
      | some x, some y =>
        match inverseMod (2 * y) c.curve.p with
        | .error e => .error e
        | .ok inv =>
          let l := ((3 * x * x + c.curve.a) * inv) % c.curve.p
          let x3 := (l * l - 2 * x) % c.curve.p
          let y3 := (l * (x - x3) - y) % c.curve.p
          bare (some c) (some x3) (some y3)
      | _, _ => .error .typeError

/-- `__add__`, ellipticcurve.py:91-113. -/
def add (self other : PointObj) : Except Err PointObj :=
  if other.eq infinity then .ok self
  else if self.eq infinity then .ok other
  else if !CurveObj.same self.curve other.curve then .error .assertionError
  else if self.x = other.x then
    match self.y, other.y with
    | some y1, some y2 => match self.curve with
      | none => .error .attributeError
      | some c => if (y1 + y2) % (c.curve.p : Int) = 0 then .ok infinity else self.double
    | _, _ => .error .typeError
  else match self.curve with
    | none => .error .attributeError
    | some c => match self.x, self.y, other.x, other.y with
      | some x1, some y1, some x2, some y2 =>
        match inverseMod (x2 - x1) c.curve.p with
        | .error e => .error e
        | .ok inv =>
          let l := ((y2 - y1) * inv) % c.curve.p
          let x3 := (l * l - x1 - x2) % c.curve.p
          let y3 := (l * (x1 - x3) - y1) % c.curve.p
          bare (some c) (some x3) (some y3)
      | _, _, _, _ => .error .typeError

/-- The double-and-add loop, ellipticcurve.py:137-142. -/
def mulLoop (self negSelf : PointObj) (e e3 : Nat) : Nat → Nat → PointObj → Except Err PointObj
  | 0, _, result => .ok result
  | fuel + 1, i, result =>
    if i > 1 then do
      let result ← double result
      let result ← if e3 &&& i ≠ 0 ∧ e &&& i = 0 then add result self else .ok result
      let result ← if e3 &&& i = 0 ∧ e &&& i ≠ 0 then add result negSelf else .ok result
      mulLoop self negSelf e e3 fuel (i / 2) result
    else .ok result

/-- The multiplier reduced by the order, ellipticcurve.py:124-125; an order of 0 counts as none, and `%` rounds towards
minus infinity. -/
def exponent (order : Option Int) (other : Int) : Int := match order with
  | none => other
  | some n => if n = 0 then other else other.fmod n

/-- `__mul__` (and `__rmul__`), ellipticcurve.py:115-149; `init` is the constructor called on line 134. -/
def mulWith (init : Option CurveObj → Option Int → Option Int → Option Int → Except Err PointObj) (self : PointObj)
    (other : Int) : Except Err PointObj :=
  let e := exponent self.order other
  if e = 0 then .ok infinity
  else if self.eq infinity then .ok infinity
  else if e > 0 then
    match self.y with
    | none => .error .typeError
    | some y => match init self.curve self.x (some (-y)) self.order with
      | .error err => .error err
      | .ok negSelf =>
        let i := Point.leftmostBit (3 * e.toNat) / 2
        mulLoop self negSelf e.toNat (3 * e.toNat) i i self
  else .error .assertionError

/-- `Point.__init__`, ellipticcurve.py:71-80: after the check of the coordinates, `assert self * order == INFINITY` if
there is an order.  The multiplication would call `__init__` again, but never gets there (`C91_order_check`); here it
would fail. -/
def init (curve : Option CurveObj) (x y order : Option Int) : Except Err PointObj :=
  match bare curve x y order with
  | .error e => .error e
  | .ok self => match order with
    | none => .ok self
    | some n => if n = 0 then .ok self else
      match mulWith (fun _ _ _ _ => .error .runtimeError) self n with
      | .error e => .error e
      | .ok product => if product.eq infinity then .ok self else .error .assertionError

/-- `__mul__`. -/
def mul (self : PointObj) (other : Int) : Except Err PointObj := mulWith init self other

/-- `__str__`, ellipticcurve.py:154-156. -/
def str (self : PointObj) : Except Err Text :=
  if self.eq infinity then .ok "infinity".toList
  else match self.x, self.y with
    | some x, some y => .ok ('(' :: showInt x ++ ',' :: showInt y ++ [')'])
    | _, _ => .error .typeError

end PointObj

end Bitforge
