import Verif.CurveObj

/-! # `repr` of curves and points, and the message of NoSuchPointError

`repr` of a number ends in `L` if it is a Python 2 `long`.  Whether a number that fits a machine word is one depends on how it
was computed, so that is a parameter. -/

namespace Bitforge

/-- Which of the numbers of a curve and a point are `long`.  Those that do not fit 64 bits always are; nothing that is proved
depends on that. -/
structure Longs where
  p : Bool
  a : Bool
  b : Bool
  x : Bool
  y : Bool
  order : Bool

/-- `repr` of an `int` or `long`. -/
def reprInt (long : Bool) (n : Int) : Text := if long then showInt n ++ ['L'] else showInt n

/-- `repr` of a number or `None`. -/
def reprOption (long : Bool) : Option Int → Text
  | none => "None".toList
  | some n => reprInt long n

/-- `CurveFp.__repr__`, ellipticcurve.py:61-62. -/
def CurveObj.repr (l : Longs) (c : CurveObj) : Text := "CurveFp(".toList ++ reprInt l.p c.curve.p ++ ',' :: reprInt l.a c.curve.a ++
  ',' :: reprInt l.b c.curve.b ++ [')']

/-- `Point.__repr__`, ellipticcurve.py:151-152. -/
def PointObj.repr (l : Longs) (P : PointObj) : Text :=
  "Point(".toList ++ (match P.curve with | none => "None".toList | some c => c.repr l) ++ ',' :: reprOption l.x P.x ++
    ',' :: reprOption l.y P.y ++ ',' :: reprOption l.order P.order ++ [')']

/-- The message of NoSuchPointError, ellipticcurve.py:79.  `format` shows numbers and the curve as `str` does. -/
def PointObj.noSuchPoint (c : CurveObj) (x y : Int) : Text :=
  '(' :: showInt x ++ ',' :: showInt y ++ ") is not on the curve ".toList ++ c.str

end Bitforge
