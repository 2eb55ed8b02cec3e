import Verif.Float64

/-! # `bitforge/unit.py` -/

namespace Bitforge

/-- `Unit`, unit.py:4-31: the attributes of an instance. -/
structure BtcUnit where
  satoshis : Int
  bits : Float64
  mbtc : Float64
  btc : Float64
  deriving DecidableEq, Repr

namespace BtcUnit

/-- `Unit.btc`, `Unit.mbtc`, `Unit.bits`, unit.py:6-8.  All three are exact in binary64. -/
def btcScale : Float64 := .fin 100000000
def mbtcScale : Float64 := .fin 100000
def bitsScale : Float64 := .fin 100

/-- `self.satoshis / scale`, unit.py:29-31: an `int` divided by a `float`. -/
def scaled (satoshis : Int) (scale : Float64) : Except Err Float64 := do
  let s ← Float64.ofInt satoshis
  s.div scale

/-- `_set_values`, unit.py:27-31. -/
def setValues (value : Num) : Except Err BtcUnit := do
  let satoshis ← value.toInt
  let bits ← scaled satoshis bitsScale
  let mbtc ← scaled satoshis mbtcScale
  let btc ← scaled satoshis btcScale
  return ⟨satoshis, bits, mbtc, btc⟩

/-- `value * Unit.scale`, unit.py:19-23: a number times a `float`. -/
def times (value : Num) (scale : Float64) : Except Err Num := do
  let v ← value.toFloat
  return .float (v.mul scale)

/-- `Unit.__init__`, unit.py:15-25. -/
def new (satoshis bits mbtc btc : Option Num) : Except Err BtcUnit :=
  match satoshis, bits, mbtc, btc with
  | some v, _, _, _ => setValues v
  | none, some v, _, _ => do setValues (← times v bitsScale)
  | none, none, some v, _ => do setValues (← times v mbtcScale)
  | none, none, none, some v => do setValues (← times v btcScale)
  | none, none, none, none => .error .valueError

/-- `Unit(satoshis = v)`. -/
def ofSatoshis (v : Num) : Except Err BtcUnit := new (some v) none none none
/-- `Unit(btc = v)`. -/
def ofBtc (v : Num) : Except Err BtcUnit := new none none none (some v)
/-- `Unit(mbtc = v)`. -/
def ofMbtc (v : Num) : Except Err BtcUnit := new none none (some v) none
/-- `Unit(bits = v)`. -/
def ofBits (v : Num) : Except Err BtcUnit := new none (some v) none none

/-- `from_fiat`, unit.py:11-13. -/
def fromFiat (value rate : Num) : Except Err BtcUnit := do
  let r ← rate.toFloat
  let v ← value.toFloat
  let q ← v.div r
  ofBtc (.float q)

/-- `at_rate`, unit.py:33-34. -/
def atRate (u : BtcUnit) (rate : Num) : Except Err Float64 := do
  let r ← rate.toFloat
  return u.btc.mul r

end BtcUnit
end Bitforge
