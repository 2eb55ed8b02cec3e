import Verif.Py
import Mathlib.Data.List.Forall2

/-! # Specifications for the codecs, independent of the model's encoders and decoders -/

namespace Bitforge.Spec

/-- Value of a little-endian byte string: `Σ bᵢ · 256^i`. -/
def leValue : Bytes → Nat
  | [] => 0
  | b :: bs => b.val + 256 * leValue bs

/-- Value of a big-endian byte string. -/
def beValue (b : Bytes) : Nat := leValue b.reverse

/-- Value in base `k` of a list of digits, most significant first. -/
def hornerValue (k : Nat) (ds : List Nat) : Nat := ds.foldl (fun v d => v * k + d) 0

/-- Number of leading zeros of a digit list. -/
def leadingZeros (ds : List Nat) : Nat := (ds.takeWhile (· == 0)).length

/-- The Bitcoin base-58 alphabet: digits and letters without `0`, `O`, `I`, `l`. -/
def alphabet58 : List Char :=
  ['1','2','3','4','5','6','7','8','9',
   'A','B','C','D','E','F','G','H','J','K','L','M','N','P','Q','R','S','T','U','V','W','X','Y','Z',
   'a','b','c','d','e','f','g','h','i','j','k','m','n','o','p','q','r','s','t','u','v','w','x','y','z']

/-- `t` spells the base-58 digits `ds`. -/
def Digits58 (t : Text) (ds : List Nat) : Prop :=
  List.Forall₂ (fun c d => alphabet58[d]? = some c) t ds

/-- `t` is the base-58 spelling of the byte string `b`: the same number, with as many leading zero
digits as `b` has leading zero bytes. -/
def Base58 (b : Bytes) (t : Text) : Prop :=
  ∃ ds, Digits58 t ds ∧ leadingZeros ds = leadingZeros (b.map Fin.val) ∧ hornerValue 58 ds = beValue b

/-- Value of a script number: little-endian magnitude, the top bit of the last byte is the sign. -/
def scriptValue (b : Bytes) : Int :=
  match b.getLast? with
  | none => 0
  | some last =>
    let magnitude : Int := leValue b.dropLast + 256 ^ (b.length - 1) * (last.val % 128)
    if last.val < 128 then magnitude else -magnitude

/-- `b` is a shortest script number with its value. -/
def Shortest (b : Bytes) : Prop := ∀ b', scriptValue b' = scriptValue b → b.length ≤ b'.length

end Bitforge.Spec
