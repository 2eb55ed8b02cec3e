import Verif.Py

/-! # `bitforge/signature.py` -/

namespace Bitforge

/-- `map(ord, sig)`, signature.py:12.  Iterating over a `bytearray` gives integers, which `ord` rejects. -/
def mapOrd (sig : Data) : Except Err (List Nat) :=
  match sig.kind, sig.val with
  | .bytearray, _ :: _ => .error .typeError
  | _, val => .ok (val.map Fin.val)

/-- `sig[i]` of a list of integers, for `i ≥ 0`. -/
def listItem (l : List Nat) (i : Nat) : Except Err Nat :=
  match l[i]? with
  | some b => .ok b
  | none => .error .indexError

/-- `b & 0x80` as a truth value, for `0 ≤ b < 256`. -/
def bit7 (b : Nat) : Bool := 128 ≤ b

/-- `length > 1 and sig[i] == 0 and not (sig[i + 1] & 0x80)`, signature.py:47 and 61, with the
short-circuit evaluation of `and`. -/
def padded (sig : List Nat) (length i : Nat) : Except Err Bool :=
  if 1 < length then do
    if (← listItem sig i) = 0 then return !bit7 (← listItem sig (i + 1)) else return false
  else .ok false

/-- `validate_signature`, signature.py:10-63. -/
def validateSignature (sig : Data) : Except Err Bool := do
  let sig ← mapOrd sig
  if sig.length < 9 then return false
  if sig.length > 73 then return false
  if (← listItem sig 0) ≠ 0x30 then return false
  if (← listItem sig 1) ≠ sig.length - 3 then return false
  let lenR ← listItem sig 3
  if 5 + lenR ≥ sig.length then return false
  let lenS ← listItem sig (5 + lenR)
  if lenR + lenS + 7 ≠ sig.length then return false
  if (← listItem sig 2) ≠ 0x02 then return false
  if lenR = 0 then return false
  if bit7 (← listItem sig 4) then return false
  if (← padded sig lenR 4) then return false
  if (← listItem sig (lenR + 4)) ≠ 0x02 then return false
  if lenS = 0 then return false
  if bit7 (← listItem sig (lenR + 6)) then return false
  if (← padded sig lenS (lenR + 6)) then return false
  return true

end Bitforge
