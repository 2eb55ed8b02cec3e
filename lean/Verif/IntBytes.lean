import Verif.Ecdsa

/-! # `bitforge/utils/intbytes.py`, all of it (the big-endian unsigned functions are in `Verif/Ecdsa.lean`) -/

namespace Bitforge
namespace IntBytes

/-- `bytes_to_ints`, intbytes.py:30: `ord` of the elements of a `bytearray`, integers, is a TypeError. -/
def bytesToInts (b : Data) : Except Err (List Nat) :=
  match b.kind with
  | .str => .ok (b.val.map (·.val))
  | .bytearray => if b.val = [] then .ok [] else .error .typeError

/-- `bytes_from_int`, intbytes.py:31: `chr`. -/
def bytesFromInt (n : Int) : Except Err Bytes :=
  if 0 ≤ n ∧ n < 256 then .ok [byte n.toNat] else .error .valueError

/-- `bytes_from_ints`, intbytes.py:33. -/
def bytesFromInts : List Int → Except Err Bytes
  | [] => .ok []
  | n :: l =>
    match bytesFromInt n with
    | .error e => .error e
    | .ok b =>
      match bytesFromInts l with
      | .error e => .error e
      | .ok bs => .ok (b ++ bs)

/-- `to_bytes`, intbytes.py:43-51; `big` is `byteorder == "big"`. -/
def toBytes (v : Int) (length : Nat) (big : Bool := true) : Bytes :=
  if big then (intToBytesLoop length v).reverse else intToBytesLoop length v

/-- `from_bytes`, intbytes.py:53-62.  `bytes[0]` of an empty string is an IndexError, that of a `reversed` object a
TypeError, as is `&` of a `str` and a number. -/
def fromBytes (b : Data) (big : Bool := true) (signed : Bool := false) : Except Err Nat :=
  match bytesToInts ⟨b.kind, if big then b.val else b.val.reverse⟩ with
  | .error e => .error e
  | .ok l =>
    let v := l.foldl (fun v c => v <<< 8 + c) 0
    if signed then
      if big = true ∧ b.val = [] then .error .indexError else .error .typeError
    else .ok v

/-- The loop of `int_to_bytes`, intbytes.py:65-68, for a positive `v`; `v` rounds are enough. -/
def intToBytesMinLoop : Nat → Nat → Bytes
  | 0, _ => []
  | fuel + 1, v => if v = 0 then [] else byte (v &&& 0xff) :: intToBytesMinLoop fuel (v >>> 8)

/-- `int_to_bytes`, intbytes.py:64-70. -/
def intToBytesMin (v : Int) : Bytes := (intToBytesMinLoop v.toNat v.toNat).reverse

/-- `int_from_bytes`, intbytes.py:72-77. -/
def intFromBytesData (b : Data) : Except Err Nat :=
  match bytesToInts b with
  | .error e => .error e
  | .ok l => .ok (l.foldl (fun v c => v <<< 8 + c) 0)

end IntBytes
end Bitforge
