import Verif.Curve
import Verif.Encoding

/-! # `bitforge/utils/ecdsa.py`, `bitforge/utils/intbytes.py` -/

namespace Bitforge

/-- `bit_length`, ecdsa.py:38-39, for a non-negative integer. -/
def bitLength (n : Nat) : Nat := if n = 0 then 0 else Nat.log2 n + 1

/-- The loop of `intbytes.to_bytes`, intbytes.py:44-48 (Python 2 version): least significant byte first.
`& 0xff` and `>>= 8` on a negative integer are the floored remainder and quotient. -/
def intToBytesLoop : Nat → Int → Bytes
  | 0, _ => []
  | length + 1, v => byte (v % 256).toNat :: intToBytesLoop length (v / 256)

/-- `intbytes.to_bytes`, intbytes.py:43-51, big-endian. -/
def intToBytes (v : Int) (length : Nat) : Bytes := (intToBytesLoop length v).reverse

/-- `intbytes.from_bytes`, intbytes.py:53-62, big-endian, unsigned. -/
def intFromBytes (b : Bytes) : Nat := b.foldl (fun v c => v * 256 + c.val) 0

namespace Ecdsa

/-- `while len(t) < order_size`, ecdsa.py:73-75; returns `(v, t)`.  Each round adds 32 bytes, so
`order_size` rounds are enough. -/
def kFill (H : Hashes) (orderSize : Nat) (k : Bytes) : Nat → Bytes → Bytes → Bytes × Bytes
  | 0, v, t => (v, t)
  | fuel + 1, v, t =>
    if t.length < orderSize then
      let v := H.hmacSha256 k v
      kFill H orderSize k fuel v (t ++ v)
    else (v, t)

/-- `while 1`, ecdsa.py:70-84.  Whether it ends depends on the hash function, so it takes fuel;
`diverges` when the fuel runs out. -/
def kLoop (H : Hashes) (n orderSize : Nat) : Nat → Bytes → Bytes → Except Err Nat
  | 0, _, _ => .error .diverges
  | fuel + 1, k, v =>
    let (v, t) := kFill H orderSize k orderSize v []
    let k1 := intFromBytes t
    let k1 := k1 >>> (t.length * 8 - bitLength n)
    if k1 ≥ 1 ∧ k1 < n then .ok k1
    else
      let k := H.hmacSha256 k (v ++ [0])
      let v := H.hmacSha256 k v
      kLoop H n orderSize fuel k v

/-- `deterministic_generate_k`, ecdsa.py:49-84, with the default `hash_f` (SHA-256, 32-byte digests). -/
def generateK (H : Hashes) (fuel n : Nat) (secretExponent val : Int) : Except Err Nat :=
  let orderSize := (bitLength n + 7) / 8
  let v : Bytes := List.replicate 32 1
  let k : Bytes := List.replicate 32 0
  let priv := intToBytes secretExponent orderSize
  let shift : Int := 8 * 32 - (bitLength n : Int)
  let val := if shift > 0 then val >>> shift.toNat else val
  let val := if val > n then val - n else val
  let h1 := intToBytes val orderSize
  let k := H.hmacSha256 k (v ++ [0] ++ priv ++ h1)
  let v := H.hmacSha256 k v
  let k := H.hmacSha256 k (v ++ [1] ++ priv ++ h1)
  let v := H.hmacSha256 k v
  kLoop H n orderSize fuel k v

/-- ecdsa.py:104-110: `sign` once the nonce `k` is chosen. -/
def signWith (c : CurveFp) (g : Point) (n : Nat) (secretExponent val : Int) (k : Nat) :
    Except Err (Int × Int) := do
  let p1 ← Point.mul c g k
  match p1.pair with
  | none => do                          -- `None == 0` is False; `secret_exponent * None` fails on line 108
    let _ ← inverseMod k n
    .error .typeError
  | some (r, _) =>
    if r = 0 then .error .runtimeError
    else
      let inv ← inverseMod k n
      let s := (inv * (val + (secretExponent * r) % (n : Int))) % (n : Int)
      if s = 0 then .error .runtimeError else .ok (r, s)

/-- `sign`, ecdsa.py:87-110.  A generator without order fails in `bit_length(None)`. -/
def sign (H : Hashes) (fuel : Nat) (c : CurveFp) (g : Point) (secretExponent val : Int) :
    Except Err (Int × Int) :=
  match g.order with
  | none => .error .attributeError
  | some n => do
    let k ← generateK H fuel n secretExponent val
    signWith c g n secretExponent val k

/-- `public_pair_for_secret_exponent`, ecdsa.py:112-113; `none` is `(None, None)`. -/
def publicPairForSecretExponent (c : CurveFp) (g : Point) (secretExponent : Int) :
    Except Err (Option (Int × Int)) := do
  let p ← Point.mul c g secretExponent
  .ok p.pair

/-- `public_pair_for_x`, ecdsa.py:115-122. -/
def publicPairForX (c : CurveFp) (x : Int) (isEven : Bool) : Except Err (Int × Int) := do
  let alpha := ((powMod x 3 c.p : Int) + c.a * x + c.b) % (c.p : Int)
  let beta ← modularSqrt alpha c.p
  if isEven = (beta &&& 1 != 0) then .ok (x, (c.p : Int) - beta) else .ok (x, beta)

/-- `is_public_pair_valid`, ecdsa.py:124-125. -/
def isPublicPairValid (c : CurveFp) (pair : Int × Int) : Bool := c.containsPoint pair.1 pair.2

/-- `verify`, ecdsa.py:127-145.  `None % n` on the point at infinity is a TypeError, and so is `n - 1` without order. -/
def verify (c : CurveFp) (g : Point) (publicPair : Int × Int) (val : Int) (signature : Int × Int) :
    Except Err Bool :=
  match g.order with
  | none => if signature.1 < 1 then .ok false else .error .typeError
  | some n =>
    let (r, s) := signature
    if r < 1 ∨ r > n - 1 then .ok false
    else if s < 1 ∨ s > n - 1 then .ok false
    else do
      let inv ← inverseMod s n
      let u1 := (val * inv) % (n : Int)
      let u2 := (r * inv) % (n : Int)
      let p1 ← Point.mul c g u1
      let q ← Point.make c publicPair.1 publicPair.2 (some n)
      let p2 ← Point.mul c q u2
      let point ← Point.add c p1 p2
      match point.pair with
      | none => .error .typeError
      | some (x, _) => .ok (x % (n : Int) == r)

/-- The body of the loop of `possible_public_pairs_for_signature`, ecdsa.py:166-175, for one `y`.
A point at infinity has the pair `(None, None)`, which makes `contains_point` in `verify` fail — unless
`verify` has returned False before on a signature out of range. -/
def recoverOne (c : CurveFp) (g : Point) (n : Nat) (value : Int) (signature : Int × Int) (invR minusE : Int)
    (y : Int) (points : List (Int × Int)) : Except Err (List (Int × Int)) := do
  let (r, s) := signature
  let R ← Point.make c r y (some n)
  let sR ← Point.mul c R s
  let eG ← Point.mul c g minusE
  let sum ← Point.add c sR eG
  let Q ← Point.mul c sum invR
  match Q.pair with
  | none =>
    if r < 1 ∨ r > n - 1 ∨ s < 1 ∨ s > n - 1 then .ok points
    else do
      let inv ← inverseMod s n
      let _ ← Point.mul c g ((value * inv) % (n : Int))
      .error .typeError
  | some pair => do
    let ok ← verify c g pair value signature
    .ok (if ok ∧ pair ∉ points then points ++ [pair] else points)

/-- `possible_public_pairs_for_signature`, ecdsa.py:147-176; the set is a list without repetitions. -/
def possiblePublicPairs (c : CurveFp) (g : Point) (value : Int) (signature : Int × Int) :
    Except Err (List (Int × Int)) :=
  match g.order with
  | none => .error .typeError
  | some n => do
    let (r, _) := signature
    let invR ← inverseMod r n
    let minusE := (-value) % (n : Int)
    let alpha := ((powMod r 3 c.p : Int) + c.a * r + c.b) % (c.p : Int)
    let beta ← modularSqrt alpha c.p
    let points ← recoverOne c g n value signature invR minusE beta []
    recoverOne c g n value signature invR minusE ((c.p : Int) - beta) points

end Ecdsa
end Bitforge
