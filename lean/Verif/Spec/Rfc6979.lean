import Verif.Spec.Tx
import Mathlib.Data.Nat.Size

/-! # RFC 6979, section 3.2: the nonce of deterministic ECDSA

With a hash function of 32 bytes; `hmac` is its HMAC, `q` the order of the group. -/

namespace Bitforge.Spec.Rfc6979

/-- The number of bits of `q`. -/
def qlen (q : Nat) : Nat := Nat.size q

/-- The number of bytes of `q`. -/
def rlen (q : Nat) : Nat := (qlen q + 7) / 8

/-- Section 2.3.2: the leftmost `qlen` bits. -/
def bits2int (q : Nat) (b : Bytes) : Nat := beValue b / 2 ^ (8 * b.length - qlen q)

/-- Section 2.3.3. -/
def int2octets (q x : Nat) : Bytes := (le (rlen q) x).reverse

/-- Section 2.3.4. -/
def bits2octets (q : Nat) (b : Bytes) : Bytes := int2octets q (bits2int q b % q)

variable (hmac : Bytes → Bytes → Bytes)

/-- Steps b to g: `K` and `V` from the private key `x` and the digest `h1`. -/
def init (q x : Nat) (h1 : Bytes) : Bytes × Bytes :=
  let V := List.replicate 32 1
  let K := List.replicate 32 0
  let K := hmac K (V ++ [0x00] ++ int2octets q x ++ bits2octets q h1)
  let V := hmac K V
  let K := hmac K (V ++ [0x01] ++ int2octets q x ++ bits2octets q h1)
  let V := hmac K V
  (K, V)

/-- Step h.2, `m` times: the bytes added to `T`, and the last `V`. -/
def blocks (K : Bytes) : Nat → Bytes → Bytes × Bytes
  | 0, V => ([], V)
  | m + 1, V =>
    let V := hmac K V
    (V ++ (blocks K m V).1, (blocks K m V).2)

/-- Step h.2 is done until `T` has at least `qlen` bits. -/
def rounds (q : Nat) : Nat := (qlen q + 255) / 256

/-- `K` and `V` when step h is begun for the `i`-th time (counted from 0). -/
def state (q x : Nat) (h1 : Bytes) : Nat → Bytes × Bytes
  | 0 => init hmac q x h1
  | i + 1 =>
    let (K, V) := state q x h1 i
    let V := (blocks hmac K (rounds q) V).2
    let K := hmac K (V ++ [0x00])
    (K, hmac K V)

/-- Step h.3: the `i`-th candidate. -/
def candidate (q x : Nat) (h1 : Bytes) (i : Nat) : Nat :=
  bits2int q (blocks hmac (state hmac q x h1 i).1 (rounds q) (state hmac q x h1 i).2).1

/-- `k` is the nonce: the first candidate in range, at position `i`. -/
def Nonce (q x : Nat) (h1 : Bytes) (i k : Nat) : Prop :=
  k = candidate hmac q x h1 i ∧ 1 ≤ k ∧ k < q ∧
    ∀ j < i, ¬ (1 ≤ candidate hmac q x h1 j ∧ candidate hmac q x h1 j < q)

end Bitforge.Spec.Rfc6979
