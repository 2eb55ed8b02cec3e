import Verif.Encoding

/-!
# The real hash functions

The model takes the hash functions as a parameter (`Hashes`, Verif/Py.lean), so that every theorem
holds whatever they compute.  This file gives the functions CPython's `hashlib` and `hmac` compute:
SHA-1, SHA-256 and SHA-512 (FIPS 180-4), RIPEMD-160 (Dobbertin, Bosselaers, Preneel 1996) and HMAC
(RFC 2104).  They are used only in Verif/Conformance.lean, to run the project's own test-suite
against the model; no theorem depends on them.
-/

namespace Bitforge.Real

/-- Eight state words. -/
structure S8 where
  (a b c d e f g h : Nat)

/-- Five state words. -/
structure S5 where
  (a b c d e : Nat)

/-- Addition modulo `2 ^ 32`. -/
def add32 (a b : Nat) : Nat := (a + b) % 0x100000000
/-- Addition modulo `2 ^ 64`. -/
def add64 (a b : Nat) : Nat := (a + b) % 0x10000000000000000
/-- Rotation to the right of a 32-bit word. -/
def rotr32 (x n : Nat) : Nat := (x >>> n) ||| ((x <<< (32 - n)) % 0x100000000)
/-- Rotation to the left of a 32-bit word. -/
def rotl32 (x n : Nat) : Nat := ((x <<< n) % 0x100000000) ||| (x >>> (32 - n))
/-- Rotation to the right of a 64-bit word. -/
def rotr64 (x n : Nat) : Nat := (x >>> n) ||| ((x <<< (64 - n)) % 0x10000000000000000)
/-- Complement of a 32-bit word. -/
def not32 (x : Nat) : Nat := 0xffffffff - x
/-- Complement of a 64-bit word. -/
def not64 (x : Nat) : Nat := 0xffffffffffffffff - x

/-- Number written with `k` bytes, most significant first. -/
def be (n : Nat) : Nat → Bytes
  | 0 => []
  | k + 1 => be (n / 256) k ++ [Fin.ofNat 256 n]

/-- Number written with `k` bytes, least significant first. -/
def le (n : Nat) : Nat → Bytes
  | 0 => []
  | k + 1 => Fin.ofNat 256 n :: le (n / 256) k

/-- The first `k` big-endian words of `n` bytes. -/
def words (n : Nat) : Nat → Bytes → List Nat
  | 0, _ => []
  | k + 1, b => (b.take n).foldl (fun a x => a * 256 + x.val) 0 :: words n k (b.drop n)

/-- The first `k` little-endian words of `n` bytes. -/
def wordsLe (n : Nat) : Nat → Bytes → List Nat
  | 0, _ => []
  | k + 1, b => (b.take n).foldr (fun x a => a * 256 + x.val) 0 :: wordsLe n k (b.drop n)

/-- Padding shared by the hashes with 64-byte blocks; `len` encodes the bit length on 8 bytes. -/
def pad64 (len : Bytes) (b : Bytes) : Bytes :=
  b ++ [0x80] ++ List.replicate ((119 - b.length % 64) % 64) 0 ++ len

/-- Padding of SHA-512. -/
def pad128 (b : Bytes) : Bytes :=
  b ++ [0x80] ++ List.replicate ((239 - b.length % 128) % 128) 0 ++ be (8 * b.length) 16

/-- Feed `n` blocks of `size` bytes to a compression function. -/
def blocks {α : Type} (size : Nat) (f : α → Bytes → α) : Nat → Bytes → α → α
  | 0, _, s => s
  | n + 1, b, s => blocks size f n (b.drop size) (f s (b.take size))

/-! ## SHA-256 -/

/-- FIPS 180-4, 4.2.2. -/
def K256 : List Nat :=
  [0x428a2f98, 0x71374491, 0xb5c0fbcf, 0xe9b5dba5, 0x3956c25b, 0x59f111f1, 0x923f82a4, 0xab1c5ed5,
   0xd807aa98, 0x12835b01, 0x243185be, 0x550c7dc3, 0x72be5d74, 0x80deb1fe, 0x9bdc06a7, 0xc19bf174,
   0xe49b69c1, 0xefbe4786, 0x0fc19dc6, 0x240ca1cc, 0x2de92c6f, 0x4a7484aa, 0x5cb0a9dc, 0x76f988da,
   0x983e5152, 0xa831c66d, 0xb00327c8, 0xbf597fc7, 0xc6e00bf3, 0xd5a79147, 0x06ca6351, 0x14292967,
   0x27b70a85, 0x2e1b2138, 0x4d2c6dfc, 0x53380d13, 0x650a7354, 0x766a0abb, 0x81c2c92e, 0x92722c85,
   0xa2bfe8a1, 0xa81a664b, 0xc24b8b70, 0xc76c51a3, 0xd192e819, 0xd6990624, 0xf40e3585, 0x106aa070,
   0x19a4c116, 0x1e376c08, 0x2748774c, 0x34b0bcb5, 0x391c0cb3, 0x4ed8aa4a, 0x5b9cca4f, 0x682e6ff3,
   0x748f82ee, 0x78a5636f, 0x84c87814, 0x8cc70208, 0x90befffa, 0xa4506ceb, 0xbef9a3f7, 0xc67178f2]

/-- The 64 rounds, with a sliding window of 16 message words (FIPS 180-4, 6.2.2). -/
def rounds256 : List Nat → List Nat → S8 → S8
  | [], _, s => s
  | k :: ks, w, s =>
    let w0 := w.headD 0
    let w1 := w.getD 1 0
    let w9 := w.getD 9 0
    let w14 := w.getD 14 0
    let new := (w0 + (rotr32 w1 7 ^^^ rotr32 w1 18 ^^^ (w1 >>> 3)) + w9
      + (rotr32 w14 17 ^^^ rotr32 w14 19 ^^^ (w14 >>> 10))) % 0x100000000
    let t1 := s.h + (rotr32 s.e 6 ^^^ rotr32 s.e 11 ^^^ rotr32 s.e 25)
      + ((s.e &&& s.f) ^^^ (not32 s.e &&& s.g)) + k + w0
    let t2 := (rotr32 s.a 2 ^^^ rotr32 s.a 13 ^^^ rotr32 s.a 22)
      + ((s.a &&& s.b) ^^^ (s.a &&& s.c) ^^^ (s.b &&& s.c))
    rounds256 ks (w.tail ++ [new])
      ⟨add32 t1 t2, s.a, s.b, s.c, add32 s.d t1, s.e, s.f, s.g⟩

def block256 (s : S8) (b : Bytes) : S8 :=
  let r := rounds256 K256 (words 4 16 b) s
  ⟨add32 s.a r.a, add32 s.b r.b, add32 s.c r.c, add32 s.d r.d,
   add32 s.e r.e, add32 s.f r.f, add32 s.g r.g, add32 s.h r.h⟩

/-- The bytes of eight words of `n` bytes. -/
def out8 (n : Nat) (s : S8) : Bytes :=
  be s.a n ++ (be s.b n ++ (be s.c n ++ (be s.d n ++ (be s.e n ++ (be s.f n ++ (be s.g n ++ be s.h n))))))

def sha256 (b : Bytes) : Bytes :=
  let m := pad64 (be (8 * b.length) 8) b
  out8 4 (blocks 64 block256 (m.length / 64) m
    ⟨0x6a09e667, 0xbb67ae85, 0x3c6ef372, 0xa54ff53a, 0x510e527f, 0x9b05688c, 0x1f83d9ab, 0x5be0cd19⟩)

/-! ## SHA-512 -/

/-- FIPS 180-4, 4.2.3. -/
def K512 : List Nat :=
  [0x428a2f98d728ae22, 0x7137449123ef65cd, 0xb5c0fbcfec4d3b2f, 0xe9b5dba58189dbbc,
   0x3956c25bf348b538, 0x59f111f1b605d019, 0x923f82a4af194f9b, 0xab1c5ed5da6d8118,
   0xd807aa98a3030242, 0x12835b0145706fbe, 0x243185be4ee4b28c, 0x550c7dc3d5ffb4e2,
   0x72be5d74f27b896f, 0x80deb1fe3b1696b1, 0x9bdc06a725c71235, 0xc19bf174cf692694,
   0xe49b69c19ef14ad2, 0xefbe4786384f25e3, 0x0fc19dc68b8cd5b5, 0x240ca1cc77ac9c65,
   0x2de92c6f592b0275, 0x4a7484aa6ea6e483, 0x5cb0a9dcbd41fbd4, 0x76f988da831153b5,
   0x983e5152ee66dfab, 0xa831c66d2db43210, 0xb00327c898fb213f, 0xbf597fc7beef0ee4,
   0xc6e00bf33da88fc2, 0xd5a79147930aa725, 0x06ca6351e003826f, 0x142929670a0e6e70,
   0x27b70a8546d22ffc, 0x2e1b21385c26c926, 0x4d2c6dfc5ac42aed, 0x53380d139d95b3df,
   0x650a73548baf63de, 0x766a0abb3c77b2a8, 0x81c2c92e47edaee6, 0x92722c851482353b,
   0xa2bfe8a14cf10364, 0xa81a664bbc423001, 0xc24b8b70d0f89791, 0xc76c51a30654be30,
   0xd192e819d6ef5218, 0xd69906245565a910, 0xf40e35855771202a, 0x106aa07032bbd1b8,
   0x19a4c116b8d2d0c8, 0x1e376c085141ab53, 0x2748774cdf8eeb99, 0x34b0bcb5e19b48a8,
   0x391c0cb3c5c95a63, 0x4ed8aa4ae3418acb, 0x5b9cca4f7763e373, 0x682e6ff3d6b2b8a3,
   0x748f82ee5defb2fc, 0x78a5636f43172f60, 0x84c87814a1f0ab72, 0x8cc702081a6439ec,
   0x90befffa23631e28, 0xa4506cebde82bde9, 0xbef9a3f7b2c67915, 0xc67178f2e372532b,
   0xca273eceea26619c, 0xd186b8c721c0c207, 0xeada7dd6cde0eb1e, 0xf57d4f7fee6ed178,
   0x06f067aa72176fba, 0x0a637dc5a2c898a6, 0x113f9804bef90dae, 0x1b710b35131c471b,
   0x28db77f523047d84, 0x32caab7b40c72493, 0x3c9ebe0a15c9bebc, 0x431d67c49c100d4c,
   0x4cc5d4becb3e42b6, 0x597f299cfc657e2a, 0x5fcb6fab3ad6faec, 0x6c44198c4a475817]

/-- The 80 rounds (FIPS 180-4, 6.4.2). -/
def rounds512 : List Nat → List Nat → S8 → S8
  | [], _, s => s
  | k :: ks, w, s =>
    let w0 := w.headD 0
    let w1 := w.getD 1 0
    let w9 := w.getD 9 0
    let w14 := w.getD 14 0
    let new := (w0 + (rotr64 w1 1 ^^^ rotr64 w1 8 ^^^ (w1 >>> 7)) + w9
      + (rotr64 w14 19 ^^^ rotr64 w14 61 ^^^ (w14 >>> 6))) % 0x10000000000000000
    let t1 := s.h + (rotr64 s.e 14 ^^^ rotr64 s.e 18 ^^^ rotr64 s.e 41)
      + ((s.e &&& s.f) ^^^ (not64 s.e &&& s.g)) + k + w0
    let t2 := (rotr64 s.a 28 ^^^ rotr64 s.a 34 ^^^ rotr64 s.a 39)
      + ((s.a &&& s.b) ^^^ (s.a &&& s.c) ^^^ (s.b &&& s.c))
    rounds512 ks (w.tail ++ [new])
      ⟨add64 t1 t2, s.a, s.b, s.c, add64 s.d t1, s.e, s.f, s.g⟩

def block512 (s : S8) (b : Bytes) : S8 :=
  let r := rounds512 K512 (words 8 16 b) s
  ⟨add64 s.a r.a, add64 s.b r.b, add64 s.c r.c, add64 s.d r.d,
   add64 s.e r.e, add64 s.f r.f, add64 s.g r.g, add64 s.h r.h⟩

def sha512 (b : Bytes) : Bytes :=
  let m := pad128 b
  out8 8 (blocks 128 block512 (m.length / 128) m
   ⟨0x6a09e667f3bcc908, 0xbb67ae8584caa73b, 0x3c6ef372fe94f82b, 0xa54ff53a5f1d36f1,
    0x510e527fade682d1, 0x9b05688c2b3e6c1f, 0x1f83d9abfb41bd6b, 0x5be0cd19137e2179⟩)

/-! ## SHA-1 -/

/-- The round function and constant of each of the four groups of 20 rounds (FIPS 180-4, 4.1.1). -/
def f1 (g b c d : Nat) : Nat :=
  match g with
  | 0 => ((b &&& c) ^^^ (not32 b &&& d)) + 0x5a827999
  | 1 => (b ^^^ c ^^^ d) + 0x6ed9eba1
  | 2 => ((b &&& c) ^^^ (b &&& d) ^^^ (c &&& d)) + 0x8f1bbcdc
  | _ => (b ^^^ c ^^^ d) + 0xca62c1d6

/-- The 80 rounds (FIPS 180-4, 6.1.2); `n` counts down. -/
def rounds1 : Nat → List Nat → S5 → S5
  | 0, _, s => s
  | n + 1, w, s =>
    let w0 := w.headD 0
    let new := rotl32 (w.getD 13 0 ^^^ w.getD 8 0 ^^^ w.getD 2 0 ^^^ w0) 1
    let t := (rotl32 s.a 5 + f1 (3 - n / 20) s.b s.c s.d + s.e + w0) % 0x100000000
    rounds1 n (w.tail ++ [new]) ⟨t, s.a, rotl32 s.b 30, s.c, s.d⟩

def block1 (s : S5) (b : Bytes) : S5 :=
  let r := rounds1 80 (words 4 16 b) s
  ⟨add32 s.a r.a, add32 s.b r.b, add32 s.c r.c, add32 s.d r.d, add32 s.e r.e⟩

def sha1 (b : Bytes) : Bytes :=
  let m := pad64 (be (8 * b.length) 8) b
  let s := blocks 64 block1 (m.length / 64) m
    ⟨0x67452301, 0xefcdab89, 0x98badcfe, 0x10325476, 0xc3d2e1f0⟩
  be s.a 4 ++ (be s.b 4 ++ (be s.c 4 ++ (be s.d 4 ++ be s.e 4)))

/-! ## RIPEMD-160 -/

/-- Message word and rotation of each of the 80 steps of the left line. -/
def stepsL : List (Nat × Nat) :=
  [(0,11), (1,14), (2,15), (3,12), (4,5), (5,8), (6,7), (7,9),
   (8,11), (9,13), (10,14), (11,15), (12,6), (13,7), (14,9), (15,8),
   (7,7), (4,6), (13,8), (1,13), (10,11), (6,9), (15,7), (3,15),
   (12,7), (0,12), (9,15), (5,9), (2,11), (14,7), (11,13), (8,12),
   (3,11), (10,13), (14,6), (4,7), (9,14), (15,9), (8,13), (1,15),
   (2,14), (7,8), (0,13), (6,6), (13,5), (11,12), (5,7), (12,5),
   (1,11), (9,12), (11,14), (10,15), (0,14), (8,15), (12,9), (4,8),
   (13,9), (3,14), (7,5), (15,6), (14,8), (5,6), (6,5), (2,12),
   (4,9), (0,15), (5,5), (9,11), (7,6), (12,8), (2,13), (10,12),
   (14,5), (1,12), (3,13), (8,14), (11,11), (6,8), (15,5), (13,6)]

/-- Message word and rotation of each of the 80 steps of the right line. -/
def stepsR : List (Nat × Nat) :=
  [(5,8), (14,9), (7,9), (0,11), (9,13), (2,15), (11,15), (4,5),
   (13,7), (6,7), (15,8), (8,11), (1,14), (10,14), (3,12), (12,6),
   (6,9), (11,13), (3,15), (7,7), (0,12), (13,8), (5,9), (10,11),
   (14,7), (15,7), (8,12), (12,7), (4,6), (9,15), (1,13), (2,11),
   (15,9), (5,7), (1,15), (3,11), (7,8), (14,6), (6,6), (9,14),
   (11,12), (8,13), (12,5), (2,14), (10,13), (0,13), (4,7), (13,5),
   (8,15), (6,5), (4,8), (1,11), (3,14), (11,14), (15,6), (0,14),
   (5,6), (12,9), (2,12), (13,9), (9,12), (7,5), (10,15), (14,8),
   (12,8), (15,5), (10,12), (4,9), (1,12), (5,5), (8,14), (7,6),
   (6,8), (2,13), (13,6), (14,5), (0,15), (3,13), (9,11), (11,11)]

/-- The five boolean functions. -/
def fr (g x y z : Nat) : Nat :=
  match g with
  | 0 => x ^^^ y ^^^ z
  | 1 => (x &&& y) ||| (not32 x &&& z)
  | 2 => (x ||| not32 y) ^^^ z
  | 3 => (x &&& z) ||| (y &&& not32 z)
  | _ => x ^^^ (y ||| not32 z)

/-- The additive constants of the two lines. -/
def KL : List Nat := [0, 0x5a827999, 0x6ed9eba1, 0x8f1bbcdc, 0xa953fd4e]
def KR : List Nat := [0x50a28be6, 0x5c4dd124, 0x6d703ef3, 0x7a6d76e9, 0]

/-- One line of 80 steps: `i` counts up, `left` selects the order of the boolean functions. -/
def line (left : Bool) (w : List Nat) : Nat → List (Nat × Nat) → S5 → S5
  | _, [], s => s
  | i, (r, n) :: rest, s =>
    let g := i / 16
    let f := if left then fr g s.b s.c s.d else fr (4 - g) s.b s.c s.d
    let k := (if left then KL else KR).getD g 0
    let t := add32 (rotl32 ((s.a + f + w.getD r 0 + k) % 0x100000000) n) s.e
    line left w (i + 1) rest ⟨s.e, t, s.b, rotl32 s.c 10, s.d⟩

def blockR (s : S5) (b : Bytes) : S5 :=
  let w := wordsLe 4 16 b
  let l := line true w 0 stepsL s
  let r := line false w 0 stepsR s
  ⟨(s.b + l.c + r.d) % 0x100000000, (s.c + l.d + r.e) % 0x100000000,
   (s.d + l.e + r.a) % 0x100000000, (s.e + l.a + r.b) % 0x100000000,
   (s.a + l.b + r.c) % 0x100000000⟩

def ripemd160 (b : Bytes) : Bytes :=
  let m := pad64 (le (8 * b.length) 8) b
  let s := blocks 64 blockR (m.length / 64) m
    ⟨0x67452301, 0xefcdab89, 0x98badcfe, 0x10325476, 0xc3d2e1f0⟩
  le s.a 4 ++ (le s.b 4 ++ (le s.c 4 ++ (le s.d 4 ++ le s.e 4)))

/-! ## HMAC (RFC 2104) -/

/-- `x ^ c`, bytewise. -/
def xorByte (c : Nat) (x : Byte) : Byte := Fin.ofNat 256 (x.val ^^^ c)

def hmac (size : Nat) (hash : Bytes → Bytes) (key msg : Bytes) : Bytes :=
  let k0 := if key.length > size then hash key else key
  let k := k0 ++ List.replicate (size - k0.length) 0
  hash (k.map (xorByte 0x5c) ++ hash (k.map (xorByte 0x36) ++ msg))

/-! ## The instance -/

theorem be_length (n k : Nat) : (be n k).length = k := by
  induction k generalizing n with
  | zero => rfl
  | succ k ih => simp [be, ih]

theorem le_length (n k : Nat) : (le n k).length = k := by
  induction k generalizing n with
  | zero => rfl
  | succ k ih => simp [le, ih]

theorem out8_length (n : Nat) (s : S8) : (out8 n s).length = 8 * n := by
  simp only [out8, List.length_append, be_length]; omega

end Bitforge.Real

open Bitforge.Real in
/-- The hash functions of CPython. -/
def Bitforge.Hashes.real : Hashes where
  sha256 := Real.sha256
  sha1 := Real.sha1
  ripemd160 := Real.ripemd160
  hmacSha256 := hmac 64 Real.sha256
  hmacSha512 := hmac 128 Real.sha512
  sha256_length b := out8_length 4 _
  sha1_length b := by simp only [Real.sha1, List.length_append, be_length]
  ripemd160_length b := by simp only [Real.ripemd160, List.length_append, le_length]
  hmacSha256_length k b := out8_length 4 _
  hmacSha512_length k b := out8_length 8 _
