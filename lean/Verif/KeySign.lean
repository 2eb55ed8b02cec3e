import Verif.Ecdsa
import Verif.PrivKey

/-! # `PrivateKey.sign` and `PrivateKey.verify` (bitforge/privkey.py:130-138)

Both are calls into the external package `ecdsa` (0.13), which is not part of the repository.  What is
modelled here is its behaviour, function by function, as far as these calls reach it: `sign_digest` computes the
ECDSA signature of the digest given, `verify` hashes its message with the default hash, SHA-1, and raises
`BadSignatureError` instead of returning False.  The random nonce is a parameter.  A signature is first a pair
`(r, s)` and then its DER text. -/

namespace Bitforge
namespace ExtEcdsa

/-! ## `ecdsa/der.py` -/

/-- `int2byte` (`chr` of Python 2). -/
def int2byte (n : Nat) : Except Err Byte := if n < 256 then .ok (byte n) else .error .valueError

/-- `encode_integer`.  `unhexlify` of the hexadecimal digits, with a zero in front if their number is odd, gives the
bytes that `encodeInt` gives. -/
def derInteger (r : Int) : Except Err Bytes :=
  if r < 0 then .error .assertionError
  else
    let s := encodeInt r
    if (s.headD 0).val ≤ 0x7f then (int2byte s.length).map fun l => 0x02 :: l :: s
    else (int2byte (s.length + 1)).map fun l => 0x02 :: l :: 0x00 :: s

/-- `encode_length`. -/
def derLength (l : Nat) : Except Err Bytes :=
  if l < 0x80 then (int2byte l).map fun b => [b]
  else
    let s := encodeInt l
    (int2byte (0x80 ||| s.length)).map fun b => b :: s

/-- `encode_sequence`. -/
def derSequence (pieces : List Bytes) : Except Err Bytes :=
  (derLength (pieces.map List.length).sum).map fun l => 0x30 :: l ++ pieces.flatten

/-- `read_length`: the length and the number of bytes that it takes.  `int('', 16)` is a ValueError. -/
def readLength (string : Bytes) : Except Err (Nat × Nat) :=
  match string with
  | [] => .error .indexError
  | num :: rest =>
    if num.val < 0x80 then .ok (num.val, 1)
    else
      let llen := num.val - 0x80
      if llen > rest.length then .error .unexpectedDer
      else if llen = 0 then .error .valueError
      else .ok (decodeInt (rest.take llen), 1 + llen)

/-- `remove_sequence`: the contents and what follows. -/
def removeSequence (string : Bytes) : Except Err (Bytes × Bytes) :=
  match string with
  | [] => .error .indexError
  | tag :: rest =>
    if tag ≠ 0x30 then .error .unexpectedDer
    else (readLength rest).map fun (length, llen) => ((rest.drop llen).take length, (rest.drop llen).drop length)

/-- `remove_integer`: the integer and what follows. -/
def removeInteger (string : Bytes) : Except Err (Int × Bytes) :=
  match string with
  | [] => .error .indexError
  | tag :: rest =>
    if tag ≠ 0x02 then .error .unexpectedDer
    else
      match readLength rest with
      | .error e => .error e
      | .ok (length, llen) =>
        let numberbytes := (rest.drop llen).take length
        match numberbytes with
        | [] => .error .indexError
        | b :: _ =>
          if b.val < 0x80 then .ok (decodeInt numberbytes, (rest.drop llen).drop length) else .error .assertionError

/-- `sigencode_der`. -/
def sigencodeDer (sig : Int × Int) : Except Err Bytes := do
  let r ← derInteger sig.1
  let s ← derInteger sig.2
  derSequence [r, s]

/-- `sigdecode_der`. -/
def sigdecodeDer (sig : Bytes) : Except Err (Int × Int) := do
  let (strings, empty) ← removeSequence sig
  if empty ≠ [] then .error .unexpectedDer
  else do
    let (r, rest) ← removeInteger strings
    let (s, empty) ← removeInteger rest
    if empty ≠ [] then .error .unexpectedDer else .ok (r, s)

/-! ## Signatures as pairs -/

/-- `SigningKey.sign_digest` for secp256k1: digests longer than the order are refused. -/
def signDigest (secret : Int) (nonce : Nat) (digest : Bytes) : Except Err (Int × Int) :=
  if digest.length > 32 then .error .badDigestError
  else do
    let z : Int := intFromBytes digest
    let p ← Point.mul secp secpG nonce
    match p.pair with
    | none => .error .typeError
    | some (x, _) =>
      let r := x % (secpN : Int)
      if r = 0 then .error .rsZeroError
      else do
        let inv ← inverseMod nonce secpN
        let s := (inv * (z + secret * r)) % (secpN : Int)
        if s = 0 then .error .rsZeroError else .ok (r, s)

/-- `sigencode_der_canonize`: the smaller of `s` and `n - s`. -/
def canonize (sig : Int × Int) : Int × Int :=
  if sig.2 > (secpN : Int) / 2 then (sig.1, (secpN : Int) - sig.2) else sig

/-- `VerifyingKey.verify` of a key with coordinates `pair`, after `sigdecode`. -/
def verifyPair (H : Hashes) (pair : Int × Int) (sig : Int × Int) (message : Bytes) : Except Err Bool := do
  let ok ← Ecdsa.verify secp secpG pair (intFromBytes (H.sha1 message)) sig
  if ok then .ok true else .error .badSignatureError

end ExtEcdsa

namespace PrivateKey

/-- `PrivateKey.sign`, privkey.py:130-132, up to the DER text. -/
def signPair (k : PrivateKey) (nonce : Nat) (message : Bytes) : Except Err (Int × Int) := do
  let sig ← ExtEcdsa.signDigest k.secret nonce message
  .ok (ExtEcdsa.canonize sig)

/-- `PrivateKey.sign`, privkey.py:130-132. -/
def sign (k : PrivateKey) (nonce : Nat) (message : Bytes) : Except Err Bytes := do
  let sig ← k.signPair nonce message
  ExtEcdsa.sigencodeDer sig

/-- `PrivateKey.verify`, privkey.py:134-138, after the DER text. -/
def verifyPair (H : Hashes) (k : PrivateKey) (sig : Int × Int) (message : Bytes) : Except Err Bool := do
  let p ← Point.mul secp secpG k.secret
  match p.pair with
  | none => .error .assertionError
  | some pair => ExtEcdsa.verifyPair H pair sig message

/-- `PrivateKey.verify`, privkey.py:134-138.  (For the secrets that a `PrivateKey` can have, `verifyPair` gets as far
as the signature.) -/
def verify (H : Hashes) (k : PrivateKey) (sig : Bytes) (message : Bytes) : Except Err Bool := do
  let sig ← ExtEcdsa.sigdecodeDer sig
  k.verifyPair H sig message

end PrivateKey
end Bitforge
