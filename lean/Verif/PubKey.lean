import Verif.Ecdsa
import Verif.PrivKey
import Verif.Address

/-! # `bitforge/pubkey.py` and the SEC functions of `bitforge/utils/encoding.py` -/

namespace Bitforge

/-- `public_pair_to_sec`, utils/encoding.py:222-229. -/
def publicPairToSec (pair : Int × Int) (compressed : Bool) : Except Err Bytes := do
  let x ← toBytes32 pair.1
  if compressed then .ok (byte (2 + (pair.2 % 2).toNat) :: x)
  else
    let y ← toBytes32 pair.2
    .ok (4 :: x ++ y)

/-- `sec[a:b]`, keeping the Python type. -/
def Data.slice (d : Data) (a b : Nat) : Data := ⟨d.kind, (d.val.take b).drop a⟩

/-- `sec_to_public_pair`, utils/encoding.py:232-249, for byte strings (`str` or `bytearray`). -/
def secToPublicPair (sec : Data) : Except Err (Int × Int) := do
  let x ← fromBytes32 (sec.slice 1 33)
  let sec0 := sec.val.take 1
  if sec0 = [4] then
    let y ← fromBytes32 (sec.slice 33 65)
    if Ecdsa.isPublicPairValid secp ((x : Int), (y : Int)) then .ok ((x : Int), (y : Int))
    else .error .encodingError
  else if sec0 = [2] ∨ sec0 = [3] then
    Ecdsa.publicPairForX secp x (isEven := sec0 = [2])
  else .error .encodingError

/-- `is_sec_compressed`, utils/encoding.py:252-254. -/
def isSecCompressed (sec : Data) : Bool := sec.val.take 1 = [2] ∨ sec.val.take 1 = [3]

/-- `PublicKey`, pubkey.py:18-22.  `compressed` is a Boolean. -/
structure PublicKey where
  pair : Int × Int
  network : Network
  compressed : Bool
  deriving DecidableEq, Repr

namespace PublicKey

/-- `find_network`, pubkey.py:11-15. -/
def findNetwork (value : NetValue) : Except Err Network :=
  match Network.find value "name" with
  | .ok n => .ok n
  | .error _ => .error .pubUnknownNetwork

/-- `PublicKey.__new__`, pubkey.py:40-46, for a pair of integers. -/
def new (pair : Int × Int) (network : NetValue := .network .livenet) (compressed : Bool := true) :
    Except Err PublicKey :=
  match findNetwork network with
  | .error e => .error e
  | .ok network =>
    if Ecdsa.isPublicPairValid secp pair then .ok ⟨pair, network, compressed⟩
    else .error .pubInvalidPair

/-- `PublicKey.from_private_key`, pubkey.py:48-55.  The pair `(None, None)` fails in `contains_point`. -/
def fromPrivateKey (k : PrivateKey) : Except Err PublicKey :=
  match Ecdsa.publicPairForSecretExponent secp secpG k.secret with
  | .error e => .error e
  | .ok none => .error .typeError
  | .ok (some pair) => new pair (.network k.network) k.compressed

/-- `PublicKey.from_bytes`, pubkey.py:57-65.  `NoSuchPointError` and `UnicodeDecodeError` are ValueErrors. -/
def fromBytes (bytes : Data) (network : NetValue := .network .livenet) : Except Err PublicKey :=
  match secToPublicPair bytes with
  | .error e =>
    if e = .encodingError ∨ e = .valueError ∨ e = .noSuchPointError ∨ e = .unicodeDecodeError
    then .error .pubInvalidBinary else .error e
  | .ok pair => new pair network (isSecCompressed bytes)

/-- `PublicKey.from_hex`, pubkey.py:67-74.  `decode_hex` returns a `str`. -/
def fromHex (string : Text) (network : NetValue := .network .livenet) : Except Err PublicKey :=
  match decodeHex string with
  | .error .invalidHex => .error .pubInvalidHex
  | .error e => .error e
  | .ok bytes => fromBytes ⟨.str, bytes⟩ network

/-- `to_bytes`, pubkey.py:77-78. -/
def toBytes (k : PublicKey) : Except Err Bytes := publicPairToSec k.pair k.compressed

/-- `to_hex`, pubkey.py:80-81. -/
def toHex (k : PublicKey) : Except Err Text := do
  let b ← k.toBytes
  .ok (encodeHex b)

/-- `to_address`, pubkey.py:83-84, through `Address.from_public_key`, address.py:100-103. -/
def toAddress (H : Hashes) (k : PublicKey) : Except Err Address := do
  let b ← k.toBytes
  Address.fromPublicKeyBytes H b k.network

end PublicKey

namespace PrivateKey

/-- `to_public_key`, privkey.py:124-125. -/
def toPublicKey (k : PrivateKey) : Except Err PublicKey := PublicKey.fromPrivateKey k

/-- `to_address`, privkey.py:127-128. -/
def toAddress (H : Hashes) (k : PrivateKey) : Except Err Address := do
  let p ← k.toPublicKey
  p.toAddress H

end PrivateKey
end Bitforge
