import Verif.Networks
import Verif.Curve
import Verif.Encoding

/-! # `bitforge/privkey.py` (keys and their text forms) -/

namespace Bitforge

/-- `PrivateKey`, privkey.py:27-31. -/
structure PrivateKey where
  secret : Int
  network : Network
  compressed : Bool
  deriving DecidableEq, Repr

namespace PrivateKey

/-- `KEY_MAX`, privkey.py:14. -/
def keyMax : Int := secpN

/-- `find_network`, privkey.py:20-24. -/
def findNetwork (value : NetValue) (attr : String := "name") : Except Err Network :=
  match Network.find value attr with
  | .ok n => .ok n
  | .error _ => .error .privUnknownNetwork

/-- `PrivateKey.__new__`, privkey.py:58-67.  `random` is what `rng.randint(1, KEY_MAX - 1)` returns. -/
def new (secret : Option Int) (network : NetValue) (compressed : Bool) (random : Int) :
    Except Err PrivateKey :=
  match findNetwork network with
  | .error e => .error e
  | .ok network =>
    let secret := secret.getD random
    if ¬ (0 < secret ∧ secret < keyMax) then .error .privInvalidSecret
    else .ok ⟨secret, network, compressed⟩

/-- `PrivateKey(secret, network, compressed)` with a given secret. -/
def make (secret : Int) (network : NetValue := .network .livenet) (compressed : Bool := true) :
    Except Err PrivateKey := new (some secret) network compressed 0

/-- privkey.py:89-92: the end of `from_wif`, on the payload without the compression byte. -/
def fromWifBody (bytes : Bytes) (compressed : Bool) : Except Err PrivateKey :=
  match bytes with
  | [] => .error .indexError   -- unreachable: the length is 33
  | b :: rest =>
    match findNetwork (.int b.val) "wif_prefix" with
    | .error e => .error e
    | .ok network => make (decodeInt rest) (.network network) compressed

/-- `PrivateKey.from_wif`, privkey.py:69-92. -/
def fromWif (H : Hashes) (string : Text) : Except Err PrivateKey :=
  match decodeBase58h H string with
  | .error .invalidBase58h => .error .privInvalidBase58h
  | .error e => .error e
  | .ok bytes =>
    if bytes.length = 33 then fromWifBody bytes false
    else if bytes.length = 34 then
      if bytes.getLast? ≠ some 0x01 then .error .privInvalidCompressionByte
      else fromWifBody bytes.dropLast true
    else .error .privInvalidWifLength

/-- `PrivateKey.from_bytes`, privkey.py:94-100. -/
def fromBytes (bytes : Bytes) (network : NetValue := .network .livenet) (compressed : Bool := true) :
    Except Err PrivateKey :=
  if bytes.length ≠ 32 then .error .privInvalidBinaryLength
  else make (decodeInt bytes) network compressed

/-- `PrivateKey.from_hex`, privkey.py:102-109. -/
def fromHex (string : Text) (network : NetValue := .network .livenet) (compressed : Bool := true) :
    Except Err PrivateKey :=
  match decodeHex string with
  | .error .invalidHex => .error .privInvalidHex
  | .error e => .error e
  | .ok bytes => fromBytes bytes network compressed

/-- `to_bytes`, privkey.py:118-119. -/
def toBytes (k : PrivateKey) : Bytes := encodeInt k.secret (length := some 32)

/-- `to_wif`, privkey.py:111-116. -/
def toWif (H : Hashes) (k : PrivateKey) : Except Err Text :=
  match pyChr k.network.wifPrefix with
  | .error e => .error e
  | .ok networkByte =>
    .ok (encodeBase58h H ([networkByte] ++ k.toBytes ++ (if k.compressed then [1] else [])))

/-- `to_hex`, privkey.py:121-122. -/
def toHex (k : PrivateKey) : Text := encodeHex k.toBytes

end PrivateKey
end Bitforge
