import Verif.Networks
import Verif.Encoding

/-! # `bitforge/address.py` -/

namespace Bitforge

/-- `Address.Type`, address.py:16-18. -/
inductive AddrType | publicKey | script
  deriving DecidableEq, Repr

/-- `Address`, address.py:12-14.  The hash is an immutable byte string (`str`). -/
structure Address where
  phash : Bytes
  network : Network
  type : AddrType
  deriving DecidableEq, Repr

namespace Address

/-- `Address.__new__`, address.py:45-57.  `type = none` stands for an argument that is not an
`Address.Type`. -/
def new (phash : Bytes) (network : NetValue) (type : Option AddrType) : Except Err Address :=
  match Network.find network with
  | .error _ => .error .addrUnknownNetwork
  | .ok network =>
    match type with
    | none => .error .addrInvalidType
    | some type =>
      if phash.length ≠ 20 then .error .addrInvalidHashLength
      else .ok ⟨phash, network, type⟩

/-- `classify_bytes`, address.py:86-98. -/
def classifyBytes (bytes : Bytes) : Except Err (Network × AddrType) :=
  match bytes with
  | [] => .error .indexError
  | version :: _ =>
    match Network.find? (.int version.val) "pubkeyhash" with
    | some network => .ok (network, .publicKey)
    | none =>
      match Network.find? (.int version.val) "scripthash" with
      | some network => .ok (network, .script)
      | none => .error .addrInvalidVersion

/-- `from_bytes`, address.py:68-75. -/
def fromBytes (bytes : Bytes) : Except Err Address :=
  if bytes.length ≠ 21 then .error .addrInvalidBinaryLength
  else match classifyBytes bytes with
    | .error e => .error e
    | .ok (network, type) => new (bytes.drop 1) (.network network) (some type)

/-- `from_string`, address.py:59-66. -/
def fromString (H : Hashes) (string : Text) : Except Err Address :=
  match decodeBase58h H string with
  | .error .invalidBase58h => .error .addrInvalidBase58h
  | .error e => .error e
  | .ok bytes => fromBytes bytes

/-- `from_hex`, address.py:77-84. -/
def fromHex (string : Text) : Except Err Address :=
  match decodeHex string with
  | .error .invalidHex => .error .addrInvalidHex
  | .error e => .error e
  | .ok bytes => fromBytes bytes

/-- `from_public_key`, address.py:100-103, on the serialised key and its network. -/
def fromPublicKeyBytes (H : Hashes) (sec : Bytes) (network : Network) : Except Err Address :=
  new (H.ripemd160 (H.sha256 sec)) (.network network) (some .publicKey)

/-- `from_script`, address.py:105-108, on the serialised script. -/
def fromScriptBytes (H : Hashes) (script : Bytes) (network : NetValue := .network .livenet) :
    Except Err Address :=
  new (H.ripemd160 (H.sha256 script)) network (some .script)

/-- `getattr(self.network, self.type.value)`, address.py:111. -/
def version (a : Address) : Nat :=
  match a.type with
  | .publicKey => a.network.pubkeyhash
  | .script => a.network.scripthash

/-- `to_bytes`, address.py:110-112. -/
def toBytes (a : Address) : Except Err Bytes :=
  match pyChr a.version with
  | .error e => .error e
  | .ok v => .ok ([v] ++ a.phash)

/-- `to_string`, address.py:114-115. -/
def toString (H : Hashes) (a : Address) : Except Err Text :=
  match a.toBytes with
  | .error e => .error e
  | .ok b => .ok (encodeBase58h H b)

/-- `to_hex`, address.py:117-118. -/
def toHex (a : Address) : Except Err Text :=
  match a.toBytes with
  | .error e => .error e
  | .ok b => .ok (encodeHex b)

end Address
end Bitforge
