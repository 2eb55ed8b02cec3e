import Verif.PubKey

/-! # `bitforge/hdprivkey.py`, `bitforge/hdpubkey.py` -/

namespace Bitforge

/-- `unicode + str`: the `str` is decoded as ASCII, and the result is a `unicode`.  Used for the sums that
start with a `unicode` literal (both modules import `unicode_literals`). -/
def asciiSum (parts : List Bytes) : Except Err Bytes :=
  if parts.all (fun part => part.all fun b => b.val < 128) then .ok parts.flatten
  else .error .unicodeDecodeError

/-- `b2a_hashed_base58`, utils/encoding.py:145-153, applied to an all-ASCII `unicode`: adding the checksum (a
`str`) decodes it as ASCII. -/
def b2aHashedBase58Unicode (H : Hashes) (data : Bytes) : Except Err Text :=
  match asciiSum [data, (doubleSha256 H data).take 4] with
  | .error e => .error e
  | .ok _ => .ok (b2aHashedBase58 H data)

/-- `HARDENED_START`, hdprivkey.py:17, hdpubkey.py:10. -/
def hardenedStart : Int := 0x80000000

/-- `int_from_bytes(calculate_fingerprint(pubkey))`, hdprivkey.py:20-21 and 31, hdpubkey.py:13-14 and 23. -/
def fingerprintOf (H : Hashes) (pubkey : PublicKey) : Except Err Nat :=
  match pubkey.toBytes with
  | .error e => .error e
  | .ok bytes => .ok (intFromBytes ((utilsHash160 H bytes).take 4))

/-- `data[a:b]`. -/
def cut (data : Bytes) (a b : Nat) : Bytes := (data.take b).drop a

/-- `HDPublicKey`, hdpubkey.py:16-20.  The chain code is a `str`. -/
structure HDPublicKey where
  pubkey : PublicKey
  chain : Bytes
  depth : Int
  index : Int
  parent : Nat
  network : Network
  fingerprint : Nat
  deriving DecidableEq, Repr

/-- `HDPrivateKey`, hdprivkey.py:24-26. -/
structure HDPrivateKey where
  privkey : PrivateKey
  chain : Bytes
  depth : Int
  index : Int
  parent : Nat
  network : Network
  fingerprint : Nat
  deriving DecidableEq, Repr

namespace HDPublicKey

/-- `HDPublicKey.__new__`, hdpubkey.py:21-25. -/
def new (H : Hashes) (pubkey : PublicKey) (chain : Bytes) (depth : Int := 0) (index : Int := 0)
    (parent : Nat := 0) (network : Network := .livenet) : Except Err HDPublicKey :=
  match fingerprintOf H pubkey with
  | .error e => .error e
  | .ok fingerprint => .ok ⟨pubkey, chain, depth, index, parent, network, fingerprint⟩

/-- hdpubkey.py:32-42: `from_string` after the Base58Check decoding.  The slice bounds are those of lines
96-120. -/
def fromData (H : Hashes) (data : Bytes) : Except Err HDPublicKey :=
  let chain := cut data 13 45
  let depth := intFromBytes (cut data 4 5)
  let index := intFromBytes (cut data 9 13)
  let parent := intFromBytes (cut data 5 9)
  let version := intFromBytes (cut data 0 4)
  match Network.find (.int version) "hd_public_key" with
  | .error e => .error e
  | .ok network =>
    match PublicKey.fromBytes ⟨.str, cut data 45 78⟩ (.network network) with
    | .error e => .error e
    | .ok pubkey => new H pubkey chain depth index parent network

/-- `HDPublicKey.from_string`, hdpubkey.py:28-42. -/
def fromString (H : Hashes) (b58 : Text) : Except Err HDPublicKey :=
  match a2bHashedBase58 H b58 with
  | .error e => .error e
  | .ok data => fromData H data

/-- `from_hd_private_key`, hdpubkey.py:45-49. -/
def fromHdPrivateKey (H : Hashes) (k : HDPrivateKey) : Except Err HDPublicKey :=
  match k.privkey.toPublicKey with
  | .error e => .error e
  | .ok pubkey => new H pubkey k.chain k.depth k.index k.parent k.network

/-- `to_string`, hdpubkey.py:51-62. -/
def toString (H : Hashes) (k : HDPublicKey) : Except Err Text :=
  let head := [intToBytes k.network.hdPublicKey 4, intToBytes k.depth 1, intToBytes k.parent 4,
    intToBytes k.index 4, k.chain]
  match asciiSum head with
  | .error e => .error e
  | .ok _ =>
    match k.pubkey.toBytes with
    | .error e => .error e
    | .ok keyBytes =>
      match asciiSum (head ++ [keyBytes]) with
      | .error e => .error e
      | .ok bytes => b2aHashedBase58Unicode H bytes

/-- `derive`, hdpubkey.py:65-91. -/
def derive (H : Hashes) (k : HDPublicKey) (index : Int) (hardened : Bool := false) :
    Except Err HDPublicKey := do
  let index := if index < hardenedStart ∧ hardened then index + hardenedStart else index
  if hardened then .error .valueError
  else
    let key ← k.pubkey.toBytes
    let signed64 := H.hmacSha512 k.chain (key ++ intToBytes k.index 4)
    let left ← Point.mul secp secpG (intFromBytes (signed64.take 32) : Nat)
    let own ← Point.make secp k.pubkey.pair.1 k.pubkey.pair.2 (some secpN)
    let point ← Point.add secp left own
    match point.pair with
    | none => .error .typeError      -- the pair (None, None) fails in `contains_point`
    | some pair =>
      let pubkey ← PublicKey.new pair (.network k.network)
      new H pubkey (signed64.drop 32) (k.depth + 1) index k.fingerprint k.network

/-- `to_public_key`, hdpubkey.py:92-93. -/
def toPublicKey (k : HDPublicKey) : PublicKey := k.pubkey

end HDPublicKey

namespace HDPrivateKey

/-- `HDPrivateKey.__new__`, hdprivkey.py:29-33. -/
def new (H : Hashes) (privkey : PrivateKey) (chain : Bytes) (depth : Int := 0) (index : Int := 0)
    (parent : Nat := 0) (network : Network := .livenet) : Except Err HDPrivateKey :=
  match privkey.toPublicKey with
  | .error e => .error e
  | .ok pubkey =>
    match fingerprintOf H pubkey with
    | .error e => .error e
    | .ok fingerprint => .ok ⟨privkey, chain, depth, index, parent, network, fingerprint⟩

/-- `HMAC_MAGIC_KEY`, hdprivkey.py:15: `b'Bitcoin seed'`. -/
def hmacMagicKey : Bytes := [0x42, 0x69, 0x74, 0x63, 0x6f, 0x69, 0x6e, 0x20, 0x73, 0x65, 0x65, 0x64]

/-- `from_seed`, hdprivkey.py:36-45, for a given seed (`None` draws 32 random bytes first). -/
def fromSeed (H : Hashes) (seed : Bytes) : Except Err HDPrivateKey :=
  if seed.length < 32 then .error .valueError
  else
    let signed64 := H.hmacSha512 hmacMagicKey seed
    match PrivateKey.fromBytes (signed64.take 32) with
    | .error e => .error e
    | .ok privkey => new H privkey (signed64.drop 32)

/-- hdprivkey.py:52-62: `from_string` after the Base58Check decoding.  The slice bounds are those of lines
114-138. -/
def fromData (H : Hashes) (data : Bytes) : Except Err HDPrivateKey :=
  let chain := cut data 13 45
  let depth := intFromBytes (cut data 4 5)
  let index := intFromBytes (cut data 9 13)
  let parent := intFromBytes (cut data 5 9)
  let version := intFromBytes (cut data 0 4)
  match Network.find (.int version) "hd_private_key" with
  | .error e => .error e
  | .ok network =>
    match PrivateKey.fromBytes (cut data 46 78) (.network network) with
    | .error e => .error e
    | .ok privkey => new H privkey chain depth index parent network

/-- `HDPrivateKey.from_string`, hdprivkey.py:49-62. -/
def fromString (H : Hashes) (b58 : Text) : Except Err HDPrivateKey :=
  match a2bHashedBase58 H b58 with
  | .error e => .error e
  | .ok data => fromData H data

/-- `to_string`, hdprivkey.py:65-77. -/
def toString (H : Hashes) (k : HDPrivateKey) : Except Err Text :=
  match asciiSum [intToBytes k.network.hdPrivateKey 4, intToBytes k.depth 1, intToBytes k.parent 4,
      intToBytes k.index 4, k.chain, [0], k.privkey.toBytes] with
  | .error e => .error e
  | .ok bytes => b2aHashedBase58Unicode H bytes

/-- `derive`, hdprivkey.py:80-102.  A `PrivateKey` has no attribute `seed` (line 97). -/
def derive (k : HDPrivateKey) (_index : Int) (hardened : Bool := false) : Except Err HDPrivateKey := do
  let _message ←
    if hardened then asciiSum [[0], k.privkey.toBytes, intToBytes k.index 4]
    else do
      let pubkey ← k.privkey.toPublicKey
      let key ← pubkey.toBytes
      .ok (key ++ intToBytes k.index 4)
  .error .attributeError

/-- `to_hd_public_key`, hdprivkey.py:104-105. -/
def toHdPublicKey (H : Hashes) (k : HDPrivateKey) : Except Err HDPublicKey := HDPublicKey.fromHdPrivateKey H k

/-- `to_private_key`, hdprivkey.py:107-108. -/
def toPrivateKey (k : HDPrivateKey) : PrivateKey := k.privkey

/-- `to_public_key`, hdprivkey.py:110-111. -/
def toPublicKey (k : HDPrivateKey) : Except Err PublicKey := k.toPrivateKey.toPublicKey

end HDPrivateKey
end Bitforge
