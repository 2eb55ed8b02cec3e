import Verif.PubKey

/-! # `bitforge/utils/encoding.py`, the functions that the rest of the library does not use -/

namespace Bitforge
namespace Utils

/-- `wif_to_tuple_of_prefix_secret_exponent_compressed`, utils/encoding.py:177-184.  The decoded text is a `str`. -/
def wifToPrefixSecretCompressed (H : Hashes) (wif : Text) : Except Err (Bytes × Nat × Bool) :=
  match a2bHashedBase58 H wif with
  | .error e => .error e
  | .ok decoded =>
    let privateKey := decoded.drop 1
    match fromBytes32 ⟨.str, privateKey.take 32⟩ with
    | .error e => .error e
    | .ok secret => .ok (decoded.take 1, secret, decide (privateKey.length > 32))

/-- `wif_to_tuple_of_secret_exponent_compressed`, utils/encoding.py:187-197. -/
def wifToSecretCompressed (H : Hashes) (wif : Text) (allowable : List Bytes := [[0x80]]) : Except Err (Nat × Bool) :=
  match wifToPrefixSecretCompressed H wif with
  | .error e => .error e
  | .ok (actualPrefix, secret, compressed) =>
    if actualPrefix ∉ allowable then .error .encodingError else .ok (secret, compressed)

/-- `wif_to_secret_exponent`, utils/encoding.py:200-202. -/
def wifToSecretExponent (H : Hashes) (wif : Text) (allowable : List Bytes := [[0x80]]) : Except Err Nat :=
  match wifToSecretCompressed H wif allowable with
  | .error e => .error e
  | .ok p => .ok p.1

/-- `is_valid_wif`, utils/encoding.py:205-211.  Only EncodingError is caught. -/
def isValidWif (H : Hashes) (wif : Text) (allowable : List Bytes := [[0x80]]) : Except Err Bool :=
  match wifToSecretExponent H wif allowable with
  | .ok _ => .ok true
  | .error .encodingError => .ok false
  | .error e => .error e

/-- `secret_exponent_to_wif`, utils/encoding.py:214-219. -/
def secretExponentToWif (H : Hashes) (secretExp : Int) (compressed : Bool := true) (wifPrefix : Bytes := [0x80]) :
    Except Err Text :=
  match toBytes32 secretExp with
  | .error e => .error e
  | .ok b =>
    let d := wifPrefix ++ b
    .ok (b2aHashedBase58 H (if compressed then d ++ [1] else d))

/-- `public_pair_to_hash160_sec`, utils/encoding.py:257-261. -/
def publicPairToHash160Sec (H : Hashes) (pair : Int × Int) (compressed : Bool := true) : Except Err Bytes :=
  match publicPairToSec pair compressed with
  | .error e => .error e
  | .ok sec => .ok (utilsHash160 H sec)

/-- `hash160_sec_to_bitcoin_address`, utils/encoding.py:264-266. -/
def hash160SecToBitcoinAddress (H : Hashes) (hash160Sec : Bytes) (addressPrefix : Bytes := [0]) : Text :=
  b2aHashedBase58 H (addressPrefix ++ hash160Sec)

/-- `bitcoin_address_to_hash160_sec_with_prefix`, utils/encoding.py:269-280.  The message of the last exception, a
`unicode`, is formatted with the first byte, a `str`: UnicodeDecodeError if that is not ASCII. -/
def bitcoinAddressToHash160SecWithPrefix (H : Hashes) (bitcoinAddress : Text) : Except Err (Bytes × Bytes) :=
  match a2bHashedBase58 H bitcoinAddress with
  | .error e => .error e
  | .ok blob =>
    if blob.length ≠ 21 then .error .encodingError
    else if blob.take 1 ∉ [[0x6f], [0]] then
      .error (if (blob.headD 0).val < 128 then .encodingError else .unicodeDecodeError)
    else .ok (blob.drop 1, blob.take 1)

/-- `bitcoin_address_to_hash160_sec`, utils/encoding.py:283-289. -/
def bitcoinAddressToHash160Sec (H : Hashes) (bitcoinAddress : Text) (addressPrefix : Bytes := [0]) : Except Err Bytes :=
  match bitcoinAddressToHash160SecWithPrefix H bitcoinAddress with
  | .error e => .error e
  | .ok (hash160, actualPrefix) => if addressPrefix = actualPrefix then .ok hash160 else .error .encodingError

/-- `public_pair_to_bitcoin_address`, utils/encoding.py:292-295. -/
def publicPairToBitcoinAddress (H : Hashes) (pair : Int × Int) (compressed : Bool := true) (addressPrefix : Bytes := [0]) :
    Except Err Text :=
  match publicPairToHash160Sec H pair compressed with
  | .error e => .error e
  | .ok h => .ok (hash160SecToBitcoinAddress H h addressPrefix)

/-- `is_valid_bitcoin_address`, utils/encoding.py:298-304.  `in` of two `str` looks for a substring. -/
def isValidBitcoinAddress (H : Hashes) (bitcoinAddress : Text) (allowablePrefixes : Bytes := [0]) : Except Err Bool :=
  match bitcoinAddressToHash160SecWithPrefix H bitcoinAddress with
  | .error .encodingError => .ok false
  | .error e => .error e
  | .ok (_, prefix_) => .ok (decide (prefix_ <:+: allowablePrefixes))

end Utils
end Bitforge
