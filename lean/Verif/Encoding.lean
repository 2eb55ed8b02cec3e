import Verif.Py

/-! # `bitforge/encoding.py`, `bitforge/utils/encoding.py` (text/byte codecs), `bitforge/tools.py` (Buffer) -/

namespace Bitforge

/-- A byte from a number, keeping the low 8 bits (`x & 0xff`). -/
def byte (n : Nat) : Byte := Fin.ofNat 256 n

/-- The loop of `encode_int`, encoding.py:47-49, least significant byte first.
`fuel` bounds the iterations; `leDigits` gives it enough. -/
def leDigitsAux : Nat → Nat → Bytes
  | 0, _ => []
  | fuel + 1, n => if n = 0 then [] else byte (n % 256) :: leDigitsAux fuel (n / 256)

/-- encoding.py:45-49 (also utils/intbytes.py `int_to_bytes`). -/
def leDigits (n : Nat) : Bytes := leDigitsAux n n

/-- `encode_int`, encoding.py:41-58.  For a negative integer the `while integer > 0` loop runs zero times. -/
def encodeInt (integer : Int) (bigEndian : Bool := true) (length : Option Nat := none) : Bytes :=
  if integer = 0 then
    match length with
    | none => [0]
    | some l => List.replicate l 0
  else
    let data := leDigits integer.toNat
    let data := match length with
      | none => data
      | some l => (data ++ List.replicate l 0).take l
    if bigEndian then data.reverse else data

/-- `decode_int`, encoding.py:61-71. -/
def decodeInt (bytes : Bytes) (bigEndian : Bool := true) : Nat :=
  let bytes := if bigEndian then bytes else bytes.reverse
  bytes.foldl (fun integer char => integer * 256 + char.val) 0

/-- `encode_varint`, encoding.py:74-86. -/
def encodeVarint (integer : Int) : Bytes :=
  if integer < 253 then encodeInt integer
  else if integer ≤ 0xFFFF then 253 :: encodeInt integer (length := some 2) (bigEndian := false)
  else if integer ≤ 0xFFFFFFFF then 254 :: encodeInt integer (length := some 4) (bigEndian := false)
  else 255 :: encodeInt integer (length := some 8) (bigEndian := false)

/-! ## Hexadecimal -/

/-- Lower-case hex digit of a number below 16 (`binascii.hexlify`). -/
def hexDigit (n : Nat) : Char :=
  ['0','1','2','3','4','5','6','7','8','9','a','b','c','d','e','f'].getD n '0'

/-- `encode_hex`, encoding.py:107-108 (`binascii.hexlify`). The ASCII `str` result is modelled as text. -/
def encodeHex (bytes : Bytes) : Text :=
  bytes.flatMap fun b => [hexDigit (b.val / 16), hexDigit (b.val % 16)]

/-- Value of a hex digit of either case (`binascii.unhexlify`). -/
def hexValue (c : Char) : Option Nat :=
  if '0' ≤ c ∧ c ≤ '9' then some (c.toNat - '0'.toNat)
  else if 'a' ≤ c ∧ c ≤ 'f' then some (c.toNat - 'a'.toNat + 10)
  else if 'A' ≤ c ∧ c ≤ 'F' then some (c.toNat - 'A'.toNat + 10)
  else none

/-- `binascii.unhexlify` on ASCII text; `none` is its TypeError (odd length or bad digit). -/
def unhexlify : Text → Option Bytes
  | [] => some []
  | [_] => none
  | a :: b :: rest =>
    match hexValue a, hexValue b, unhexlify rest with
    | some h, some l, some bs => some (byte (h * 16 + l) :: bs)
    | _, _, _ => none

/-- Is every character ASCII? -/
def isAscii (s : Text) : Bool := s.all fun c => c.toNat < 128

/-- `decode_hex`, encoding.py:111-116.  Python 2's `unhexlify` first encodes `unicode` as ASCII, whose
UnicodeEncodeError is not caught by `except (TypeError, binascii.Error)`. -/
def decodeHex (string : Text) : Except Err Bytes :=
  if isAscii string then
    match unhexlify string with
    | some b => .ok b
    | none => .error .invalidHex
  else .error .unicodeEncodeError

/-! ## Base 58 -/

/-- `BASE58_ALPHABET`, utils/encoding.py:35. -/
def base58Alphabet : List Char := "123456789ABCDEFGHJKLMNPQRSTUVWXYZabcdefghijkmnopqrstuvwxyz".toList

/-- The loop of `to_long`, utils/encoding.py:70-80, from accumulated `(v, prefix)`; `none` is EncodingError. -/
def toLongLoop {α : Type} (base : Nat) (lookup : α → Option Nat) : List α → Nat × Nat → Option (Nat × Nat)
  | [], acc => some acc
  | c :: s, (v, prefix_) =>
    match lookup c with
    | none => none
    | some d =>
      let v := v * base + d
      toLongLoop base lookup s (v, if v = 0 then prefix_ + 1 else prefix_)

/-- `to_long`, utils/encoding.py:58-80. -/
def toLong {α : Type} (base : Nat) (lookup : α → Option Nat) (s : List α) : Option (Nat × Nat) :=
  toLongLoop base lookup s (0, 0)

/-- The loop of `from_long`, utils/encoding.py:92-95, least significant digit first.
`charset` never fails for `mod < base`, so its EncodingError branch is unreachable. -/
def fromLongLoop {α : Type} (base : Nat) (charset : Nat → α) : Nat → Nat → List α
  | 0, _ => []
  | fuel + 1, v => if v = 0 then [] else charset (v % base) :: fromLongLoop base charset fuel (v / base)

/-- `from_long`, utils/encoding.py:83-100. -/
def fromLong {α : Type} (v prefix_ base : Nat) (charset : Nat → α) : List α :=
  (fromLongLoop base charset v v ++ List.replicate prefix_ (charset 0)).reverse

/-- `lambda v: BASE58_ALPHABET[v]`, utils/encoding.py:135. -/
def base58Char (v : Nat) : Char := base58Alphabet.getD v '1'

/-- `lambda c: BASE58_LOOKUP[c]`, utils/encoding.py:141 (`none` is the KeyError). -/
def base58Lookup (c : Char) : Option Nat := base58Alphabet.idxOf? c

/-- `b2a_base58`, utils/encoding.py:132-136, for a Python 2 `str` (`byte_to_int = ord`). -/
def b2aBase58 (s : Bytes) : Text :=
  match toLong 256 (fun b : Byte => some b.val) s with
  | some (v, p) => fromLong v p 58 base58Char
  | none => []   -- unreachable: every byte has a value

/-- `a2b_base58`, utils/encoding.py:139-142.  If the text has a non-ASCII character some lookup fails, and
formatting the error message with the UTF-8 `str` raises UnicodeDecodeError (utils/encoding.py:77). -/
def a2bBase58 (s : Text) : Except Err Bytes :=
  if isAscii s then
    match toLong 58 base58Lookup s with
    | some (v, p) => .ok (fromLong v p 256 byte)
    | none => .error .encodingError
  else .error .unicodeDecodeError

/-- `double_sha256`, utils/encoding.py:122-124. -/
def doubleSha256 (H : Hashes) (data : Bytes) : Bytes := H.sha256 (H.sha256 data)

/-- `utils.encoding.hash160`, utils/encoding.py:127-129. -/
def utilsHash160 (H : Hashes) (data : Bytes) : Bytes := H.ripemd160 (H.sha256 data)

/-- `b2a_hashed_base58`, utils/encoding.py:145-153. -/
def b2aHashedBase58 (H : Hashes) (data : Bytes) : Text :=
  b2aBase58 (data ++ (doubleSha256 H data).take 4)

/-- `data[:-4]`. -/
def dropLast4 (data : Bytes) : Bytes := data.take (data.length - 4)
/-- `data[-4:]`. -/
def last4 (data : Bytes) : Bytes := data.drop (data.length - 4)

/-- `a2b_hashed_base58`, utils/encoding.py:156-165. -/
def a2bHashedBase58 (H : Hashes) (s : Text) : Except Err Bytes :=
  match a2bBase58 s with
  | .error e => .error e
  | .ok data =>
    if (doubleSha256 H (dropLast4 data)).take 4 = last4 data then .ok (dropLast4 data)
    else .error .encodingError

/-- `encode_base58h`, encoding.py:29-30. -/
def encodeBase58h (H : Hashes) (bytes : Bytes) : Text := b2aHashedBase58 H bytes

/-- `decode_base58h`, encoding.py:33-38. Only utils' EncodingError is caught. -/
def decodeBase58h (H : Hashes) (string : Text) : Except Err Bytes :=
  match a2bHashedBase58 H string with
  | .ok b => .ok b
  | .error .encodingError => .error .invalidBase58h
  | .error e => .error e

/-- `is_hashed_base58_valid`, utils/encoding.py:168-174. -/
def isHashedBase58Valid (H : Hashes) (base58 : Text) : Except Err Bool :=
  match a2bHashedBase58 H base58 with
  | .ok _ => .ok true
  | .error .encodingError => .ok false
  | .error e => .error e

/-- `encoding.hash160`, encoding.py:131-132: `ripemd160` (encoding.py:127) already returns a digest,
and `str` has no attribute `digest`. -/
def hash160 (_H : Hashes) (_bytes : Bytes) : Except Err Bytes := .error .attributeError

/-- `to_bytes_32`, utils/encoding.py:103-107 (Python 2 version).  For a negative `v` the loop of
`from_long` runs zero times. -/
def toBytes32 (v : Int) : Except Err Bytes :=
  let b := fromLong v.toNat 0 256 byte
  if b.length > 32 then .error .valueError
  else
    let z := List.replicate 32 0 ++ b
    .ok (z.drop (z.length - 32))

/-- `from_bytes_32`, utils/encoding.py:113-116 (Python 2 version).  Iterating a `bytearray` gives `int`s, on
which `ord` fails; `to_long` turns that into EncodingError, or into UnicodeDecodeError when the message, a `unicode`,
cannot be formatted with the `bytearray` because a byte is not ASCII (utils/encoding.py:77). -/
def fromBytes32 (v : Data) : Except Err Nat :=
  if v.val.length ≠ 32 then .error .valueError
  else match v.kind with
    | .bytearray => .error (if v.val.all (·.val < 128) then .encodingError else .unicodeDecodeError)
    | .str =>
      match toLong 256 (fun b : Byte => some b.val) v.val with
      | some (v, _) => .ok v
      | none => .error .encodingError

/-! ## Script numbers -/

/-- `decode_script_number`, encoding.py:135-171.  On a non-empty `str`, `bytes[-1] & …` is a TypeError. -/
def decodeScriptNumber (bytes : Data) (requireMinimal : Bool := false) (size : Nat := 4) : Except Err Int :=
  let b := bytes.val
  if b.length ≥ size then .error .invalidScriptNumber
  else
    match b.reverse with
    | [] => .ok 0
    | last :: rest =>
      match bytes.kind with
      | .str => .error .typeError
      | .bytearray =>
        let notMinimal : Bool :=
          match rest with
          | [] => true
          | prev :: _ => prev.val &&& 0x80 == 0
        if requireMinimal && last.val &&& 0x7f == 0 && notMinimal then
          .error .invalidMinimalScriptNumber
        else if last.val &&& 0x80 ≠ 0 then
          .ok (-(decodeInt (rest.reverse ++ encodeInt ((last.val &&& 0x7f : Nat) : Int)) (bigEndian := false) : Nat))
        else .ok (decodeInt b (bigEndian := false) : Nat)

/-- `encode_script_number`, encoding.py:174-190.  The result is a `bytearray`. -/
def encodeScriptNumber (integer : Int) : Bytes :=
  if integer = 0 then []
  else if integer > 0 then
    let bytes := encodeInt integer (bigEndian := false)
    match bytes.reverse with
    | [] => []   -- unreachable: `integer > 0`
    | last :: _ => if last.val &&& 0x80 ≠ 0 then bytes ++ encodeInt 0x00 else bytes
  else
    let bytes := encodeInt (-integer) (bigEndian := false)
    match bytes.reverse with
    | [] => []   -- unreachable: `-integer > 0`
    | last :: rest =>
      if last.val &&& 0x80 ≠ 0 then bytes ++ encodeInt 0x80
      else rest.reverse ++ encodeInt ((last.val ||| 0x80 : Nat) : Int)

/-! ## Buffer -/

namespace Buffer

/-- `Buffer.read`, tools.py:19-25. -/
def read (amount : Nat) : Rd Bytes := fun s =>
  if s.length < amount then (.error (.insufficientData s.length amount), s)
  else (.ok (s.take amount), s.drop amount)

/-- `Buffer.read_varint`, tools.py:27-40. -/
def readVarint : Rd Nat :=
  Rd.bind (read 1) fun b =>
    let order := decodeInt b
    if order < 253 then Rd.pure order
    else if order = 253 then Rd.bind (read 2) fun b => Rd.pure (decodeInt b (bigEndian := false))
    else if order = 254 then Rd.bind (read 4) fun b => Rd.pure (decodeInt b (bigEndian := false))
    else Rd.bind (read 8) fun b => Rd.pure (decodeInt b (bigEndian := false))

/-- `Buffer.write`, tools.py:42-43. -/
def write (data : Bytes) (s : Bytes) : Bytes := s ++ data

end Buffer

end Bitforge
