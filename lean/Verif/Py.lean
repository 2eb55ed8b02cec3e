/-!
# Conventions for modelling CPython 2.7

`Err` has one constructor per exception class raised by (or provoked in) the modelled code.
Exceptions are values: a Python function that may raise returns `Except Err α`.
-/

namespace Bitforge

/-- A byte, `0 ≤ b < 256`. -/
abbrev Byte := Fin 256
/-- A Python 2 `str` or `bytearray`, when the difference is irrelevant. -/
abbrev Bytes := List Byte
/-- A Python `unicode` string (also used for ASCII `str`). -/
abbrev Text := List Char

/-- Exception classes.  Class-private variants (`PrivateKey.InvalidHex`, …) are separate constructors. -/
inductive Err
  -- built-in exceptions
  | typeError | valueError | attributeError | assertionError | indexError | keyError | nameError
  | zeroDivisionError | runtimeError | overflowError
  | unicodeDecodeError          -- a subclass of ValueError
  | unicodeEncodeError          -- a subclass of ValueError
  | noSuchPointError            -- utils/ellipticcurve.py:37, a subclass of ValueError
  | diverges                    -- not an exception: the Python loop does not terminate
  -- the external `ecdsa` package
  | badDigestError | badSignatureError | rsZeroError | unexpectedDer
  -- bitforge/utils/encoding.py
  | encodingError
  -- bitforge/encoding.py
  | invalidBase58h | invalidHex | invalidScriptNumber | invalidMinimalScriptNumber
  -- bitforge/tools.py
  | insufficientData (remaining requested : Nat)
  -- bitforge/networks.py
  | unknownNetwork
  -- bitforge/privkey.py
  | privInvalidSecret | privUnknownNetwork | privInvalidWifLength | privInvalidCompressionByte
  | privInvalidBase58h | privInvalidHex | privInvalidBinaryLength
  -- bitforge/pubkey.py
  | pubInvalidPair | pubUnknownNetwork | pubInvalidBinary | pubInvalidHex
  -- bitforge/address.py
  | addrUnknownNetwork | addrInvalidVersion | addrInvalidBase58h | addrInvalidHex
  | addrInvalidHashLength | addrInvalidBinaryLength | addrInvalidType
  -- bitforge/script/opcode.py
  | opUnknownName | opUnknownNumber | opInvalidPushLength | opInvalidConstPushLength | opWrongType
  -- bitforge/script/instruction.py
  | insInvalidDataLength | insUnexpectedData
  -- bitforge/script/script.py
  | scrMissingPushArguments | scrInvalidPushSize | scrInvalidPushData | scrInvalidPushDataLength
  | scrUnknownOpcodeName
  -- bitforge/transaction
  | txNoInputs | txNotAnInput | txNoOutputs | txNotAnOutput | txInvalidLockTime
  | inUnknownSignatureMethod | inInvalidSignatureCount | outTooMuchData
  deriving DecidableEq, Repr

/-- Python 2 byte-string types.  They compare equal and concatenate freely, but indexing a `str`
gives a one-character `str` while indexing a `bytearray` gives an `int`. -/
inductive Kind | str | bytearray
  deriving DecidableEq, Repr

/-- A byte string together with its Python type. -/
structure Data where
  kind : Kind
  val : Bytes
  deriving DecidableEq, Repr

/-- Hash functions (`hashlib`, `hmac`), as a parameter of the model.  Only output lengths are known. -/
structure Hashes where
  sha256 : Bytes → Bytes
  sha1 : Bytes → Bytes
  ripemd160 : Bytes → Bytes
  hmacSha256 : Bytes → Bytes → Bytes
  hmacSha512 : Bytes → Bytes → Bytes
  sha256_length : ∀ b, (sha256 b).length = 32
  sha1_length : ∀ b, (sha1 b).length = 20
  ripemd160_length : ∀ b, (ripemd160 b).length = 20
  hmacSha256_length : ∀ k b, (hmacSha256 k b).length = 32
  hmacSha512_length : ∀ k b, (hmacSha512 k b).length = 64

/-- A toy family of hash functions (pad or truncate the message), used only in `example`s. -/
def Hashes.toy : Hashes where
  sha256 b := (b ++ List.replicate 32 7).take 32
  sha1 b := (b ++ List.replicate 20 5).take 20
  ripemd160 b := (b ++ List.replicate 20 3).take 20
  hmacSha256 k b := (k ++ b ++ List.replicate 32 1).take 32
  hmacSha512 k b := (k ++ b ++ List.replicate 64 1).take 64
  sha256_length b := by simp
  sha1_length b := by simp
  ripemd160_length b := by simp
  hmacSha256_length k b := by simp; omega
  hmacSha512_length k b := by simp; omega

/-- A stateful reader of a `Buffer`: the remaining bytes are threaded through and kept on failure,
because Python's in-place `del self[:amount]` is visible after an exception. -/
def Rd (α : Type) := Bytes → Except Err α × Bytes

namespace Rd
def pure {α : Type} (a : α) : Rd α := fun s => (.ok a, s)
def bind {α β : Type} (m : Rd α) (f : α → Rd β) : Rd β := fun s =>
  match m s with
  | (.ok a, s') => f a s'
  | (.error e, s') => (.error e, s')
/-- Run a computation that does not touch the buffer. -/
def lift {α : Type} (x : Except Err α) : Rd α := fun s => (x, s)
instance : Monad Rd where
  pure := Rd.pure
  bind := Rd.bind
end Rd

end Bitforge
