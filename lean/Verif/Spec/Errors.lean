import Verif.Py

/-! # Which exceptions a caller has to expect

`errors.py` declares `BitforgeError`, from which the library derives the exceptions it raises on purpose. -/

namespace Bitforge.Spec

/-- The classes derived from `BitforgeError`. -/
def BitforgeError : Err → Prop
  | .invalidBase58h | .invalidHex | .invalidScriptNumber | .invalidMinimalScriptNumber => True
  | .insufficientData _ _ => True
  | .unknownNetwork => True
  | .privInvalidSecret | .privUnknownNetwork | .privInvalidWifLength | .privInvalidCompressionByte
  | .privInvalidBase58h | .privInvalidHex | .privInvalidBinaryLength => True
  | .pubInvalidPair | .pubUnknownNetwork | .pubInvalidBinary | .pubInvalidHex => True
  | .addrUnknownNetwork | .addrInvalidVersion | .addrInvalidBase58h | .addrInvalidHex
  | .addrInvalidHashLength | .addrInvalidBinaryLength | .addrInvalidType => True
  | .opUnknownName | .opUnknownNumber | .opInvalidPushLength | .opInvalidConstPushLength | .opWrongType => True
  | .insInvalidDataLength | .insUnexpectedData => True
  | .scrMissingPushArguments | .scrInvalidPushSize | .scrInvalidPushData | .scrInvalidPushDataLength
  | .scrUnknownOpcodeName => True
  | .txNoInputs | .txNotAnInput | .txNoOutputs | .txNotAnOutput | .txInvalidLockTime => True
  | .inUnknownSignatureMethod | .inInvalidSignatureCount | .outTooMuchData => True
  | _ => False

/-- The classes derived from `PrivateKey.Error`. -/
def PrivateKeyError : Err → Prop
  | .privInvalidSecret | .privUnknownNetwork | .privInvalidWifLength | .privInvalidCompressionByte
  | .privInvalidBase58h | .privInvalidHex | .privInvalidBinaryLength => True
  | _ => False

/-- The classes derived from `PublicKey.Error`. -/
def PublicKeyError : Err → Prop
  | .pubInvalidPair | .pubUnknownNetwork | .pubInvalidBinary | .pubInvalidHex => True
  | _ => False

/-- The classes derived from `Address.Error`. -/
def AddressError : Err → Prop
  | .addrUnknownNetwork | .addrInvalidVersion | .addrInvalidBase58h | .addrInvalidHex
  | .addrInvalidHashLength | .addrInvalidBinaryLength | .addrInvalidType => True
  | _ => False

/-- The classes derived from `Transaction.Error`. -/
def TransactionError : Err → Prop
  | .txNoInputs | .txNotAnInput | .txNoOutputs | .txNotAnOutput | .txInvalidLockTime => True
  | _ => False

/-- A call that returns, or raises an exception of the given kind. -/
def RaisesOnly {α : Type} (P : Err → Prop) (x : Except Err α) : Prop := ∀ e, x = .error e → P e

/-- A text of ASCII characters. -/
def Ascii (t : Text) : Prop := ∀ c ∈ t, c.toNat < 128

end Bitforge.Spec
