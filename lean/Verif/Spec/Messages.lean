import Verif.Spec.Names
import Verif.Spec.Errors
import Verif.Message

/-! # Specification of error messages

The literals of Python 2 as `repr` writes them, and the sentence for every exception. -/

namespace Bitforge.Spec

/-- The escapes of one letter, in the quotes `q`. -/
def escapes (q : Char) : List (Char × Nat) := [('\\', 92), (q, q.toNat), ('n', 10), ('r', 13), ('t', 9)]

/-- The value of a hexadecimal digit. -/
def HexValue (c : Char) (n : Nat) : Prop := ∃ i < 16, c = "0123456789abcdef".toList.getD i ' ' ∧ n = i

/-- The value of hexadecimal digits, the first one being the most significant. -/
def HexNumber (t : Text) (n : Nat) : Prop := ∃ ds, List.Forall₂ HexValue t ds ∧ n = hornerValue 16 ds

/-- The escapes with hexadecimal digits: the letter, and how many digits there are, by the first character that needs as
many. -/
def hexEscape (n : Nat) : Char × Nat := if n < 0x100 then ('x', 2) else if n < 0x10000 then ('u', 4) else ('U', 8)

/-- What is between the quotes `q` of a literal, and the characters it stands for: characters that can be printed are
themselves; of the others those that have a letter are written with it. -/
inductive Body (uni : Bool) (q : Char) : Text → List Nat → Prop
  | nil : Body uni q [] []
  | char {c t v} : c ≠ q → c ≠ '\\' → 32 ≤ c.toNat → c.toNat < 127 → Body uni q t v → Body uni q (c :: t) (c.toNat :: v)
  | letter {e n t v} : (e, n) ∈ escapes q → Body uni q t v → Body uni q ('\\' :: e :: t) (n :: v)
  | hex {k len ds n t v} : n < 32 ∨ 127 ≤ n → n ∉ [9, 10, 13] → (0x100 ≤ n → uni = true) → hexEscape n = (k, len) →
      ds.length = len → HexNumber ds n → Body uni q t v → Body uni q ('\\' :: k :: (ds ++ t)) (n :: v)

/-- The quotes are double if there are single ones inside and no double ones. -/
def Quotes (q : Char) (v : List Nat) : Prop := q = '"' ∧ 39 ∈ v ∧ 34 ∉ v ∨ q = '\'' ∧ ¬ (39 ∈ v ∧ 34 ∉ v)

/-- A literal and its value. -/
inductive IsLiteral : Text → StrValue → Prop
  | str {q t b} : Quotes q (b.map Fin.val) → Body false q t (b.map Fin.val) → IsLiteral (q :: (t ++ [q])) (.str b)
  | bytearray {q t b} : Quotes q (b.map Fin.val) → Body false q t (b.map Fin.val) →
      IsLiteral ("bytearray(b".toList ++ q :: (t ++ [q, ')'])) (.bytearray b)
  | unicode {q t u} : Quotes q (u.map Char.toNat) → Body true q t (u.map Char.toNat) →
      IsLiteral ('u' :: q :: (t ++ [q])) (.unicode u)

/-- An integer in decimal digits. -/
def Integer (t : Text) (n : Int) : Prop :=
  (0 ≤ n ∧ Decimal t n.toNat) ∨ (n < 0 ∧ ∃ m, t = '-' :: m ∧ Decimal m n.natAbs)

/-- Part of a sentence: words, or a field that is filled in. -/
inductive Part
  | say (words : String)
  | field (name : String)

/-- The sentences. -/
def sentence : Err → List Part
  | .invalidBase58h => [.say "The string ", .field "string", .say " is not valid base58/check"]
  | .invalidHex => [.say "The string ", .field "string", .say " is not valid hexadecimal"]
  | .invalidScriptNumber => [.say "The script number ", .field "string", .say " is too long"]
  | .invalidMinimalScriptNumber => [.say "The script number ", .field "string", .say " is not minimally encoded"]
  | .insufficientData _ _ =>
    [.say "Attempted to read ", .field "requested", .say " bytes, but buffer only has ", .field "remaining"]
  | .unknownNetwork => [.say "No network with an attribute '", .field "key", .say "' of value ", .field "value"]
  | .privInvalidSecret => [.say "Invalid secret for PrivateKey: ", .field "number"]
  | .privUnknownNetwork =>
    [.say "No network for PrivateKey with an attribute '", .field "key", .say "' of value ", .field "value"]
  | .privInvalidWifLength => [.say "The PrivateKey WIF ", .field "string",
      .say " should be 33 (uncompressed) or 34 (compressed) bytes long, not ", .field "length"]
  | .privInvalidCompressionByte => [.say "The length of the PrivateKey WIF ", .field "string",
      .say " suggests it's compressed, but it doesn't end in '\\1'"]
  | .privInvalidBase58h => [.say "The PrivateKey string ", .field "string", .say " is not valid base58/check"]
  | .privInvalidHex => [.say "The PrivateKey string ", .field "string", .say " is not valid hexadecimal"]
  | .privInvalidBinaryLength =>
    [.say "The PrivateKey's binary secret ", .field "string", .say " should be 32 bytes long, not ", .field "length"]
  | .pubInvalidPair => [.say "The PublicKey pair ", .field "object", .say " is invalid (not a point of the curve)"]
  | .pubUnknownNetwork =>
    [.say "No network for PublicKey with an attribute '", .field "key", .say "' of value ", .field "value"]
  | .pubInvalidBinary => [.say "The buffer ", .field "string", .say " is not in any recognized format"]
  | .pubInvalidHex => [.say "The PublicKey string ", .field "string", .say " is not valid hexadecimal"]
  | .addrUnknownNetwork =>
    [.say "No network for Address with an attribute '", .field "key", .say "' of value ", .field "value"]
  | .addrInvalidVersion =>
    [.say "Failed to detect Address type and network from version number ", .field "number"]
  | .addrInvalidBase58h => [.say "The Address string ", .field "string", .say " is not valid base58/check"]
  | .addrInvalidHex => [.say "The Address string ", .field "string", .say " is not valid hexadecimal"]
  | .addrInvalidHashLength =>
    [.say "The address hash ", .field "string", .say " should be 20 bytes long, not ", .field "length"]
  | .addrInvalidBinaryLength =>
    [.say "The binary address ", .field "string", .say " should be 21 bytes long, not ", .field "length"]
  | .addrInvalidType => [.say "Address type ", .field "object", .say " is not an instance of Address.Type"]
  | .opUnknownName => [.say "No known operation named ", .field "string"]
  | .opUnknownNumber => [.say "No known operation numbered ", .field "number"]
  | .opInvalidConstPushLength =>
    [.say "No constant push opcode can push ", .field "number", .say " bytes (only [1-75])"]
  | .opInvalidPushLength => [.say "No Opcode can push ", .field "number", .say " bytes"]
  | .opWrongType => [.say "Opcode ", .field "object.name", .say " does not support this operation"]
  | .insUnexpectedData =>
    [.say "Instruction got data with opcode ", .field "object", .say ", which does not push data"]
  | .insInvalidDataLength => [.say "Opcode ", .field "opcode", .say " can't push ", .field "data_length",
      .say " bytes (max/exactly ", .field "data_length_max", .say ")"]
  | .scrMissingPushArguments => [.say "Missing arguments for ", .field "string", .say " operation"]
  | .scrInvalidPushSize => [.say "Push size must be a number, got ", .field "string"]
  | .scrInvalidPushData => [.say "Push data must be hex encoded and start with 0x, got ", .field "string"]
  | .scrInvalidPushDataLength => [.say "Push data length doesn't match push size, got ", .field "number"]
  | .scrUnknownOpcodeName => [.say "No known operation named ", .field "string"]
  | .txNoInputs => [.say "No Inputs were given to create this Transaction"]
  | .txNoOutputs => [.say "No Outputs were given to create this Transaction"]
  | .txNotAnInput => [.say "Transaction expected instances of Input, got ", .field "object", .say " instead"]
  | .txNotAnOutput => [.say "Transaction expected instances of Input, got ", .field "object", .say " instead"]
  | .txInvalidLockTime =>
    [.say "Transaction lock_time must be between 0 and 4294967295 (2^32 - 1), not ", .field "number"]
  | .inUnknownSignatureMethod => [.say ("This abstract Input doesn't know how to sign itself. You should use an " ++
      "Input subclass, such as AddressInput")]
  | .inInvalidSignatureCount =>
    [.say "This Input requires ", .field "required", .say " keys to sign, but ", .field "provided",
      .say " were provided"]
  | .outTooMuchData =>
    [.say "DataOutputs can carry at most 80 bytes, but ", .field "number", .say " were passed in"]
  | _ => []

/-- What an exception is about: for each field the texts that show it. -/
abbrev About := String → Text → Prop

/-- A byte string or a text. -/
def aboutString (v : StrValue) : About := fun f t => f = "string" ∧ IsLiteral t v ∨ f = "length" ∧ Decimal t v.length

/-- An integer. -/
def aboutNumber (n : Int) : About := fun f t => f = "number" ∧ Integer t n

/-- An attribute and a value that no network has. -/
def aboutValue (key : String) (v : NetValue) : About := fun f t => f = "key" ∧ t = key.toList ∨ f = "value" ∧
  match v with
  | .network _ => False
  | .int n => Integer t n
  | .text s => t = s
  | .list l => ∃ ls, List.Forall₂ (fun x s => IsLiteral x (.unicode s)) ls l ∧ t = '[' :: (", ".toList.intercalate ls ++ [']'])

/-- An object, by its text. -/
def aboutObject (text : Text) : About := fun f t => f = "object" ∧ t = text

/-- An opcode: a name, or the number of bytes it pushes. -/
def ShowsOpcode (o : Opcode) (t : Text) : Prop :=
  ∃ d, Decimal d o.number.val ∧ ((1 ≤ o.number.val ∧ o.number.val ≤ 75 ∧ t = "<Opcode PUSH ".toList ++ d ++ " BYTES>".toList) ∨
    ∃ name, NameOf name o.number ∧ t = "<Opcode ".toList ++ d ++ ": ".toList ++ name ++ ">".toList)

/-- An opcode in an error about an instruction. -/
def aboutOpcode (o : Opcode) : About := fun f t => f = "object" ∧ ShowsOpcode o t

/-- An opcode by its name; one that pushes 1 to 75 bytes has a name that says so. -/
def aboutName (o : Opcode) : About := fun f t => f = "object.name" ∧
  ((1 ≤ o.number.val ∧ o.number.val ≤ 75 ∧ ∃ d, Decimal d o.number.val ∧ t = "_PUSH_".toList ++ d ++ "_BYTES".toList) ∨
    NameOf t o.number)

/-- Data of a length that the opcode does not take. -/
def aboutPush (o : Opcode) (length max : Nat) : About := fun f t => f = "opcode" ∧ ShowsOpcode o t ∨
  f = "data_length" ∧ Decimal t length ∨ f = "data_length_max" ∧ Decimal t max

/-- A buffer that is too short. -/
def aboutRead (remaining requested : Nat) : About := fun f t =>
  f = "remaining" ∧ Decimal t remaining ∨ f = "requested" ∧ Decimal t requested

/-- A wrong number of keys. -/
def aboutCount (required provided : Nat) : About := fun f t =>
  f = "required" ∧ Decimal t required ∨ f = "provided" ∧ Decimal t provided

/-- Nothing in particular. -/
def aboutNothing : About := fun _ _ => False

/-- The sentence with its fields filled in. -/
def Reads (about : About) : List Part → Text → Prop
  | [], t => t = []
  | .say w :: ps, t => ∃ u, t = w.toList ++ u ∧ Reads about ps u
  | .field f :: ps, t => ∃ x u, about f x ∧ t = x ++ u ∧ Reads about ps u

/-- The exception has a message, which is the sentence of its class. -/
def Tells (x : Exc) (e : Err) (about : About) : Prop := x.cls = e ∧ ∃ m, x.message = some m ∧ Reads about (sentence e) m

/-- An exception that is not of this library. -/
def Foreign (x : Exc) : Prop := ¬ BitforgeError x.cls ∧ x.message = none

/-- A call that raises the same classes of exceptions as another and that tells what went wrong. -/
def Explains {α : Type} (quiet : Except Err α) (tells : Exc → Prop) (call : Except Exc α) : Prop :=
  call.mapError Exc.cls = quiet ∧ ∀ x, call = .error x → tells x

end Bitforge.Spec
