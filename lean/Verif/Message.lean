import Verif.Repr
import Verif.Transaction

/-! # `bitforge/errors.py`: the messages of exceptions

The functions below are those of the other files, with the text of the exception that they raise.  Exceptions of the
runtime have no modelled text.  The runtime is a build of CPython 2.7 with wide characters (UCS-4). -/

namespace Bitforge

/-- A byte string or a text, as passed to a `StringError`. -/
inductive StrValue
  | str (b : Bytes)
  | bytearray (b : Bytes)
  | unicode (t : Text)
  deriving DecidableEq, Repr

/-- The value of a byte string with its type. -/
def Data.value (d : Data) : StrValue := match d.kind with
  | .str => .str d.val
  | .bytearray => .bytearray d.val

namespace StrValue

/-- The quotes that `repr` of CPython 2.7 chooses: double ones if there are only single ones inside. -/
def quote (codes : List Nat) : Char := if 39 ∈ codes ∧ 34 ∉ codes then '"' else '\''

/-- `n` hexadecimal digits of `code`. -/
def hexCode : Nat → Nat → Text
  | 0, _ => []
  | n + 1, code => hexCode n (code / 16) ++ [hexDigit (code % 16)]

/-- One character in `repr` of CPython 2.7 (`string_repr`, `bytearray_repr`, `unicodeescape_string`).  The elements of
byte strings are below 256. -/
def escape (quote : Char) (code : Nat) : Text :=
  if code = quote.toNat ∨ code = 92 then ['\\', Char.ofNat code]
  else if 0x10000 ≤ code then '\\' :: 'U' :: hexCode 8 code
  else if 256 ≤ code then '\\' :: 'u' :: hexCode 4 code
  else if code = 9 then ['\\', 't']
  else if code = 10 then ['\\', 'n']
  else if code = 13 then ['\\', 'r']
  else if code < 32 ∨ 127 ≤ code then '\\' :: 'x' :: hexCode 2 code
  else [Char.ofNat code]

/-- A quoted string. -/
def quoted (codes : List Nat) : Text :=
  quote codes :: ((codes.map (escape (quote codes))).flatten ++ [quote codes])

/-- `repr` of CPython 2.7. -/
def repr : StrValue → Text
  | .str b => quoted (b.map Fin.val)
  | .bytearray b => "bytearray(b".toList ++ quoted (b.map Fin.val) ++ [')']
  | .unicode t => 'u' :: quoted (t.map Char.toNat)

/-- `len`. -/
def length : StrValue → Nat
  | .str b => b.length
  | .bytearray b => b.length
  | .unicode t => t.length

end StrValue

/-- `template.format(**fields)` for templates with plain `{name}` fields; in the field whose name is being read the
characters are in reverse.  A field that is missing is a KeyError. -/
def formatFields (fields : List (String × Text)) : Option Text → Text → Except Err Text
  | none, [] => .ok []
  | some _, [] => .error .valueError
  | none, c :: t =>
    if c = '{' then formatFields fields (some []) t
    else if c = '}' then .error .valueError
    else (formatFields fields none t).map (c :: ·)
  | some name, c :: t =>
    if c = '}' then
      match fields.find? fun f => f.1.toList = name.reverse with
      | none => .error .keyError
      | some f => (formatFields fields none t).map (f.2 ++ ·)
    else formatFields fields (some (c :: name)) t

/-- The documentation strings of the exception classes, which are the templates of their messages: encoding.py:9-26,
tools.py:12-13, networks.py:7-8, privkey.py:36-55, pubkey.py:27-37, address.py:23-42, opcode.py:163-179,
instruction.py:21-25, script.py:24-37, transaction.py:21-34, input.py:24-28, output.py:103-104. -/
def Err.doc : Err → String
  | .invalidBase58h => "The string {string} is not valid base58/check"
  | .invalidHex => "The string {string} is not valid hexadecimal"
  | .invalidScriptNumber => "The script number {string} is too long"
  | .invalidMinimalScriptNumber => "The script number {string} is not minimally encoded"
  | .insufficientData _ _ => "Attempted to read {requested} bytes, but buffer only has {remaining}"
  | .unknownNetwork => "No network with an attribute '{key}' of value {value}"
  | .privInvalidSecret => "Invalid secret for PrivateKey: {number}"
  | .privUnknownNetwork => "No network for PrivateKey with an attribute '{key}' of value {value}"
  | .privInvalidWifLength =>
    "The PrivateKey WIF {string} should be 33 (uncompressed) or 34 (compressed) bytes long, not {length}"
  | .privInvalidCompressionByte =>
    "The length of the PrivateKey WIF {string} suggests it's compressed, but it doesn't end in '\\1'"
  | .privInvalidBase58h => "The PrivateKey string {string} is not valid base58/check"
  | .privInvalidHex => "The PrivateKey string {string} is not valid hexadecimal"
  | .privInvalidBinaryLength => "The PrivateKey's binary secret {string} should be 32 bytes long, not {length}"
  | .pubInvalidPair => "The PublicKey pair {object} is invalid (not a point of the curve)"
  | .pubUnknownNetwork => "No network for PublicKey with an attribute '{key}' of value {value}"
  | .pubInvalidBinary => "The buffer {string} is not in any recognized format"
  | .pubInvalidHex => "The PublicKey string {string} is not valid hexadecimal"
  | .addrUnknownNetwork => "No network for Address with an attribute '{key}' of value {value}"
  | .addrInvalidVersion => "Failed to detect Address type and network from version number {number}"
  | .addrInvalidBase58h => "The Address string {string} is not valid base58/check"
  | .addrInvalidHex => "The Address string {string} is not valid hexadecimal"
  | .addrInvalidHashLength => "The address hash {string} should be 20 bytes long, not {length}"
  | .addrInvalidBinaryLength => "The binary address {string} should be 21 bytes long, not {length}"
  | .addrInvalidType => "Address type {object} is not an instance of Address.Type"
  | .opUnknownName => "No known operation named {string}"
  | .opUnknownNumber => "No known operation numbered {number}"
  | .opInvalidConstPushLength => "No constant push opcode can push {number} bytes (only [1-75])"
  | .opInvalidPushLength => "No Opcode can push {number} bytes"
  | .opWrongType => "Opcode {object.name} does not support this operation"
  | .insUnexpectedData => "Instruction got data with opcode {object}, which does not push data"
  | .insInvalidDataLength => "Opcode {opcode} can't push {data_length} bytes (max/exactly {data_length_max})"
  | .scrMissingPushArguments => "Missing arguments for {string} operation"
  | .scrInvalidPushSize => "Push size must be a number, got {string}"
  | .scrInvalidPushData => "Push data must be hex encoded and start with 0x, got {string}"
  | .scrInvalidPushDataLength => "Push data length doesn't match push size, got {number}"
  | .scrUnknownOpcodeName => "No known operation named {string}"
  | .txNoInputs => "No Inputs were given to create this Transaction"
  | .txNoOutputs => "No Outputs were given to create this Transaction"
  | .txNotAnInput => "Transaction expected instances of Input, got {object} instead"
  | .txNotAnOutput => "Transaction expected instances of Input, got {object} instead"
  | .txInvalidLockTime => "Transaction lock_time must be between 0 and 4294967295 (2^32 - 1), not {number}"
  | .inUnknownSignatureMethod =>
    "This abstract Input doesn't know how to sign itself. You should use an Input subclass, such as AddressInput"
  | .inInvalidSignatureCount => "This Input requires {required} keys to sign, but {provided} were provided"
  | .outTooMuchData => "DataOutputs can carry at most 80 bytes, but {number} were passed in"
  | _ => ""

/-- An exception that was raised: its class, and its message if it is a BitforgeError. -/
structure Exc where
  cls : Err
  message : Option Text
  deriving DecidableEq, Repr

namespace Exc

/-- An exception of the runtime. -/
def runtime (e : Err) : Exc := ⟨e, none⟩

/-- `BitforgeError.__init__`, errors.py:4-8, after `prepare` has set the fields. -/
def make (e : Err) (fields : List (String × Text)) : Exc :=
  match formatFields fields none e.doc.toList with
  | .ok m => ⟨e, some m⟩
  | .error e' => runtime e'

/-- `StringError.prepare`, errors.py:22-25. -/
def string (e : Err) (v : StrValue) : Exc := make e [("string", v.repr), ("length", showInt v.length)]

/-- `NumberError.prepare`, errors.py:28-30. -/
def number (e : Err) (n : Int) : Exc := make e [("number", showInt n)]

/-- `ObjectError.prepare`, errors.py:17-19, given the text of the object. -/
def object (e : Err) (t : Text) : Exc := make e [("object", t)]

/-- `ObjectError.prepare`, errors.py:17-19, with an opcode whose `repr` is shown. -/
def opcode (e : Err) (o : Opcode) : Exc := match o.repr with
  | .error e' => runtime e'
  | .ok t => object e t

/-- `Opcode.WrongOpcodeType`, opcode.py:178-179, whose template shows the attribute `name`. -/
def wrongType (o : Opcode) : Exc := match o.name with
  | .error e' => runtime e'
  | .ok t => make .opWrongType [("object.name", t)]

/-- `[a, b]`, the text of a list of `unicode` objects. -/
def listText (l : List Text) : Text :=
  '[' :: ((l.map fun t => (StrValue.unicode t).repr).intersperse ", ".toList).flatten ++ [']']

/-- The text of a value that no network has.  A network is always found. -/
def valueText : NetValue → Text
  | .network _ => []
  | .int n => showInt n
  | .text t => t
  | .list l => listText l

/-- `KeyValueError.prepare`, errors.py:33-36. -/
def keyValue (e : Err) (key : String) (v : NetValue) : Exc := make e [("key", key.toList), ("value", valueText v)]

/-- `Instruction.InvalidDataLength`, instruction.py:24-30. -/
def dataLength (o : Opcode) (length max : Nat) : Exc := match o.repr with
  | .error e => runtime e
  | .ok t => make .insInvalidDataLength [("opcode", t), ("data_length", showInt length), ("data_length_max", showInt max)]

/-- `Buffer.InsufficientData`, tools.py:12-17. -/
def insufficientData (remaining requested : Nat) : Exc :=
  make (.insufficientData remaining requested) [("remaining", showInt remaining), ("requested", showInt requested)]

/-- `Input.InvalidSignatureCount`, input.py:27-32. -/
def signatureCount (required provided : Nat) : Exc :=
  make .inInvalidSignatureCount [("required", showInt required), ("provided", showInt provided)]

end Exc

/-- `str(e)` of an exception of this library: `__str__`, errors.py:13-14, returns a `unicode`, which is encoded in
ASCII. -/
def Exc.str (x : Exc) : Option (Except Err Text) := x.message.map asciiRepr

/-! ## The functions that raise -/

namespace Verbose

/-- An exception without a message of this library. -/
def plain {α : Type} (x : Except Err α) : Except Exc α := x.mapError Exc.runtime

/-- `networks.find`, networks.py:69-82. -/
def findNetwork (value : NetValue) (attr : String := "name") : Except Exc Network :=
  match Network.find? value attr with
  | some n => .ok n
  | none => .error (.keyValue .unknownNetwork attr value)

/-- `find_network` of privkey.py:20-24 and pubkey.py:11-15, and its like in address.py:46-49, with the exception that
replaces `networks.UnknownNetwork`. -/
def findNetworkAs (e : Err) (value : NetValue) (attr : String := "name") : Except Exc Network :=
  match findNetwork value attr with
  | .ok n => .ok n
  | .error _ => .error (.keyValue e attr value)

/-- `decode_hex`, encoding.py:111-116, of a text. -/
def decodeHex (string : Text) : Except Exc Bytes :=
  match Bitforge.decodeHex string with
  | .ok b => .ok b
  | .error .invalidHex => .error (.string .invalidHex (.unicode string))
  | .error e => .error (.runtime e)

/-- `decode_base58h`, encoding.py:33-38, of a text. -/
def decodeBase58h (H : Hashes) (string : Text) : Except Exc Bytes :=
  match a2bHashedBase58 H string with
  | .ok b => .ok b
  | .error .encodingError => .error (.string .invalidBase58h (.unicode string))
  | .error e => .error (.runtime e)

/-- `try: decode … except InvalidX: raise Class.InvalidX(string)`. -/
def recast {α : Type} (old new : Err) (string : Text) (x : Except Exc α) : Except Exc α :=
  match x with
  | .ok a => .ok a
  | .error e => if e.cls = old then .error (.string new (.unicode string)) else .error e

/-- `decode_script_number`, encoding.py:135-171. -/
def decodeScriptNumber (bytes : Data) (requireMinimal : Bool := false) (size : Nat := 4) : Except Exc Int :=
  match Bitforge.decodeScriptNumber bytes requireMinimal size with
  | .ok n => .ok n
  | .error .invalidScriptNumber => .error (.string .invalidScriptNumber bytes.value)
  | .error .invalidMinimalScriptNumber => .error (.string .invalidMinimalScriptNumber bytes.value)
  | .error e => .error (.runtime e)

/-- `Buffer.read`, tools.py:19-25: the bytes read and those that remain. -/
def read (amount : Nat) (buffer : Bytes) : Except Exc (Bytes × Bytes) :=
  if buffer.length < amount then .error (.insufficientData buffer.length amount)
  else .ok (buffer.take amount, buffer.drop amount)

/-- `PrivateKey.__new__`, privkey.py:58-67. -/
def newPrivateKey (secret : Option Int) (network : NetValue) (compressed : Bool) (random : Int) :
    Except Exc PrivateKey :=
  match findNetworkAs .privUnknownNetwork network with
  | .error e => .error e
  | .ok network =>
    let secret := secret.getD random
    if ¬ (0 < secret ∧ secret < PrivateKey.keyMax) then .error (.number .privInvalidSecret secret)
    else .ok ⟨secret, network, compressed⟩

/-- privkey.py:89-92. -/
def fromWifBody (bytes : Bytes) (compressed : Bool) : Except Exc PrivateKey :=
  match bytes with
  | [] => .error (.runtime .indexError)
  | b :: rest =>
    match findNetworkAs .privUnknownNetwork (.int b.val) "wif_prefix" with
    | .error e => .error e
    | .ok network => newPrivateKey (some (decodeInt rest)) (.network network) compressed 0

/-- `PrivateKey.from_wif`, privkey.py:69-92.  The payload is a `bytearray`. -/
def fromWif (H : Hashes) (string : Text) : Except Exc PrivateKey :=
  match recast .invalidBase58h .privInvalidBase58h string (decodeBase58h H string) with
  | .error e => .error e
  | .ok bytes =>
    if bytes.length = 33 then fromWifBody bytes false
    else if bytes.length = 34 then
      if bytes.getLast? ≠ some 0x01 then .error (.string .privInvalidCompressionByte (.unicode string))
      else fromWifBody bytes.dropLast true
    else .error (.string .privInvalidWifLength (.bytearray bytes))

/-- `PrivateKey.from_bytes`, privkey.py:94-100. -/
def privateFromBytes (bytes : Data) (network : NetValue := .network .livenet) (compressed : Bool := true) :
    Except Exc PrivateKey :=
  if bytes.val.length ≠ 32 then .error (.string .privInvalidBinaryLength bytes.value)
  else newPrivateKey (some (decodeInt bytes.val)) network compressed 0

/-- `PrivateKey.from_hex`, privkey.py:102-109. -/
def privateFromHex (string : Text) (network : NetValue := .network .livenet) (compressed : Bool := true) :
    Except Exc PrivateKey :=
  match recast .invalidHex .privInvalidHex string (decodeHex string) with
  | .error e => .error e
  | .ok bytes => privateFromBytes ⟨.str, bytes⟩ network compressed

/-- `PublicKey.__new__`, pubkey.py:40-46.  `pairText` is the text of the pair: Python 2 shows whether its members are
`int` or `long`. -/
def newPublicKey (pairText : Int × Int → Text) (pair : Int × Int) (network : NetValue := .network .livenet)
    (compressed : Bool := true) : Except Exc PublicKey :=
  match findNetworkAs .pubUnknownNetwork network with
  | .error e => .error e
  | .ok network =>
    if Ecdsa.isPublicPairValid secp pair then .ok ⟨pair, network, compressed⟩
    else .error (.object .pubInvalidPair (pairText pair))

/-- `PublicKey.from_bytes`, pubkey.py:57-65. -/
def publicFromBytes (pairText : Int × Int → Text) (bytes : Data) (network : NetValue := .network .livenet) :
    Except Exc PublicKey :=
  match secToPublicPair bytes with
  | .error e =>
    if e = .encodingError ∨ e = .valueError ∨ e = .noSuchPointError ∨ e = .unicodeDecodeError
    then .error (.string .pubInvalidBinary bytes.value) else .error (.runtime e)
  | .ok pair => newPublicKey pairText pair network (isSecCompressed bytes)

/-- `PublicKey.from_hex`, pubkey.py:67-74. -/
def publicFromHex (pairText : Int × Int → Text) (string : Text) (network : NetValue := .network .livenet) :
    Except Exc PublicKey :=
  match recast .invalidHex .pubInvalidHex string (decodeHex string) with
  | .error e => .error e
  | .ok bytes => publicFromBytes pairText ⟨.str, bytes⟩ network

/-- `Address.__new__`, address.py:45-57.  A `type` that is no `Address.Type` is given by its text. -/
def newAddress (phash : Data) (network : NetValue) (type : Text ⊕ AddrType) : Except Exc Address :=
  match findNetworkAs .addrUnknownNetwork network with
  | .error e => .error e
  | .ok network =>
    match type with
    | .inl t => .error (.object .addrInvalidType t)
    | .inr type =>
      if phash.val.length ≠ 20 then .error (.string .addrInvalidHashLength phash.value)
      else .ok ⟨phash.val, network, type⟩

/-- `classify_bytes`, address.py:86-98. -/
def classifyBytes (bytes : Bytes) : Except Exc (Network × AddrType) :=
  match bytes with
  | [] => .error (.runtime .indexError)
  | version :: _ =>
    match Network.find? (.int version.val) "pubkeyhash" with
    | some network => .ok (network, .publicKey)
    | none =>
      match Network.find? (.int version.val) "scripthash" with
      | some network => .ok (network, .script)
      | none => .error (.number .addrInvalidVersion version.val)

/-- `Address.from_bytes`, address.py:68-75. -/
def addressFromBytes (bytes : Data) : Except Exc Address :=
  if bytes.val.length ≠ 21 then .error (.string .addrInvalidBinaryLength bytes.value)
  else match classifyBytes bytes.val with
    | .error e => .error e
    | .ok (network, type) => newAddress ⟨bytes.kind, bytes.val.drop 1⟩ (.network network) (.inr type)

/-- `Address.from_string`, address.py:59-66. -/
def addressFromString (H : Hashes) (string : Text) : Except Exc Address :=
  match recast .invalidBase58h .addrInvalidBase58h string (decodeBase58h H string) with
  | .error e => .error e
  | .ok bytes => addressFromBytes ⟨.str, bytes⟩

/-- `Address.from_hex`, address.py:77-84. -/
def addressFromHex (string : Text) : Except Exc Address :=
  match recast .invalidHex .addrInvalidHex string (decodeHex string) with
  | .error e => .error e
  | .ok bytes => addressFromBytes ⟨.str, bytes⟩

/-- `Opcode.__init__`, opcode.py:184-188. -/
def makeOpcode (number : Int) : Except Exc Opcode :=
  if ¬ (0 ≤ number ∧ number ≤ 255) then .error (.number .opUnknownNumber number) else .ok (.num number.toNat)

/-- `number_value`, opcode.py:200-204. -/
def numberValue (o : Opcode) : Except Exc Int :=
  if ¬ o.isNumber then .error (.wrongType o)
  else .ok (if o = .num 0 then 0 else (o.number.val : Int) - 81 + 1)

/-- `from_name`, opcode.py:251-265. -/
def fromName (name : Text) : Except Exc Opcode :=
  if ¬ "OP_".toList.isPrefixOf name then .error (.string .opUnknownName (.unicode name))
  else match opcodeTable.find? fun e => e.1.toList = name with
    | some (_, n) => .ok (.num n)
    | none => .error (.string .opUnknownName (.unicode name))

/-- `const_push_for`, opcode.py:267-272. -/
def constPushFor (length : Int) : Except Exc Opcode :=
  if ¬ (1 ≤ length ∧ length ≤ 75) then .error (.number .opInvalidConstPushLength length) else makeOpcode length

/-- `var_push_for`, opcode.py:274-283. -/
def varPushFor (length : Int) : Except Exc Opcode :=
  if length < 1 then .error (.number .opInvalidPushLength length)
  else match [Opcode.num 76, .num 77, .num 78].find? fun o => length ≤ o.dataLengthMax with
    | some o => .ok o
    | none => .error (.number .opInvalidPushLength length)

/-- `push_for`, opcode.py:285-290. -/
def pushFor (length : Int) : Except Exc Opcode :=
  if length ≤ 75 then constPushFor length else varPushFor length

/-- `data_length_nbytes`, opcode.py:307-316. -/
def dataLengthNbytes (o : Opcode) : Except Exc Nat :=
  if o = .num 76 then .ok 1
  else if o = .num 77 then .ok 2
  else if o = .num 78 then .ok 4
  else .error (.wrongType o)

/-- `Instruction.__new__`, instruction.py:33-48. -/
def makeInstruction (opcode : Opcode) (data : Option Data := none) : Except Exc Instruction :=
  if opcode.isPush then
    match data with
    | none => .error (.runtime .typeError)
    | some d =>
      let length := d.val.length
      let expect := opcode.dataLengthMax
      if (opcode.isConstPush ∧ length ≠ expect) ∨ (opcode.isVarPush ∧ ¬ (0 ≤ length ∧ length ≤ expect)) then
        .error (.dataLength opcode length expect)
      else .ok ⟨opcode, data⟩
  else if data ≠ none then .error (.opcode .insUnexpectedData opcode)
  else .ok ⟨opcode, data⟩

/-- `get_opcode`, script.py:91-98. -/
def getOpcode (token : Text) : Except Exc Opcode :=
  match fromName token with
  | .ok o => .ok o
  | .error _ =>
    if isDigitText token then
      match plain (intOfDigits token) with
      | .error e => .error e
      | .ok n => constPushFor n
    else .error (.string .scrUnknownOpcodeName (.unicode token))

/-- script.py:107-110, 120-123. -/
def pushArgument (hexBytes : Text) : Except Exc Bytes :=
  if ¬ "0x".toList.isPrefixOf hexBytes then .error (.string .scrInvalidPushData (.unicode hexBytes))
  else decodeHex (hexBytes.drop 2)

/-- script.py:100-134. -/
def readTokens : List Text → Except Exc (List Instruction)
  | [] => .ok []
  | token :: tokens =>
    match getOpcode token with
    | .error e => .error e
    | .ok opcode =>
      if opcode.isConstPush then
        match tokens with
        | [] => .error (.string .scrMissingPushArguments (.unicode token))
        | hexBytes :: tokens =>
          match pushArgument hexBytes with
          | .error e => .error e
          | .ok bytes =>
            match makeInstruction opcode (some ⟨.str, bytes⟩) with
            | .error e => .error e
            | .ok i => (readTokens tokens).map (i :: ·)
      else if opcode.isVarPush then
        match tokens with
        | sizeString :: hexBytes :: tokens =>
          if ¬ isDigitText sizeString then .error (.string .scrInvalidPushSize (.unicode sizeString))
          else match pushArgument hexBytes with
            | .error e => .error e
            | .ok bytes =>
              match plain (intOfDigits sizeString) with
              | .error e => .error e
              | .ok size =>
                if size ≠ bytes.length then .error (.number .scrInvalidPushDataLength bytes.length)
                else match makeInstruction opcode (some ⟨.str, bytes⟩) with
                  | .error e => .error e
                  | .ok i => (readTokens tokens).map (i :: ·)
        | _ => .error (.string .scrMissingPushArguments (.unicode token))
      else match makeInstruction opcode with
        | .error e => .error e
        | .ok i => (readTokens tokens).map (i :: ·)

/-- `Script.from_string`, script.py:86-136. -/
def scriptFromText (string : Text) : Except Exc Script :=
  match readTokens (splitSpace string) with
  | .error e => .error e
  | .ok is => plain (Script.create is)

/-- The first element that is no Input (Output), by its text: tools.py:46-53. -/
def enforceAll {α : Type} (e : Err) : List (Text ⊕ α) → Except Exc (List α)
  | [] => .ok []
  | .inl t :: _ => .error (.object e t)
  | .inr a :: l => (enforceAll e l).map (a :: ·)

/-- `Transaction.__new__`, transaction.py:37-50.  Objects that are no Input (Output) are given by their texts. -/
def newTransaction (inputs : List (Text ⊕ Input)) (outputs : List (Text ⊕ Output)) (lockTime : Int := 0)
    (version : Int := 1) : Except Exc Transaction :=
  if inputs.length = 0 then .error (.make .txNoInputs [])
  else match enforceAll .txNotAnInput inputs with
    | .error e => .error e
    | .ok inputs =>
      if outputs.length = 0 then .error (.make .txNoOutputs [])
      else match enforceAll .txNotAnOutput outputs with
        | .error e => .error e
        | .ok outputs =>
          if ¬ (0 ≤ lockTime ∧ lockTime ≤ 0xFFFFFFFF) then .error (.number .txInvalidLockTime lockTime)
          else .ok ⟨inputs, outputs, lockTime, version⟩

/-- `AddressInput.sign`, input.py:133-142.  The messages of what it calls are left out. -/
def signAddress (signer : Signer) (i : Input) (privkeys : List PrivateKey) (payload : Bytes) (sigtype : Int) :
    Except Exc Input :=
  if privkeys.length ≠ 1 then .error (.signatureCount 1 privkeys.length)
  else plain (i.signAddress signer privkeys payload sigtype)

/-- `Input.sign`, input.py:86-97. -/
def signGeneric : Except Exc Input := .error (.make .inUnknownSignatureMethod [])

/-- `Instruction.push_for`, instruction.py:50-53. -/
def pushInstruction (bytes : Data) : Except Exc Instruction :=
  match pushFor bytes.val.length with
  | .error e => .error e
  | .ok opcode => makeInstruction opcode (some bytes)

/-- `DataOutput.create`, output.py:106-114, `OpReturnOut.create`, script.py:249-252, and `to_instructions`,
script.py:304-328. -/
def dataOutput (data : Data) : Except Exc Output :=
  if data.val.length > 80 then .error (.number .outTooMuchData data.val.length)
  else match makeInstruction (.num 106) with
    | .error e => .error e
    | .ok i =>
      match data.kind with
      | .bytearray => .error (.runtime .typeError)
      | .str =>
        match pushInstruction data with
        | .error e => .error e
        | .ok j => .ok ⟨.data, 0, ⟨.opReturnOut, [i, j]⟩⟩

end Verbose
end Bitforge
