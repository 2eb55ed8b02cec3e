import Verif.Instruction
import Verif.PubKey
import Verif.Unicode

/-! # `bitforge/script/script.py` -/

namespace Bitforge

/-- The Python class of a script, script.py:19, 174-294. -/
inductive ScriptClass
  | generic | payToPubkeyIn | payToPubkeyOut | payToScriptIn | payToScriptOut | opReturnOut | redeemMultisig
  deriving DecidableEq, Repr

/-- An element of `get_structure()`: an `Opcode` or the string `'PUSH'`. -/
inductive StructItem
  | op (o : Opcode)
  | push
  deriving DecidableEq, Repr

/-- `Script`, script.py:14-41: a class and a tuple of instructions. -/
structure Script where
  cls : ScriptClass
  instructions : List Instruction
  deriving DecidableEq, Repr

/-- `get_structure`, script.py:43-44. -/
def getStructure (is : List Instruction) : List StructItem :=
  is.map fun i => if ¬ i.isPush then .op i.opcode else .push

/-- `u'PUSH'` has no method `is_number`. -/
def StructItem.isNumber : StructItem → Except Err Bool
  | .op o => .ok o.isNumber
  | .push => .error .attributeError

/-- `PayToPubkeyIn.is_valid`, script.py:181-183. -/
def PayToPubkeyIn.isValid (s : List StructItem) : Bool := s = [.push, .push]

/-- `PayToPubkeyOut.is_valid`, script.py:199-201. -/
def PayToPubkeyOut.isValid (s : List StructItem) : Bool :=
  s = [.op (.num 118), .op (.num 169), .push, .op (.num 136), .op (.num 172)]

/-- `PayToScriptIn.is_valid`, script.py:215-222. -/
def PayToScriptIn.isValid (s : List StructItem) : Bool :=
  s.length > 2 && s[0]? = some (.op (.num 0)) && (s.drop 1).all (· = .push)

/-- `PayToScriptOut.is_valid`, script.py:239-241. -/
def PayToScriptOut.isValid (s : List StructItem) : Bool := s = [.op (.num 169), .push, .op (.num 135)]

/-- `OpReturnOut.is_valid`, script.py:254-256. -/
def OpReturnOut.isValid (s : List StructItem) : Bool := s = [.op (.num 106), .push]

/-- `RedeemMultisig.is_valid`, script.py:275-285.  The `and` chain evaluates left to right. -/
def RedeemMultisig.isValid (s : List StructItem) : Except Err Bool :=
  if s.length ≥ 4 then
    match s[0]?, s[s.length - 2]? with
    | some first, some last2 =>
      match first.isNumber with
      | .error e => .error e
      | .ok false => .ok false
      | .ok true =>
        match last2.isNumber with
        | .error e => .error e
        | .ok false => .ok false
        | .ok true =>
          .ok (s[s.length - 1]? = some (.op (.num 174)) && ((s.drop 1).take (s.length - 3)).all (· = .push))
    | _, _ => .ok false   -- unreachable: the length is at least 4
  else .ok false

namespace Script

/-- `Script.classify`, script.py:52-58, in the order of `SCRIPT_SUBCLASSES`, script.py:294-301. -/
def classify (is : List Instruction) : Except Err ScriptClass :=
  let s := getStructure is
  if PayToPubkeyIn.isValid s then .ok .payToPubkeyIn
  else if PayToPubkeyOut.isValid s then .ok .payToPubkeyOut
  else if PayToScriptIn.isValid s then .ok .payToScriptIn
  else if PayToScriptOut.isValid s then .ok .payToScriptOut
  else if OpReturnOut.isValid s then .ok .opReturnOut
  else match RedeemMultisig.isValid s with
    | .error e => .error e
    | .ok true => .ok .redeemMultisig
    | .ok false => .ok .generic

/-- `Script.create`, script.py:46-50. -/
def create (is : List Instruction) : Except Err Script :=
  match classify is with
  | .error e => .error e
  | .ok c => .ok ⟨c, is⟩

/-- One iteration of the loop of `from_buffer`, script.py:70-82.  What a `Buffer` returns is a `bytearray`. -/
def readInstruction : Rd Instruction :=
  Rd.bind (Buffer.read 1) fun b =>
    Rd.bind (Rd.lift (Opcode.make (decodeInt b))) fun opcode =>
      if opcode.isConstPush then
        Rd.bind (Buffer.read opcode.number.val) fun data =>
          Rd.lift (Instruction.make opcode (some ⟨.bytearray, data⟩))
      else if opcode.isVarPush then
        Rd.bind (Rd.lift opcode.dataLengthNbytes) fun n =>
          Rd.bind (Buffer.read n) fun lengthBytes =>
            Rd.bind (Buffer.read (decodeInt lengthBytes (bigEndian := false))) fun data =>
              Rd.lift (Instruction.make opcode (some ⟨.bytearray, data⟩))
      else Rd.lift (Instruction.make opcode none)

/-- The loop `while buffer`, script.py:69-82.  Every iteration consumes a byte; `fuel` bounds the iterations. -/
def readInstructions : Nat → Rd (List Instruction)
  | 0 => Rd.pure []
  | fuel + 1 => fun s =>
    if s = [] then (.ok [], s)
    else Rd.bind readInstruction (fun i => Rd.bind (readInstructions fuel) fun is => Rd.pure (i :: is)) s

/-- `Script.from_buffer`, script.py:65-84. -/
def fromBuffer : Rd Script := fun s =>
  Rd.bind (readInstructions s.length) (fun is => Rd.lift (create is)) s

/-- `Script.from_bytes`, script.py:60-63. -/
def fromBytes (bytes : Bytes) : Except Err Script := (fromBuffer bytes).1

/-- The loop of `to_bytes`, script.py:161. -/
def bytesOf : List Instruction → Except Err Bytes
  | [] => .ok []
  | i :: is =>
    match i.toBytes with
    | .error e => .error e
    | .ok b =>
      match bytesOf is with
      | .error e => .error e
      | .ok bs => .ok (b ++ bs)

/-- `to_bytes`, script.py:159-162. -/
def toBytes (s : Script) : Except Err Bytes := bytesOf s.instructions

/-- `to_hex`, script.py:164-165. -/
def toHex (s : Script) : Except Err Text := s.toBytes.map encodeHex

/-- `to_hash`, script.py:167-168. -/
def toHash (H : Hashes) (s : Script) : Except Err Bytes := s.toBytes.map fun b => H.ripemd160 (H.sha256 b)

/-- `==` of scripts: tuples of instructions are compared element by element (instruction.py:122-123); the class is
not compared. -/
def eq (s t : Script) : Bool :=
  s.instructions.length == t.instructions.length && (s.instructions.zip t.instructions).all fun p => p.1.eq p.2

/-- `is_push_only`, script.py:150-154. -/
def isPushOnly (s : Script) : Bool := s.instructions.all fun i => i.opcode.number.val ≤ 96

/-- `push_data`, script.py:142-144: a tuple has no attribute `push`. -/
def pushData (_s : Script) (bytes : Data) : Except Err Unit :=
  match Instruction.pushFor bytes with
  | .error e => .error e
  | .ok _ => .error .attributeError

/-- `remove_opcode_by_data`, script.py:146-148: fields of a named tuple cannot be assigned. -/
def removeOpcodeByData (_s : Script) (bytes : Data) : Except Err Unit :=
  match Instruction.pushFor bytes with
  | .error e => .error e
  | .ok _ => .error .attributeError

end Script

/-- `Address.from_script`, address.py:105-108. -/
def Address.fromScript (H : Hashes) (script : Script) (network : NetValue := .network .livenet) : Except Err Address :=
  match script.toBytes with
  | .error e => .error e
  | .ok b => Address.fromScriptBytes H b network

/-! ## `to_instructions` and the templates -/

/-- An element of a tuple in a schematic: an Opcode, an integer, bytes or None. -/
inductive SchemArg
  | opcode (o : Opcode)
  | number (n : Int)
  | data (d : Data)
  | none
  deriving DecidableEq

/-- An element of a schematic, script.py:307-324.  An Instruction is a tuple of two elements. -/
inductive SchemItem
  | opcode (o : Opcode)
  | number (n : Int)
  | bytes (d : Data)
  | tuple (args : List SchemArg)
  | other

/-- `Opcode(item[0])`, script.py:321, for an element that is not an Opcode.  Bytes are larger and None is smaller than every
number, so both are refused; bytes that are not ASCII cannot be put into the message. -/
def SchemArg.toOpcode : SchemArg → Except Err Opcode
  | .opcode o => .ok o
  | .number n => Opcode.make n
  | .data d => if d.val.all (·.val < 128) then .error .opUnknownNumber else .error .unicodeDecodeError
  | .none => .error .opUnknownNumber

/-- `Instruction(opcode, data)`, instruction.py:33-48, where the data may be an object without length. -/
def Instruction.makeWith (o : Opcode) : SchemArg → Except Err Instruction
  | .none => Instruction.make o
  | .data d => Instruction.make o (some d)
  | _ => if o.isPush then .error .typeError else .error (o.mention .insUnexpectedData)

/-- The body of the loop of `to_instructions`, script.py:308-326.  `bytes` is `str`, so a `bytearray` is "other". -/
def SchemItem.instruction : SchemItem → Except Err Instruction
  | .opcode o => Instruction.make o
  | .number n => do Instruction.make (← Opcode.make n)
  | .bytes ⟨.str, b⟩ => do Instruction.make (← Opcode.pushFor b.length) (some ⟨.str, b⟩)
  | .bytes ⟨.bytearray, _⟩ => .error .typeError
  | .tuple [] => .error .indexError
  | .tuple [.opcode o] => Instruction.make o
  | .tuple [.opcode o, a] => Instruction.makeWith o a
  | .tuple (.opcode _ :: _ :: _ :: _) => .error .typeError
  | .tuple (head :: rest) => do
    let o ← head.toOpcode
    match rest with
    | [] => .error .indexError
    | a :: _ => Instruction.makeWith o a
  | .other => .error .typeError

/-- `to_instructions`, script.py:304-328. -/
def toInstructions : List SchemItem → Except Err (List Instruction)
  | [] => .ok []
  | item :: rest =>
    match item.instruction with
    | .error e => .error e
    | .ok i =>
      match toInstructions rest with
      | .error e => .error e
      | .ok is => .ok (i :: is)

/-- `Script.compile`, script.py:138-140. -/
def Script.compile (schematic : List SchemItem) : Except Err Script :=
  match toInstructions schematic with
  | .error e => .error e
  | .ok is => Script.create is

/-- `cls(to_instructions(schematic))`. -/
def ofSchematic (cls : ScriptClass) (schematic : List SchemItem) : Except Err Script :=
  match toInstructions schematic with
  | .error e => .error e
  | .ok is => .ok ⟨cls, is⟩

/-- `self.instructions[n].data`. -/
def dataAt (s : Script) (n : Nat) : Except Err (Option Data) :=
  match s.instructions[n]? with
  | none => .error .indexError
  | some i => .ok i.data

/-- `PublicKey.from_bytes(data)` where `data` may be `None`: `None[1:33]` is a TypeError. -/
def publicKeyOf : Option Data → Except Err PublicKey
  | none => .error .typeError
  | some d => PublicKey.fromBytes d

/-- `PayToPubkeyIn.create`, script.py:176-179. -/
def PayToPubkeyIn.create (pubkey : PublicKey) (signature : Data) : Except Err Script :=
  match pubkey.toBytes with
  | .error e => .error e
  | .ok sec => ofSchematic .payToPubkeyIn [.bytes signature, .bytes ⟨.str, sec⟩]

/-- `PayToPubkeyIn.get_public_key`, script.py:185-186. -/
def PayToPubkeyIn.getPublicKey (s : Script) : Except Err PublicKey := do publicKeyOf (← dataAt s 1)

/-- `PayToPubkeyIn.get_signature`, script.py:188-189. -/
def PayToPubkeyIn.getSignature (s : Script) : Except Err (Option Data) := dataAt s 0

/-- `PayToPubkeyOut.create`, script.py:194-197. -/
def PayToPubkeyOut.create (address : Address) : Except Err Script :=
  ofSchematic .payToPubkeyOut
    [.opcode (.num 118), .opcode (.num 169), .bytes ⟨.str, address.phash⟩, .opcode (.num 136), .opcode (.num 172)]

/-- `PayToPubkeyOut.get_address_hash`, script.py:203-204. -/
def PayToPubkeyOut.getAddressHash (s : Script) : Except Err (Option Data) := dataAt s 2

/-- `PayToScriptIn.create`, script.py:210-213. -/
def PayToScriptIn.create (script : Script) (signatures : List Data) : Except Err Script :=
  match script.toBytes with
  | .error e => .error e
  | .ok b => ofSchematic .payToScriptIn ([.opcode (.num 0)] ++ signatures.map .bytes ++ [.bytes ⟨.str, b⟩])

/-- `PayToScriptIn.get_script`, script.py:224-225.  `Buffer(None)` is a TypeError. -/
def PayToScriptIn.getScript (s : Script) : Except Err Script :=
  match s.instructions.getLast? with
  | none => .error .indexError
  | some i =>
    match i.data with
    | none => .error .typeError
    | some d => Script.fromBytes d.val

/-- `PayToScriptIn.get_signatures`, script.py:227-228. -/
def PayToScriptIn.getSignatures (s : Script) : List (Option Data) :=
  ((s.instructions.take (s.instructions.length - 1)).drop 1).map (·.data)

/-- `PayToScriptOut.create`, script.py:234-237. -/
def PayToScriptOut.create (H : Hashes) (script : Script) : Except Err Script :=
  match script.toHash H with
  | .error e => .error e
  | .ok h => ofSchematic .payToScriptOut [.opcode (.num 169), .bytes ⟨.str, h⟩, .opcode (.num 135)]

/-- `PayToScriptOut.get_script_hash`, script.py:243-244. -/
def PayToScriptOut.getScriptHash (s : Script) : Except Err (Option Data) := dataAt s 1

/-- `OpReturnOut.create`, script.py:249-252. -/
def OpReturnOut.create (data : Data) : Except Err Script :=
  ofSchematic .opReturnOut [.opcode (.num 106), .bytes data]

/-- `OpReturnOut.get_data`, script.py:258-259. -/
def OpReturnOut.getData (s : Script) : Except Err (Option Data) := dataAt s 1

/-- `RedeemMultisig.create`, script.py:264-273. -/
def RedeemMultisig.create (pubkeys : List PublicKey) (minSignatures : Int) : Except Err Script := do
  let first ← Opcode.forNumber minSignatures
  let secs ← pubkeys.mapM PublicKey.toBytes
  let last ← Opcode.forNumber pubkeys.length
  ofSchematic .redeemMultisig
    ([.opcode first] ++ secs.map (fun b => .bytes ⟨.str, b⟩) ++ [.opcode last] ++ [.opcode (.num 174)])

/-- `RedeemMultisig.get_min_signatures`, script.py:287-288. -/
def RedeemMultisig.getMinSignatures (s : Script) : Except Err Int :=
  match s.instructions[0]? with
  | none => .error .indexError
  | some i => i.opcode.numberValue

/-- `RedeemMultisig.get_public_keys`, script.py:290-291. -/
def RedeemMultisig.getPublicKeys (s : Script) : Except Err (List PublicKey) :=
  ((s.instructions.take (s.instructions.length - 2)).drop 1).mapM fun i => publicKeyOf i.data

/-! ## Text form -/

/-- `string.split(' ')`. -/
def splitSpace : Text → List Text
  | [] => [[]]
  | c :: rest =>
    if c = ' ' then [] :: splitSpace rest
    else match splitSpace rest with
      | [] => [[c]]   -- unreachable: the result is never empty
      | t :: ts => (c :: t) :: ts

namespace Script

/-- `get_opcode`, script.py:91-98. -/
def getOpcode (token : Text) : Except Err Opcode :=
  match Opcode.fromName token with
  | .ok o => .ok o
  | .error _ =>
    if isDigitText token then
      match intOfDigits token with
      | .error e => .error e
      | .ok n => Opcode.constPushFor n
    else .error .scrUnknownOpcodeName

/-- `decode_hex(hex_bytes[2:])` after the `'0x'` test, script.py:107-110, 120-123. -/
def pushArgument (hexBytes : Text) : Except Err Bytes :=
  if ¬ "0x".toList.isPrefixOf hexBytes then .error .scrInvalidPushData else decodeHex (hexBytes.drop 2)

/-- The loop over the tokens, script.py:100-134.  `decode_hex` returns a `str`. -/
def readTokens : List Text → Except Err (List Instruction)
  | [] => .ok []
  | token :: tokens =>
    match getOpcode token with
    | .error e => .error e
    | .ok opcode =>
      if opcode.isConstPush then
        match tokens with
        | [] => .error .scrMissingPushArguments
        | hexBytes :: tokens =>
          match pushArgument hexBytes with
          | .error e => .error e
          | .ok bytes =>
            match Instruction.make opcode (some ⟨.str, bytes⟩) with
            | .error e => .error e
            | .ok i => (readTokens tokens).map (i :: ·)
      else if opcode.isVarPush then
        match tokens with
        | sizeString :: hexBytes :: tokens =>
          if ¬ isDigitText sizeString then .error .scrInvalidPushSize
          else match pushArgument hexBytes with
            | .error e => .error e
            | .ok bytes =>
              match intOfDigits sizeString with
              | .error e => .error e
              | .ok size =>
                if size ≠ bytes.length then .error .scrInvalidPushDataLength
                else match Instruction.make opcode (some ⟨.str, bytes⟩) with
                  | .error e => .error e
                  | .ok i => (readTokens tokens).map (i :: ·)
        | _ => .error .scrMissingPushArguments
      else match Instruction.make opcode with
        | .error e => .error e
        | .ok i => (readTokens tokens).map (i :: ·)

/-- `Script.from_string`, script.py:86-136. -/
def fromText (string : Text) : Except Err Script :=
  match readTokens (splitSpace string) with
  | .error e => .error e
  | .ok is => create is

/-- `' '.join(ts)`. -/
def joinSpace : List Text → Text
  | [] => []
  | [t] => t
  | t :: ts => t ++ ' ' :: joinSpace ts

/-- `to_string`, script.py:170-171. -/
def toText (s : Script) : Except Err Text := (s.instructions.mapM Instruction.toText).map joinSpace

end Script
end Bitforge
