import Verif.Script

/-! # `bitforge/transaction/output.py` -/

namespace Bitforge

/-- The Python class of an output, output.py:15, 77, 85, 93, 101. -/
inductive OutputClass
  | generic | address | script | multisig | data
  deriving DecidableEq, Repr

/-- `Output`, output.py:10-22.  The amount is any integer. -/
structure Output where
  cls : OutputClass
  amount : Int
  script : Script
  deriving DecidableEq, Repr

namespace Output

/-- `Output.create`, output.py:24-38. -/
def create (amount : Int) (script : Script) : Except Err Output :=
  match Script.create script.instructions with
  | .error e => .error e
  | .ok script =>
    .ok ⟨match script.cls with
      | .payToPubkeyOut => .address
      | .payToScriptOut => .script
      | .opReturnOut => .data
      | _ => .generic, amount, script⟩

/-- `to_bytes`, output.py:40-53. -/
def toBytes (o : Output) : Except Err Bytes :=
  match o.script.toBytes with
  | .error e => .error e
  | .ok script =>
    .ok (Buffer.write script
      (Buffer.write (encodeVarint script.length)
        (Buffer.write (encodeInt o.amount (length := some 8) (bigEndian := false)) [])))

/-- `to_hex`, output.py:55-56. -/
def toHex (o : Output) : Except Err Text := o.toBytes.map encodeHex

/-- `from_buffer`, output.py:66-74. -/
def fromBuffer : Rd Output :=
  Rd.bind (Buffer.read 8) fun amount =>
    Rd.bind Buffer.readVarint fun scriptLen =>
      Rd.bind (Buffer.read scriptLen) fun scriptBytes =>
        Rd.bind (Rd.lift (Script.fromBytes scriptBytes)) fun script =>
          Rd.lift (create (decodeInt amount (bigEndian := false)) script)

/-- `from_bytes`, output.py:62-64. -/
def fromBytes (bytes : Bytes) : Except Err Output := (fromBuffer bytes).1

/-- `from_hex`, output.py:58-60. -/
def fromHex (string : Text) : Except Err Output :=
  match decodeHex string with
  | .error e => .error e
  | .ok b => fromBytes b

/-- `==` of outputs, as named tuples: the class is not compared. -/
def eq (o p : Output) : Bool := o.amount == p.amount && o.script.eq p.script

end Output

/-- `AddressOutput.create`, output.py:79-82. -/
def AddressOutput.create (amount : Int) (address : Address) : Except Err Output :=
  match PayToPubkeyOut.create address with
  | .error e => .error e
  | .ok script => .ok ⟨.address, amount, script⟩

/-- `ScriptOutput.create`, output.py:87-90. -/
def ScriptOutput.create (H : Hashes) (amount : Int) (redeemScript : Script) : Except Err Output :=
  match PayToScriptOut.create H redeemScript with
  | .error e => .error e
  | .ok script => .ok ⟨.script, amount, script⟩

/-- `MultisigOutput.create`, output.py:95-98: the constructor, not `ScriptOutput.create`, gets the redeem script. -/
def MultisigOutput.create (amount : Int) (pubkeys : List PublicKey) (minSignatures : Int) : Except Err Output :=
  match RedeemMultisig.create pubkeys minSignatures with
  | .error e => .error e
  | .ok redeemScript => .ok ⟨.multisig, amount, redeemScript⟩

/-- `DataOutput.create`, output.py:106-114. -/
def DataOutput.create (data : Data) : Except Err Output :=
  if data.val.length > 80 then .error .outTooMuchData
  else match OpReturnOut.create data with
    | .error e => .error e
    | .ok script => .ok ⟨.data, 0, script⟩

end Bitforge
