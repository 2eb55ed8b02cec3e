import Verif.Script

/-! # `bitforge/transaction/input.py` -/

namespace Bitforge

/-- The Python class of an input, input.py:19, 121, 151, 172. -/
inductive InputClass
  | generic | address | script | multisig
  deriving DecidableEq, Repr

/-- `Input`, input.py:14-37.  `tx_id` is text (`unicode` or an ASCII `str`); the numbers are any integers. -/
structure Input where
  cls : InputClass
  txId : Text
  txoIndex : Int
  script : Script
  seqNumber : Int
  deriving DecidableEq, Repr

/-- The signer, `PrivateKey.sign` (privkey.py:130-132), as an oracle: it is randomised, so what it returns may depend
on the call; the first argument is the position of the call in the list of keys. -/
abbrev Signer := Nat → PrivateKey → Bytes → Except Err Bytes

/-- The built-in `chr` of Python 2: a one-character `str`, ValueError outside `0..255`. -/
def chrByte (n : Int) : Except Err Byte :=
  if 0 ≤ n ∧ n < 256 then .ok (byte n.toNat) else .error .valueError

namespace Input

/-- `FINAL_SEQ_NUMBER`, input.py:11. -/
def finalSeqNumber : Int := 0xFFFFFFFF

/-- `Input.create`, input.py:39-54.  `OpReturnOut` is not imported there: NameError. -/
def create (txId : Text) (txoIndex : Int) (script : Script) (seqNumber : Int := finalSeqNumber) :
    Except Err Input :=
  match Script.create script.instructions with
  | .error e => .error e
  | .ok script =>
    if script.cls = .payToPubkeyIn then .ok ⟨.address, txId, txoIndex, script, seqNumber⟩
    else if script.cls = .payToScriptIn then .ok ⟨.script, txId, txoIndex, script, seqNumber⟩
    else .error .nameError

/-- `to_bytes`, input.py:56-75.  Python 2's `bytearray.extend` accepts one-character strings. -/
def toBytes (i : Input) : Except Err Bytes :=
  match i.script.toBytes with
  | .error e => .error e
  | .ok script =>
    match decodeHex i.txId with
    | .error e => .error e
    | .ok id =>
      .ok (Buffer.write (encodeInt i.seqNumber (length := some 4) (bigEndian := false))
        (Buffer.write script
          (Buffer.write (encodeVarint script.length)
            (Buffer.write (encodeInt i.txoIndex (length := some 4) (bigEndian := false))
              (Buffer.write id.reverse [])))))

/-- `to_hex`, input.py:77-78. -/
def toHex (i : Input) : Except Err Text := i.toBytes.map encodeHex

/-- `replace_script`, input.py:80-81: the result is a plain `Input`. -/
def replaceScript (i : Input) (script : Script) : Input := ⟨.generic, i.txId, i.txoIndex, script, i.seqNumber⟩

/-- `remove_script`, input.py:83-84. -/
def removeScript (i : Input) : Input := i.replaceScript ⟨.generic, []⟩

/-- `from_buffer`, input.py:107-118, called on the class `cls`. -/
def fromBuffer (cls : InputClass := .generic) : Rd Input :=
  Rd.bind (Buffer.read 32) fun id =>
    Rd.bind (Buffer.read 4) fun index =>
      Rd.bind Buffer.readVarint fun scriptLen =>
        Rd.bind (Buffer.read scriptLen) fun scriptBytes =>
          Rd.bind (Rd.lift (Script.fromBytes scriptBytes)) fun script =>
            Rd.bind (Buffer.read 4) fun seq =>
              Rd.pure ⟨cls, encodeHex id.reverse, decodeInt index (bigEndian := false), script,
                decodeInt seq (bigEndian := false)⟩

/-- `from_bytes`, input.py:103-105: what is left in the buffer is dropped. -/
def fromBytes (bytes : Bytes) (cls : InputClass := .generic) : Except Err Input := (fromBuffer cls bytes).1

/-- `from_hex`, input.py:99-101. -/
def fromHex (string : Text) (cls : InputClass := .generic) : Except Err Input :=
  match decodeHex string with
  | .error e => .error e
  | .ok b => fromBytes b cls

/-- `==` of inputs, as named tuples: the class is not compared. -/
def eq (i j : Input) : Bool :=
  i.txId == j.txId && i.txoIndex == j.txoIndex && i.script.eq j.script && i.seqNumber == j.seqNumber

/-- `pk.sign(payload) + chr(sigtype)`, input.py:139, 166. -/
def signature (signer : Signer) (n : Nat) (k : PrivateKey) (payload : Bytes) (sigtype : Int) : Except Err Data :=
  match signer n k payload with
  | .error e => .error e
  | .ok sig =>
    match chrByte sigtype with
    | .error e => .error e
    | .ok c => .ok ⟨.str, sig ++ [c]⟩

/-- The list comprehension of `ScriptInput.sign`, input.py:166; `n` is the position of the first key. -/
def signatures (signer : Signer) (payload : Bytes) (sigtype : Int) : Nat → List PrivateKey → Except Err (List Data)
  | _, [] => .ok []
  | n, k :: ks =>
    match signature signer n k payload sigtype with
    | .error e => .error e
    | .ok s =>
      match signatures signer payload sigtype (n + 1) ks with
      | .error e => .error e
      | .ok ss => .ok (s :: ss)

/-- `AddressInput.sign`, input.py:133-142. -/
def signAddress (signer : Signer) (i : Input) (privkeys : List PrivateKey) (payload : Bytes) (sigtype : Int) :
    Except Err Input :=
  match privkeys with
  | [k] =>
    match k.toPublicKey with
    | .error e => .error e
    | .ok pubkey =>
      match signature signer 0 k payload sigtype with
      | .error e => .error e
      | .ok sig =>
        match PayToPubkeyIn.create pubkey sig with
        | .error e => .error e
        | .ok script => .ok (i.replaceScript script)
  | _ => .error .inInvalidSignatureCount

/-- `ScriptInput.sign`, input.py:160-169. -/
def signScript (signer : Signer) (i : Input) (privkeys : List PrivateKey) (payload : Bytes) (sigtype : Int) :
    Except Err Input :=
  match signatures signer payload sigtype 0 privkeys with
  | .error e => .error e
  | .ok sigs =>
    match PayToScriptIn.create i.script sigs with
    | .error e => .error e
    | .ok script => .ok (i.replaceScript script)

/-- `sign`, by class: input.py:86-97, 133-142, 160-169 (inherited by MultisigInput). -/
def sign (signer : Signer) (i : Input) (privkeys : List PrivateKey) (payload : Bytes) (sigtype : Int := 1) :
    Except Err Input :=
  match i.cls with
  | .generic => .error .inUnknownSignatureMethod
  | .address => i.signAddress signer privkeys payload sigtype
  | .script => i.signScript signer privkeys payload sigtype
  | .multisig => i.signScript signer privkeys payload sigtype

end Input

/-- `AddressInput.create`, input.py:123-131. -/
def AddressInput.create (txId : Text) (txoIndex : Int) (address : Address)
    (seqNumber : Int := Input.finalSeqNumber) : Except Err Input :=
  match PayToPubkeyOut.create address with
  | .error e => .error e
  | .ok placeholder => .ok ⟨.address, txId, txoIndex, placeholder, seqNumber⟩

/-- `AddressInput.can_sign`, input.py:144-148.  Only `PayToPubkeyOut` has the method `get_address_hash`. -/
def AddressInput.canSign (H : Hashes) (i : Input) (privkeys : List PrivateKey) : Except Err Bool :=
  match privkeys with
  | [k] =>
    match k.toAddress H with
    | .error e => .error e
    | .ok a =>
      if i.script.cls = .payToPubkeyOut then
        match PayToPubkeyOut.getAddressHash i.script with
        | .error e => .error e
        | .ok d => .ok (some a.phash == d.map Data.val)
      else .error .attributeError
  | _ => .ok false

/-- `ScriptInput.create`, input.py:153-158. -/
def ScriptInput.create (txId : Text) (txoIndex : Int) (script : Script) (seqNumber : Int := Input.finalSeqNumber) :
    Input := ⟨.script, txId, txoIndex, script, seqNumber⟩

/-- `MultisigInput.create`, input.py:174-181. -/
def MultisigInput.create (txId : Text) (txoIndex : Int) (pubkeys : List PublicKey) (minSignatures : Int)
    (seqNumber : Int := Input.finalSeqNumber) : Except Err Input :=
  match RedeemMultisig.create pubkeys minSignatures with
  | .error e => .error e
  | .ok placeholder => .ok ⟨.multisig, txId, txoIndex, placeholder, seqNumber⟩

/-- The loop of `MultisigInput.can_sign`, input.py:189-193. -/
def MultisigInput.allExpected (expected : List PublicKey) : List PrivateKey → Except Err Bool
  | [] => .ok true
  | k :: ks =>
    match k.toPublicKey with
    | .error e => .error e
    | .ok p => if p ∈ expected then allExpected expected ks else .ok false

/-- `MultisigInput.can_sign`, input.py:183-193.  Only `RedeemMultisig` has the methods used. -/
def MultisigInput.canSign (i : Input) (privkeys : List PrivateKey) : Except Err Bool :=
  if i.script.cls = .redeemMultisig then
    match RedeemMultisig.getMinSignatures i.script with
    | .error e => .error e
    | .ok m =>
      if (privkeys.length : Int) ≠ m then .ok false
      else match RedeemMultisig.getPublicKeys i.script with
        | .error e => .error e
        | .ok expected => MultisigInput.allExpected expected privkeys
  else .error .attributeError

end Bitforge
