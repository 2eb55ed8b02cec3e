import Verif.Script
import Verif.Address
import Verif.PrivKey
import Verif.PubKey
import Verif.Unit
import Verif.Uri

/-! # `__repr__` and `__str__` of the classes

The texts are `unicode` (the files have `unicode_literals`); `repr()` encodes them in ASCII, which can fail only where
they contain other characters (the name of a user's own network). -/

namespace Bitforge

/-- `"%d" % n` of any integer. -/
def showInt (n : Int) : Text := if n < 0 then '-' :: Opcode.decText n.natAbs else Opcode.decText n.natAbs

/-- What `repr()` does with a `unicode` result of `__repr__`: it is encoded in ASCII. -/
def asciiRepr (t : Text) : Except Err Text := if isAscii t then .ok t else .error .unicodeEncodeError

/-- `Opcode.__repr__`, opcode.py:219-223. -/
def Opcode.repr (o : Opcode) : Except Err Text :=
  if o.isConstPush then .ok ("<Opcode PUSH ".toList ++ decText o.number.val ++ " BYTES>".toList)
  else match o.name with
    | .error e => .error e
    | .ok name => .ok ("<Opcode ".toList ++ decText o.number.val ++ ": ".toList ++ name ++ ">".toList)

/-- `Instruction.__repr__`, instruction.py:128-132.  `hexlify(None)` is a TypeError. -/
def Instruction.repr (i : Instruction) : Except Err Text :=
  match i.opcode.name with
  | .error e => .error e
  | .ok name =>
    if i.opcode.isPush then
      match i.data with
      | none => .error .typeError
      | some d => .ok ("<Instruction: ".toList ++ name ++ " '".toList ++ encodeHex d.val ++ "'>".toList)
    else .ok ("<Instruction: ".toList ++ name ++ ">".toList)

/-- The elements of a tuple in order, the first exception wins. -/
def Script.reprs : List Instruction → Except Err (List Text)
  | [] => .ok []
  | i :: is =>
    match i.repr with
    | .error e => .error e
    | .ok t => match Script.reprs is with
      | .error e => .error e
      | .ok ts => .ok (t :: ts)

/-- `repr` of a tuple from those of its elements: one element is followed by a comma. -/
def tupleText : List Text → Text
  | [] => "()".toList
  | [t] => '(' :: t ++ ",)".toList
  | t :: ts => '(' :: t ++ (ts.map (", ".toList ++ ·)).flatten ++ ")".toList

/-- `Script.__repr__`, script.py:156-157: `str` of the tuple of instructions. -/
def Script.repr (s : Script) : Except Err Text := (Script.reprs s.instructions).map tupleText

/-- `PrivateKey.__repr__`, privkey.py:140-141. -/
def PrivateKey.repr (k : PrivateKey) : Except Err Text :=
  asciiRepr ("<PrivateKey: ".toList ++ k.toHex ++ ", network: ".toList ++ k.network.name ++ ">".toList)

/-- `PublicKey.__repr__`, pubkey.py:86-87. -/
def PublicKey.repr (k : PublicKey) : Except Err Text :=
  match k.toHex with
  | .error e => .error e
  | .ok hex => asciiRepr ("<PublicKey: ".toList ++ hex ++ ", network: ".toList ++ k.network.name ++ ">".toList)

/-- `Address.Type` names, address.py:16-18. -/
def AddrType.name : AddrType → Text
  | .publicKey => "PublicKey".toList
  | .script => "Script".toList

/-- `Address.__repr__`, address.py:120-121. -/
def Address.repr (H : Hashes) (a : Address) : Except Err Text :=
  match a.toString H with
  | .error e => .error e
  | .ok t => asciiRepr ("<Address: ".toList ++ t ++ ", type: ".toList ++ a.type.name ++ ", network: ".toList ++
      a.network.name ++ ">".toList)

/-- `Unit.__str__`, unit.py:36-37. -/
def BtcUnit.str (u : BtcUnit) : Text := showInt u.satoshis ++ " satoshis".toList

/-- `Unit.__repr__`, unit.py:39-40. -/
def BtcUnit.repr (u : BtcUnit) : Text := "<Unit: ".toList ++ u.str ++ ">".toList

/-- `URI.__repr__`, uri.py:65-66.  `to_uri` is ASCII. -/
def URI.repr (H : Hashes) (u : URI) : Except Err Text := (u.toUri H).map fun t => "<URI: ".toList ++ t ++ ">".toList

end Bitforge
