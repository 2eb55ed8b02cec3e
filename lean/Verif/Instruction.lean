import Verif.Opcode

/-! # `bitforge/script/instruction.py` -/

namespace Bitforge

/-- `Instruction`, instruction.py:10-13. `data` is `None` or a byte string (`str` or `bytearray`). -/
structure Instruction where
  opcode : Opcode
  data : Option Data
  deriving DecidableEq, Repr

namespace Instruction

/-- `Instruction.__new__`, instruction.py:33-48.  `len(None)` is a TypeError. -/
def make (opcode : Opcode) (data : Option Data := none) : Except Err Instruction :=
  if opcode.isPush then
    match data with
    | none => .error .typeError
    | some d =>
      let length := d.val.length
      let expect := opcode.dataLengthMax
      if (opcode.isConstPush ∧ length ≠ expect) ∨ (opcode.isVarPush ∧ ¬ (0 ≤ length ∧ length ≤ expect)) then
        .error .insInvalidDataLength
      else .ok ⟨opcode, data⟩
  else if data ≠ none then .error (opcode.mention .insUnexpectedData)
  else .ok ⟨opcode, data⟩

/-- `push_for`, instruction.py:50-53. -/
def pushFor (bytes : Data) : Except Err Instruction :=
  match Opcode.pushFor bytes.val.length with
  | .error e => .error e
  | .ok opcode => make opcode (some bytes)

/-- `is_push`, instruction.py:55-56. -/
def isPush (i : Instruction) : Bool := i.opcode.isPush

/-- `decode_int(self.data[0])`, instruction.py:69-72: of a `str` the element is a one-character string; of a
`bytearray` it is an `int` and `bytearray(n)` is `n` zero bytes, whose value is 0. -/
def firstValue (d : Data) (b : Byte) : Nat := match d.kind with
  | .str => b.val
  | .bytearray => 0

/-- `is_minimal_push`, instruction.py:58-85.  `self.data.length` (line 77) is an AttributeError. -/
def isMinimalPush (i : Instruction) : Except Err Bool :=
  match i.data with
  | none => .ok true
  | some d =>
    match d.val with
    | [] => .ok true
    | b :: rest =>
      if rest = [] ∧ 1 ≤ firstValue d b ∧ firstValue d b ≤ 16 then
        .ok ((i.opcode.number.val : Int) == 81 + firstValue d b - 1)
      else if rest = [] ∧ firstValue d b = 0x81 then .ok (i.opcode == Opcode.num 79)
      else if d.val.length ≤ 75 then .error .attributeError
      else if d.val.length ≤ 255 then .ok (i.opcode == Opcode.num 76)
      else if d.val.length ≤ 65535 then .ok (i.opcode == Opcode.num 77)
      else .ok true

/-- `to_bytes`, instruction.py:87-104.  For PUSHDATA, `rjust(n, '\0')` has a `unicode` fill character (the file has
`unicode_literals`), which `str.rjust` refuses with a TypeError.  A const push made without data cannot exist. -/
def toBytes (i : Instruction) : Except Err Bytes :=
  if i.opcode.isConstPush then
    match i.data with
    | none => .error .typeError
    | some d => .ok (i.opcode.number :: d.val)
  else if i.opcode.isVarPush then .error .typeError
  else .ok [i.opcode.number]

/-- `to_hex`, instruction.py:106-107. -/
def toHex (i : Instruction) : Except Err Text := i.toBytes.map encodeHex

/-- `to_string`, instruction.py:109-120. -/
def toText (i : Instruction) : Except Err Text :=
  if i.opcode.isPush then
    match i.data with
    | none => .error .typeError
    | some d =>
      let dataHex := "0x".toList ++ encodeHex d.val
      let dataLen := Opcode.decText d.val.length
      if i.opcode.isConstPush then .ok (dataLen ++ ' ' :: dataHex)
      else match i.opcode.name with
        | .error e => .error e
        | .ok name => .ok (name ++ ' ' :: (dataLen ++ ' ' :: dataHex))
  else i.opcode.name

/-- `__eq__`, instruction.py:122-123: `str` and `bytearray` with the same bytes are equal. -/
def eq (i j : Instruction) : Bool := i.opcode == j.opcode && i.data.map Data.val == j.data.map Data.val

end Instruction
end Bitforge
