import Verif.Encoding

/-! # `bitforge/script/opcode.py` -/

namespace Bitforge

/-- An `Opcode` instance; the constructor only accepts numbers in `[0, 255]` (opcode.py:184-188). -/
structure Opcode where
  number : Byte
  deriving DecidableEq, Repr

/-- Named opcodes, opcode.py:12-154, in the order of the file. -/
def opcodeTable : List (String × Nat) := [
  ("OP_0", 0), ("OP_1", 81), ("OP_2", 82), ("OP_3", 83), ("OP_4", 84), ("OP_5", 85), ("OP_6", 86), ("OP_7", 87),
  ("OP_8", 88), ("OP_9", 89), ("OP_10", 90), ("OP_11", 91), ("OP_12", 92), ("OP_13", 93), ("OP_14", 94),
  ("OP_15", 95), ("OP_16", 96), ("OP_1NEGATE", 79), ("OP_FALSE", 0), ("OP_TRUE", 81),
  ("OP_PUSHDATA1", 76), ("OP_PUSHDATA2", 77), ("OP_PUSHDATA4", 78),
  ("OP_NOP", 97), ("OP_IF", 99), ("OP_NOTIF", 100), ("OP_ELSE", 103), ("OP_ENDIF", 104), ("OP_VERIFY", 105),
  ("OP_RETURN", 106), ("OP_TOALTSTACK", 107), ("OP_FROMALTSTACK", 108), ("OP_2DROP", 109), ("OP_2DUP", 110),
  ("OP_3DUP", 111), ("OP_2OVER", 112), ("OP_2ROT", 113), ("OP_2SWAP", 114), ("OP_IFDUP", 115), ("OP_DEPTH", 116),
  ("OP_DROP", 117), ("OP_DUP", 118), ("OP_NIP", 119), ("OP_OVER", 120), ("OP_PICK", 121), ("OP_ROLL", 122),
  ("OP_ROT", 123), ("OP_SWAP", 124), ("OP_TUCK", 125), ("OP_CAT", 126), ("OP_SUBSTR", 127), ("OP_LEFT", 128),
  ("OP_RIGHT", 129), ("OP_SIZE", 130), ("OP_INVERT", 131), ("OP_AND", 132), ("OP_OR", 133), ("OP_XOR", 134),
  ("OP_EQUAL", 135), ("OP_EQUALVERIFY", 136), ("OP_RESERVED1", 137), ("OP_RESERVED2", 138), ("OP_1ADD", 139),
  ("OP_1SUB", 140), ("OP_2MUL", 141), ("OP_2DIV", 142), ("OP_NEGATE", 143), ("OP_ABS", 144), ("OP_NOT", 145),
  ("OP_0NOTEQUAL", 146), ("OP_ADD", 147), ("OP_SUB", 148), ("OP_MUL", 149), ("OP_DIV", 150), ("OP_MOD", 151),
  ("OP_LSHIFT", 152), ("OP_RSHIFT", 153), ("OP_BOOLAND", 154), ("OP_BOOLOR", 155), ("OP_NUMEQUAL", 156),
  ("OP_NUMEQUALVERIFY", 157), ("OP_NUMNOTEQUAL", 158), ("OP_LESSTHAN", 159), ("OP_GREATERTHAN", 160),
  ("OP_LESSTHANOREQUAL", 161), ("OP_GREATERTHANOREQUAL", 162), ("OP_MIN", 163), ("OP_MAX", 164),
  ("OP_WITHIN", 165), ("OP_RIPEMD160", 166), ("OP_SHA1", 167), ("OP_SHA256", 168), ("OP_HASH160", 169),
  ("OP_HASH256", 170), ("OP_CODESEPARATOR", 171), ("OP_CHECKSIG", 172), ("OP_CHECKSIGVERIFY", 173),
  ("OP_CHECKMULTISIG", 174), ("OP_CHECKMULTISIGVERIFY", 175), ("OP_CHECKLOCKTIMEVERIFY", 177), ("OP_NOP1", 176),
  ("OP_NOP3", 178), ("OP_NOP4", 179), ("OP_NOP5", 180), ("OP_NOP6", 181), ("OP_NOP7", 182), ("OP_NOP8", 183),
  ("OP_NOP9", 184), ("OP_NOP10", 185), ("OP_PUBKEYHASH", 253), ("OP_PUBKEY", 254), ("OP_INVALIDOPCODE", 255),
  ("OP_RESERVED", 80)]

namespace Opcode

/-- An opcode constant of the module. -/
def num (n : Nat) : Opcode := ⟨Fin.ofNat 256 n⟩

/-- `Opcode(number)`, opcode.py:184-188. -/
def make (number : Int) : Except Err Opcode :=
  if ¬ (0 ≤ number ∧ number ≤ 255) then .error .opUnknownNumber else .ok (num number.toNat)

/-- `is_const_push`, opcode.py:209-212. -/
def isConstPush (o : Opcode) : Bool := 1 ≤ o.number.val && o.number.val ≤ 75

/-- `is_var_push`, opcode.py:214-217. -/
def isVarPush (o : Opcode) : Bool := o = num 76 || o = num 77 || o = num 78

/-- `is_push`, opcode.py:206-207. -/
def isPush (o : Opcode) : Bool := o.isConstPush || o.isVarPush

/-- `opcode_number_to_name`, opcode.py:181, 323-332: entries with the same number are told apart by lines 331-332,
which keep `OP_0` and `OP_1`; these come first in `opcodeTable`. -/
def numberToName (n : Nat) : Option String := (opcodeTable.find? fun e => e.2 = n).map Prod.fst

/-- `"%d" % n` for a natural number, most significant digit first. -/
def decText (n : Nat) : Text :=
  if n = 0 then ['0'] else fromLong n 0 10 hexDigit

/-- `name`, opcode.py:190-195.  An opcode without a name raises KeyError. -/
def name (o : Opcode) : Except Err Text :=
  if o.isConstPush then .ok ("_PUSH_".toList ++ decText o.number.val ++ "_BYTES".toList)
  else match numberToName o.number.val with
    | some s => .ok s.toList
    | none => .error .keyError

/-- The exception raised where the message of an exception mentions the opcode: formatting it calls `name`, and a
nameless opcode turns the exception into a KeyError (errors.py:7, opcode.py:178-179, instruction.py:21-22). -/
def mention (o : Opcode) (e : Err) : Err := match o.name with
  | .ok _ => e
  | .error e' => e'

/-- `is_number`, opcode.py:197-198. -/
def isNumber (o : Opcode) : Bool := o = num 0 || 81 ≤ o.number.val && o.number.val ≤ 96

/-- `number_value`, opcode.py:200-204. -/
def numberValue (o : Opcode) : Except Err Int :=
  if ¬ o.isNumber then .error (o.mention .opWrongType)
  else .ok (if o = num 0 then 0 else (o.number.val : Int) - 81 + 1)

/-- `for_number`, opcode.py:244-249. -/
def forNumber (n : Int) : Except Err Opcode :=
  if 0 ≤ n ∧ n ≤ 16 then
    if n = 0 then .ok (num 0) else make (81 + n - 1)
  else .error .valueError

/-- `from_name`, opcode.py:251-265. -/
def fromName (name : Text) : Except Err Opcode :=
  if ¬ "OP_".toList.isPrefixOf name then .error .opUnknownName
  else match opcodeTable.find? fun e => e.1.toList = name with
    | some (_, n) => .ok (num n)
    | none => .error .opUnknownName

/-- `data_length_max`, opcode.py:292-305. -/
def dataLengthMax (o : Opcode) : Nat :=
  if o.isConstPush then o.number.val
  else if o = num 76 then 2 ^ 8 - 1
  else if o = num 77 then 2 ^ 16 - 1
  else if o = num 78 then 2 ^ 32 - 1
  else 0

/-- `data_length_nbytes`, opcode.py:307-316. -/
def dataLengthNbytes (o : Opcode) : Except Err Nat :=
  if o = num 76 then .ok 1
  else if o = num 77 then .ok 2
  else if o = num 78 then .ok 4
  else .error (o.mention .opWrongType)

/-- `const_push_for`, opcode.py:267-272. -/
def constPushFor (length : Int) : Except Err Opcode :=
  if ¬ (1 ≤ length ∧ length ≤ 75) then .error .opInvalidConstPushLength else make length

/-- `var_push_for`, opcode.py:274-283. -/
def varPushFor (length : Int) : Except Err Opcode :=
  if length < 1 then .error .opInvalidPushLength
  else match [num 76, num 77, num 78].find? fun o => length ≤ o.dataLengthMax with
    | some o => .ok o
    | none => .error .opInvalidPushLength

/-- `push_for`, opcode.py:285-290. -/
def pushFor (length : Int) : Except Err Opcode :=
  if length ≤ 75 then constPushFor length else varPushFor length

end Opcode
end Bitforge
