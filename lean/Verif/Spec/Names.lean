import Verif.Spec.Script
import Verif.Spec.Decimal
import Verif.Spec.Tx

/-! # Specification of opcode names and of the text form of scripts

The opcode names are those of the reference client, `script.h`, in the order of their numbers. -/

namespace Bitforge.Spec

/-- Consecutive numbers for a list of names. -/
def numbered : Nat → List String → List (String × Nat)
  | _, [] => []
  | n, s :: rest => (s, n) :: numbered (n + 1) rest

/-- The names of the opcodes without data, from 79 on. -/
def plainNames : List String := [
  "OP_1NEGATE", "OP_RESERVED", "OP_1", "OP_2", "OP_3", "OP_4", "OP_5", "OP_6", "OP_7", "OP_8", "OP_9", "OP_10", "OP_11",
  "OP_12", "OP_13", "OP_14", "OP_15", "OP_16",
  -- control
  "OP_NOP", "OP_VER", "OP_IF", "OP_NOTIF", "OP_VERIF", "OP_VERNOTIF", "OP_ELSE", "OP_ENDIF", "OP_VERIFY", "OP_RETURN",
  -- stack
  "OP_TOALTSTACK", "OP_FROMALTSTACK", "OP_2DROP", "OP_2DUP", "OP_3DUP", "OP_2OVER", "OP_2ROT", "OP_2SWAP", "OP_IFDUP",
  "OP_DEPTH", "OP_DROP", "OP_DUP", "OP_NIP", "OP_OVER", "OP_PICK", "OP_ROLL", "OP_ROT", "OP_SWAP", "OP_TUCK",
  -- splice
  "OP_CAT", "OP_SUBSTR", "OP_LEFT", "OP_RIGHT", "OP_SIZE",
  -- bit logic
  "OP_INVERT", "OP_AND", "OP_OR", "OP_XOR", "OP_EQUAL", "OP_EQUALVERIFY", "OP_RESERVED1", "OP_RESERVED2",
  -- numbers
  "OP_1ADD", "OP_1SUB", "OP_2MUL", "OP_2DIV", "OP_NEGATE", "OP_ABS", "OP_NOT", "OP_0NOTEQUAL", "OP_ADD", "OP_SUB",
  "OP_MUL", "OP_DIV", "OP_MOD", "OP_LSHIFT", "OP_RSHIFT", "OP_BOOLAND", "OP_BOOLOR", "OP_NUMEQUAL", "OP_NUMEQUALVERIFY",
  "OP_NUMNOTEQUAL", "OP_LESSTHAN", "OP_GREATERTHAN", "OP_LESSTHANOREQUAL", "OP_GREATERTHANOREQUAL", "OP_MIN", "OP_MAX",
  "OP_WITHIN",
  -- crypto
  "OP_RIPEMD160", "OP_SHA1", "OP_SHA256", "OP_HASH160", "OP_HASH256", "OP_CODESEPARATOR", "OP_CHECKSIG",
  "OP_CHECKSIGVERIFY", "OP_CHECKMULTISIG", "OP_CHECKMULTISIGVERIFY",
  -- expansion
  "OP_NOP1", "OP_CHECKLOCKTIMEVERIFY", "OP_NOP3", "OP_NOP4", "OP_NOP5", "OP_NOP6", "OP_NOP7", "OP_NOP8", "OP_NOP9",
  "OP_NOP10"]

/-- All names: `OP_0`, the counted pushes, the above, the placeholders of templates, and two synonyms. -/
def opcodeNames : List (String × Nat) :=
  numbered 0 ["OP_0"] ++ numbered 76 ["OP_PUSHDATA1", "OP_PUSHDATA2", "OP_PUSHDATA4"] ++ numbered 79 plainNames ++
  numbered 253 ["OP_PUBKEYHASH", "OP_PUBKEY", "OP_INVALIDOPCODE"] ++ [("OP_FALSE", 0), ("OP_TRUE", 81)]

/-- The reserved opcodes that make a script invalid just by being there have no name in the library. -/
def forbiddenNames : List String := ["OP_VER", "OP_VERIF", "OP_VERNOTIF"]

/-- `name` is a name for the opcode. -/
def NameOf (name : Text) (op : Byte) : Prop :=
  ∃ s, s ∉ forbiddenNames ∧ name = s.toList ∧ (s, op.val) ∈ opcodeNames

/-- A number in decimal digits, without leading zeros. -/
def Decimal (t : Text) (n : Nat) : Prop := t ≠ [] ∧ Digits t ∧ digitsValue t = n ∧ (t.head? = some '0' → t = ['0'])

/-- Bytes in hexadecimal digits of either case, after `0x`. -/
def HexBytes (t : Text) (b : Bytes) : Prop :=
  ∃ h : Text, t = '0' :: 'x' :: h ∧ (∀ c ∈ h, c ∈ "0123456789abcdefABCDEF".toList) ∧ h.map Char.toLower = hexText b

/-- The words for one instruction.  The numbers may be in the digits of any script. -/
inductive Words : List Text → WireInstr → Prop
  | plain {name op} : NameOf name op → pushKind op = .plain → Words [name] (op, none)
  | direct {size hex : Text} {op : Byte} {b : Bytes} : pushKind op = .direct b.length → Numeral size b.length →
      HexBytes hex b → Words [size, hex] (op, some b)
  | counted {name size hex : Text} {op : Byte} {b : Bytes} {w : Nat} : NameOf name op → pushKind op = .counted w →
      b.length < 256 ^ w → Numeral size b.length → HexBytes hex b → Words [name, size, hex] (op, some b)

/-- The words for a list of instructions. -/
inductive Spelled : List Text → List WireInstr → Prop
  | nil : Spelled [] []
  | cons {ws i rest is} : Words ws i → Spelled rest is → Spelled (ws ++ rest) (i :: is)

end Bitforge.Spec
