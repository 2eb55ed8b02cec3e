import Verif.Spec.Codec

/-! # Specification of Bitcoin script: the wire format, and the standard templates

Independent of the model: opcodes are bytes, instructions are pairs of a byte and optional data. -/

namespace Bitforge.Spec

/-- How a byte is used as an opcode. -/
inductive PushKind
  | direct (n : Nat)      -- 1..75: the next `n` bytes are data
  | counted (width : Nat) -- 76, 77, 78: a little-endian count of `width` bytes, then that many bytes of data
  | plain                 -- no data
  deriving DecidableEq

/-- The meaning of each opcode byte. -/
def pushKind (op : Byte) : PushKind :=
  if op.val = 0 then .plain
  else if op.val < 76 then .direct op.val
  else if op.val = 76 then .counted 1
  else if op.val = 77 then .counted 2
  else if op.val = 78 then .counted 4
  else .plain

/-- An instruction as it appears on the wire: an opcode byte and the pushed data, if it pushes. -/
abbrev WireInstr := Byte × Option Bytes

/-- Well-formed instructions. -/
def Wf : WireInstr → Prop
  | (op, none) => pushKind op = .plain
  | (op, some d) => match pushKind op with
    | .plain => False
    | .direct n => d.length = n
    | .counted w => d.length < 256 ^ w

/-- `b` is the encoding of the instruction. -/
def IsWire : WireInstr → Bytes → Prop
  | (op, none), b => b = [op]
  | (op, some d), b => match pushKind op with
    | .plain => False
    | .direct _ => b = op :: d
    | .counted w => ∃ c : Bytes, c.length = w ∧ leValue c = d.length ∧ b = op :: c ++ d

/-- `b` is the concatenation of the encodings of well-formed instructions. -/
inductive Encodes : List WireInstr → Bytes → Prop
  | nil : Encodes [] []
  | cons {i is b bs} : Wf i → IsWire i b → Encodes is bs → Encodes (i :: is) (b ++ bs)

/-- Number of bytes an opcode needs before the data of a push of `n` bytes, when it can push that many. -/
def pushOverhead (op : Byte) (n : Nat) : Option Nat := match pushKind op with
  | .plain => none
  | .direct k => if n = k then some 1 else none
  | .counted w => if n < 256 ^ w then some (1 + w) else none

/-- The shape of a script: its opcodes, with the pushes abstracted. -/
def shape (is : List WireInstr) : List (Option Byte) := is.map fun i =>
  if pushKind i.1 = .plain then some i.1 else none

/-- Small-number opcodes: `OP_0`, and `OP_1`..`OP_16`. -/
def smallNumber (op : Byte) : Option Nat :=
  if op.val = 0 then some 0 else if 81 ≤ op.val ∧ op.val ≤ 96 then some (op.val - 80) else none

/-- The six standard templates. -/
inductive Template
  | p2pkhIn | p2pkhOut | p2shIn | p2shOut | nullData | multisig
  deriving DecidableEq

/-- Which shapes match which template (`none` is a push). -/
def Matches (t : Template) (s : List (Option Byte)) : Prop := match t with
  | .p2pkhIn => s = [none, none]
  | .p2pkhOut => s = [some 118, some 169, none, some 136, some 172]
  | .p2shIn => ∃ k, 2 ≤ k ∧ s = some 0 :: List.replicate k none
  | .p2shOut => s = [some 169, none, some 135]
  | .nullData => s = [some 106, none]
  | .multisig => ∃ m n k, 1 ≤ k ∧ (smallNumber m).isSome ∧ (smallNumber n).isSome ∧
      s = some m :: (List.replicate k none ++ [some n, some 174])

/-- Opcodes that have a name in the reference client (`OP_VERIF`, `OP_VER` and `OP_VERNOTIF` have none here). -/
def Named (b : Byte) : Prop := b.val ≤ 97 ∨ b.val = 99 ∨ b.val = 100 ∨ 103 ≤ b.val ∧ b.val ≤ 185 ∨ 253 ≤ b.val

instance : DecidablePred Named := fun b => by unfold Named; infer_instance

instance : DecidablePred Wf := fun w => match w with
  | (op, none) => inferInstanceAs (Decidable (pushKind op = .plain))
  | (op, some d) => match h : pushKind op with
    | .plain => isFalse (by simp [Wf, h])
    | .direct n => decidable_of_iff (d.length = n) (by simp [Wf, h])
    | .counted w => decidable_of_iff (d.length < 256 ^ w) (by simp [Wf, h])

end Bitforge.Spec
