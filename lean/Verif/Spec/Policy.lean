import Verif.Spec.Tx
import Verif.Spec.Script
import Verif.Spec.Consensus

/-! # Specification of what the reference client asks of a transaction before it looks at its scripts

Independent of the model.  Version 0.11 of the reference client: `CheckTransaction`, `IsStandardTx` and `IsFinalTx` of
src/main.cpp, `Solver` of src/script/standard.cpp and `IsDust` of src/primitives/transaction.h. -/

namespace Bitforge.Spec.Ref

/-! ## `CheckTransaction` -/

/-- `MAX_MONEY`: twenty-one million coins. -/
def maxMoney : Nat := 21000000 * 10 ^ 8

/-- `COutPoint::IsNull`: the previous output of a coinbase. -/
def Null (i : WireIn) : Prop := i.txid = List.replicate 32 0 ∧ i.index = 2 ^ 32 - 1

/-- `CheckTransaction`. -/
structure Checks (w : WireTx) : Prop where
  inputs : w.inputs ≠ []
  outputs : w.outputs ≠ []
  size : w.bytes.length ≤ 1000000
  amounts : ∀ o ∈ w.outputs, o.amount ≤ maxMoney
  total : (w.outputs.map WireOut.amount).sum ≤ maxMoney
  distinct : (w.inputs.map fun i => (i.txid, i.index)).Nodup
  coinbase : ∀ i, w.inputs = [i] → Null i → 2 ≤ i.script.length ∧ i.script.length ≤ 100
  ordinary : (¬ ∃ i, w.inputs = [i] ∧ Null i) → ∀ i ∈ w.inputs, ¬ Null i

/-! ## `IsFinalTx` -/

/-- Lock times below are heights, the others are times. -/
def lockThreshold : Nat := 500000000

/-- `IsFinalTx`: the transaction may be in a block at this height and time. -/
def Final (w : WireTx) (height time : Nat) : Prop :=
  w.lockTime = 0 ∨ w.lockTime < (if w.lockTime < lockThreshold then height else time) ∨
    ∀ i ∈ w.inputs, i.sequence = 2 ^ 32 - 1

/-! ## `IsStandardTx` -/

/-- The forms of output scripts that are relayed. -/
inductive Form
  | pubkey
  | pubkeyHash
  | scriptHash
  | multisig (m n : Nat)
  | nullData
  deriving DecidableEq

/-- The instruction pushes these bytes by one of the opcodes 1 to 78. -/
def Pushes (i : WireInstr) (d : Bytes) : Prop := i.2 = some d

/-- `DecodeOP_N`: the small number that the opcode stands for. -/
def smallNumber (op : Byte) : Option Nat :=
  if op.val = 0 then some 0 else if 81 ≤ op.val ∧ op.val ≤ 96 then some (op.val - 80) else none

/-- `Solver`: the script is of the form. -/
inductive IsForm : Bytes → Form → Prop
  | scriptHash {pub : Bytes} : PaysToScript pub → IsForm pub .scriptHash
  | pubkey {pub k : Bytes} {i : WireInstr} : Encodes [i, (172, none)] pub → Pushes i k → 33 ≤ k.length → k.length ≤ 65 →
      IsForm pub .pubkey
  | pubkeyHash {pub h : Bytes} {i : WireInstr} : Encodes [(118, none), (169, none), i, (136, none), (172, none)] pub →
      Pushes i h → h.length = 20 → IsForm pub .pubkeyHash
  | multisig {pub : Bytes} {ops : List WireInstr} {ks : List Bytes} {opM opN : Byte} {m : Nat} :
      Encodes ((opM, none) :: (ops ++ [(opN, none), (174, none)])) pub → List.Forall₂ Pushes ops ks →
      (∀ k ∈ ks, 33 ≤ k.length ∧ k.length ≤ 65) → smallNumber opM = some m → smallNumber opN = some ks.length → 1 ≤ m →
      m ≤ ks.length → IsForm pub (.multisig m ks.length)
  | nullData {pub : Bytes} {i : WireInstr} : Encodes [(106, none), i] pub → (i.2.getD []).length ≤ 80 → IsForm pub .nullData
  | nullEmpty : IsForm [106] .nullData

/-- `IsStandard`: at most three keys in a bare multisignature. -/
def Form.Ok : Form → Prop
  | .multisig _ n => n ≤ 3
  | _ => True

/-- `CFeeRate::GetFee`. -/
def feeFor (rate size : Nat) : Nat := if rate * size / 1000 = 0 then rate else rate * size / 1000

/-- `IsDust`: the amount is less than three times the fee for making and spending the output. -/
def Dust (rate : Nat) (o : WireOut) : Prop := o.amount < 3 * feeFor rate (o.bytes.length + 148)

/-- An output that is relayed. -/
def OutputOk (rate : Nat) (o : WireOut) : Prop :=
  ∃ f, IsForm o.script f ∧ f.Ok ∧ (f ≠ .nullData → ¬ Dust rate o)

/-- An input that is relayed: only pushes, and at most 1650 bytes. -/
def InputOk (i : WireIn) : Prop := i.script.length ≤ 1650 ∧ ∃ s, Encodes s i.script ∧ PushOnly s

open Classical in
/-- `IsStandardTx`, with the minimal fee in units per thousand bytes that the client asks for. -/
structure Standard (rate : Nat) (w : WireTx) : Prop where
  version : w.version = 1
  size : w.bytes.length < 100000
  inputs : ∀ i ∈ w.inputs, InputOk i
  outputs : ∀ o ∈ w.outputs, OutputOk rate o
  data : (w.outputs.filter fun o => decide (IsForm o.script .nullData)).length ≤ 1

end Bitforge.Spec.Ref
