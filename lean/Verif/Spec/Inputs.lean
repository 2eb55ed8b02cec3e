import Verif.Spec.Policy

/-! # Specification of what the reference client asks of the inputs of a transaction that it relays

Independent of the model.  Version 0.11 of the reference client: `CScript::GetSigOpCount` of src/script/script.cpp,
`ScriptSigArgsExpected` of src/script/standard.cpp, and `AreInputsStandard`, `GetLegacySigOpCount`, `GetP2SHSigOpCount` and the
limit MAX_STANDARD_TX_SIGOPS of `AcceptToMemoryPool` of src/main.cpp. -/

namespace Bitforge.Spec.Ref

/-- The number of signature operations of an opcode that follows `last`: a multisignature counts as many as there are keys,
if the opcode before it says so and the count is to be accurate, and otherwise twenty. -/
def opCount (accurate : Bool) (last op : Byte) : Nat :=
  if op.val = 172 ∨ op.val = 173 then 1
  else if op.val = 174 ∨ op.val = 175 then
    if accurate ∧ 81 ≤ last.val ∧ last.val ≤ 96 then last.val - 80 else 20
  else 0

/-- `GetSigOpCount`, after the opcode `last`: the count ends where no instruction can be read. -/
inductive Counts (accurate : Bool) : Byte → Bytes → Nat → Prop
  | stop {last : Byte} {b : Bytes} : (∀ i c rest, Wf i → IsWire i c → b ≠ c ++ rest) → Counts accurate last b 0
  | step {last : Byte} {i : WireInstr} {c rest : Bytes} {n : Nat} : Wf i → IsWire i c → Counts accurate i.1 rest n →
      Counts accurate last (c ++ rest) (opCount accurate last i.1 + n)

/-- `GetSigOpCount`: there is no opcode before the first, which OP_INVALIDOPCODE stands for. -/
def SigOps (accurate : Bool) (b : Bytes) (n : Nat) : Prop := Counts accurate 255 b n

/-- `ScriptSigArgsExpected`: how many elements the input script leaves on the stack. -/
def Form.args : Form → Option Nat
  | .pubkey => some 1
  | .pubkeyHash => some 2
  | .scriptHash => some 1
  | .multisig m _ => some (m + 1)
  | .nullData => none

/-- `BaseSignatureChecker`. -/
def noChecker : Checker where
  sig _ _ _ _ := some false
  lockTime _ := false

/-- `AreInputsStandard`, for one input and the script of the output that it spends. -/
def InputStandard (H : Hashes) (i : WireIn) (pub : Bytes) : Prop :=
  ∃ f n is st, IsForm pub f ∧ f.args = some n ∧ Encodes is i.script ∧ eval H noChecker 0 is [] = some st ∧
    (f ≠ .scriptHash → st.length = n) ∧
    (f = .scriptHash → ∃ redeem rest, st = redeem :: rest ∧
      ((∃ g k, IsForm redeem g ∧ g.args = some k ∧ st.length = n + k) ∨
        (∀ g, ¬ IsForm redeem g) ∧ ∃ k, SigOps true redeem k ∧ k ≤ 15))

/-- `GetLegacySigOpCount`. -/
def LegacyOps (w : WireTx) (n : Nat) : Prop :=
  ∃ ns ms : List Nat, List.Forall₂ (fun i k => SigOps false i.script k) w.inputs ns ∧
    List.Forall₂ (fun o k => SigOps false o.script k) w.outputs ms ∧ n = ns.sum + ms.sum

/-- `GetSigOpCount` of the input script of a pay-to-script-hash output: those of the script that it pushes last. -/
def ScriptOps (i : WireIn) (pub : Bytes) (n : Nat) : Prop :=
  (PaysToScript pub ∧ ∃ is, Encodes is i.script ∧ PushOnly is ∧ SigOps true ((is.getLast?.bind (·.2)).getD []) n) ∨
  (¬ (PaysToScript pub ∧ ∃ is, Encodes is i.script ∧ PushOnly is) ∧ n = 0)

/-- The transaction has at most MAX_STANDARD_TX_SIGOPS signature operations; `pubs` are the scripts that it spends. -/
def FewOps (w : WireTx) (pubs : List Bytes) : Prop :=
  ∃ n ms, LegacyOps w n ∧ List.Forall₂ (fun (ip : WireIn × Bytes) k => ScriptOps ip.1 ip.2 k) (w.inputs.zip pubs) ms ∧
    n + ms.sum ≤ 4000

end Bitforge.Spec.Ref
