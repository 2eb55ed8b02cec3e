import Verif.Spec.Reference
import Verif.Spec.Ecdsa
import Verif.Spec.Der

/-! # The signature checks of the reference client

`SignatureHash`, `TransactionSignatureChecker` and `VerifyScript` with pay to script hash (BIP 16) of Bitcoin Core as of
2015, with strict DER required of every signature (BIP 66).  Independent of the model. -/

namespace Bitforge.Spec.Ref

/-- The inputs that are hashed for the input at `n`, with script `code`: all of them, the others without script; the
sequence numbers of the others are zero under SIGHASH_NONE (2) and SIGHASH_SINGLE (3); the others are left out under
SIGHASH_ANYONECANPAY (0x80). -/
def hashInputs (w : WireTx) (n : Nat) (code : Bytes) (hashType : Nat) : List WireIn :=
  if hashType.testBit 7 then (w.inputs[n]?.map fun x => { x with script := code }).toList
  else w.inputs.mapIdx fun i x =>
    if i = n then { x with script := code }
    else { x with script := [], sequence := if hashType % 32 = 2 ∨ hashType % 32 = 3 then 0 else x.sequence }

/-- The outputs that are hashed: none under SIGHASH_NONE; under SIGHASH_SINGLE the one at `n`, after blanks. -/
def hashOutputs (w : WireTx) (n : Nat) (hashType : Nat) : List WireOut :=
  if hashType % 32 = 2 then []
  else if hashType % 32 = 3 then (w.outputs.take (n + 1)).mapIdx fun i o => if i = n then o else ⟨2 ^ 64 - 1, []⟩
  else w.outputs

/-- `SignatureHash`; the number one, least significant byte first, if there is no such input or output. -/
def signatureHash (H : Hashes) (w : WireTx) (n : Nat) (code : Bytes) (hashType : Nat) : Bytes :=
  if n ≥ w.inputs.length ∨ hashType % 32 = 3 ∧ n ≥ w.outputs.length then 1 :: List.replicate 31 0
  else H.sha256 (H.sha256 (({ w with inputs := hashInputs w n code hashType,
                                      outputs := hashOutputs w n hashType } : WireTx).bytes ++ le 4 hashType))

/-- The script that is signed: without the signatures themselves (`FindAndDelete`) and without OP_CODESEPARATOR. -/
def scriptCode (sigs : List Bytes) (code : List WireInstr) : List WireInstr :=
  code.filter fun i => decide (i.1 ≠ 171 ∧ ∀ s ∈ sigs, i ≠ pushOf s)

/-- `CheckSig`: the signature, without its last byte, is one of the digest for that hash type, by the key. -/
def Signed (H : Hashes) (w : WireTx) (n : Nat) (code : List WireInstr) (sigs : List Bytes) (sig key : Bytes) : Prop :=
  ∃ (der : Bytes) (hashType : Byte) (r s : Int) (x y : Nat) (c : Bool) (Q : SecpGroup) (cb : Bytes),
    sig = der ++ [hashType] ∧ SigText der r s ∧ Sec x y c key ∧ reduced x ∧ reduced y ∧ IsPoint x y Q ∧
    Encodes (scriptCode sigs code) cb ∧ ValidSig Q (beValue (signatureHash H w n cb hashType.val)) r s

/-- `CheckSignatureEncoding`: empty, or strict DER; with small `s` under SCRIPT_VERIFY_LOW_S (bit 3); with a hash type
1, 2 or 3, with or without 0x80, under SCRIPT_VERIFY_STRICTENC (bit 1). -/
def SigEncoding (flags : Nat) (sig : Bytes) : Prop :=
  sig = [] ∨ StrictDer sig ∧
    (flags.testBit 3 → ∃ der t r s, sig = der ++ [t] ∧ SigText der r s ∧ 2 * s ≤ secpN) ∧
    (flags.testBit 1 → ∃ (der : Bytes) (t : Byte), sig = der ++ [t] ∧ 1 ≤ t.val % 128 ∧ t.val % 128 ≤ 3)

/-- `CheckPubKeyEncoding`: compressed or uncompressed, under SCRIPT_VERIFY_STRICTENC. -/
def KeyEncoding (flags : Nat) (key : Bytes) : Prop :=
  flags.testBit 1 → key.length = 33 ∧ (key.head? = some 2 ∨ key.head? = some 3) ∨
    key.length = 65 ∧ key.head? = some 4

open Classical in
/-- `TransactionSignatureChecker`, for the input at `n`, with the checks of encodings that precede it. -/
noncomputable def checker (H : Hashes) (flags : Nat) (w : WireTx) (n : Nat) : Checker where
  sig code sigs sig key :=
    if SigEncoding flags sig ∧ KeyEncoding flags key then some (decide (Signed H w n code sigs sig key)) else none
  lockTime v := decide ((w.lockTime < 500000000 ∧ v < 500000000 ∨ 500000000 ≤ w.lockTime ∧ 500000000 ≤ v) ∧
    v ≤ w.lockTime ∧ ∃ x ∈ w.inputs[n]?, x.sequence ≠ 2 ^ 32 - 1)

/-- Only pushes. -/
def PushOnly (s : List WireInstr) : Prop := ∀ i ∈ s, i.1.val ≤ 96

/-- The stack that a script leaves: true on top, and nothing below under SCRIPT_VERIFY_CLEANSTACK (bit 8). -/
def Succeeds (st : List Bytes) : Prop := ∃ x rest, st = x :: rest ∧ truth x = true

def Clean (flags : Nat) (st : List Bytes) : Prop := flags.testBit 8 → st.length = 1

/-- `IsPayToScriptHash`. -/
def PaysToScript (pub : Bytes) : Prop := ∃ h : Bytes, h.length = 20 ∧ pub = 169 :: 20 :: (h ++ [135])

open Classical in
/-- `VerifyScript`: the input script `sig` spends the output script `pub`.  With SCRIPT_VERIFY_P2SH (bit 0), the last push
of the input script of a pay-to-script-hash output is evaluated as a script. -/
def Accepts (H : Hashes) (C : Checker) (flags : Nat) (sig pub : Bytes) : Prop :=
  ∃ s p st st', Encodes s sig ∧ Encodes p pub ∧ (flags.testBit 5 → PushOnly s) ∧
    eval H C flags s [] = some st ∧ eval H C flags p st = some st' ∧ Succeeds st' ∧
    if flags.testBit 0 ∧ PaysToScript pub then
      PushOnly s ∧ ∃ redeem rest r st'', st = redeem :: rest ∧ Encodes r redeem ∧
        eval H C flags r rest = some st'' ∧ Succeeds st'' ∧ Clean flags st''
    else Clean flags st'

/-- The input at `n` of `w` is accepted as spending an output with script `pub`. -/
def Spends (H : Hashes) (flags : Nat) (w : WireTx) (n : Nat) (pub : Bytes) : Prop :=
  ∃ x, w.inputs[n]? = some x ∧ Accepts H (checker H flags w n) flags x.script pub

end Bitforge.Spec.Ref
