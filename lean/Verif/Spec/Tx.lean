import Verif.Spec.Codec

/-! # Specification of the Bitcoin transaction format

Independent of the model: a transaction on the wire is a record of numbers and byte strings. -/

namespace Bitforge.Spec

/-- The `w` low bytes of `n`, least significant first. -/
def le : Nat → Nat → Bytes
  | 0, _ => []
  | w + 1, n => ⟨n % 256, Nat.mod_lt _ (by decide)⟩ :: le w (n / 256)

/-- A compact size: one byte below 253, otherwise a marker and 2, 4 or 8 bytes. -/
def compactSize (n : Nat) : Bytes :=
  if h : n < 253 then [⟨n, by omega⟩]
  else if n < 2 ^ 16 then 253 :: le 2 n
  else if n < 2 ^ 32 then 254 :: le 4 n
  else 255 :: le 8 n

/-- Two lower-case hexadecimal digits per byte. -/
def hexText (b : Bytes) : Text :=
  let digit (n : Nat) : Char := if n < 10 then Char.ofNat (48 + n) else Char.ofNat (87 + n)
  (b.map fun x => [digit (x.val / 16), digit (x.val % 16)]).flatten

/-- An input on the wire; `txid` is the hash of the previous transaction as it is hashed. -/
structure WireIn where
  txid : Bytes
  index : Nat
  script : Bytes
  sequence : Nat
  deriving DecidableEq

/-- An output on the wire. -/
structure WireOut where
  amount : Nat
  script : Bytes
  deriving DecidableEq

/-- A transaction on the wire. -/
structure WireTx where
  version : Nat
  inputs : List WireIn
  outputs : List WireOut
  lockTime : Nat
  deriving DecidableEq

def WireIn.bytes (i : WireIn) : Bytes :=
  i.txid ++ le 4 i.index ++ compactSize i.script.length ++ i.script ++ le 4 i.sequence

def WireOut.bytes (o : WireOut) : Bytes := le 8 o.amount ++ compactSize o.script.length ++ o.script

def WireTx.bytes (t : WireTx) : Bytes :=
  le 4 t.version ++ compactSize t.inputs.length ++ (t.inputs.map WireIn.bytes).flatten ++
    compactSize t.outputs.length ++ (t.outputs.map WireOut.bytes).flatten ++ le 4 t.lockTime

/-- The fields fit their widths. -/
def WireIn.Fits (i : WireIn) : Prop :=
  i.txid.length = 32 ∧ i.index < 2 ^ 32 ∧ i.script.length < 2 ^ 64 ∧ i.sequence < 2 ^ 32

def WireOut.Fits (o : WireOut) : Prop := o.amount < 2 ^ 64 ∧ o.script.length < 2 ^ 64

def WireTx.Fits (t : WireTx) : Prop :=
  t.version < 2 ^ 32 ∧ t.lockTime < 2 ^ 32 ∧ (∀ i ∈ t.inputs, i.Fits) ∧ (∀ o ∈ t.outputs, o.Fits) ∧
    t.inputs.length < 2 ^ 63 ∧ t.outputs.length < 2 ^ 63

/-- The transaction with every input script emptied but the one at `n`. -/
def WireTx.blank (t : WireTx) (n : Nat) : WireTx :=
  { t with inputs := t.inputs.mapIdx fun i x => if i = n then x else { x with script := [] } }

end Bitforge.Spec
