import Verif.Spec.Tx

/-! # Specification of the transaction format as a relation

Unlike `WireTx.bytes`, the counts and lengths may be written in any of the four widths that hold them. -/

namespace Bitforge.Spec

/-- The ways of writing a compact size. -/
inductive CountForm : Nat → Bytes → Prop
  | one (n : Nat) (h : n < 253) : CountForm n [⟨n, by omega⟩]
  | two (n : Nat) (h : n < 2 ^ 16) : CountForm n (253 :: le 2 n)
  | four (n : Nat) (h : n < 2 ^ 32) : CountForm n (254 :: le 4 n)
  | eight (n : Nat) (h : n < 2 ^ 64) : CountForm n (255 :: le 8 n)

/-- The ways of writing an input. -/
def WireIn.Form (i : WireIn) (b : Bytes) : Prop :=
  ∃ c, CountForm i.script.length c ∧ b = i.txid ++ le 4 i.index ++ c ++ i.script ++ le 4 i.sequence

/-- The ways of writing an output. -/
def WireOut.Form (o : WireOut) (b : Bytes) : Prop :=
  ∃ c, CountForm o.script.length c ∧ b = le 8 o.amount ++ c ++ o.script

/-- One after the other. -/
inductive Listed {β : Type} (R : β → Bytes → Prop) : List β → Bytes → Prop
  | nil : Listed R [] []
  | cons {y : β} {b : Bytes} {ys : List β} {bs : Bytes} : R y b → Listed R ys bs → Listed R (y :: ys) (b ++ bs)

/-- The ways of writing a transaction. -/
def WireTx.Form (t : WireTx) (b : Bytes) : Prop :=
  ∃ c is d os, CountForm t.inputs.length c ∧ Listed WireIn.Form t.inputs is ∧ CountForm t.outputs.length d ∧
    Listed WireOut.Form t.outputs os ∧ b = le 4 t.version ++ c ++ is ++ d ++ os ++ le 4 t.lockTime

end Bitforge.Spec
