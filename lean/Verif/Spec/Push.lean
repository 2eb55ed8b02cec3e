import Verif.Spec.Script

/-! # Specification: what an instruction pushes, and the smallest way to push it -/

namespace Bitforge.Spec

/-- What an instruction pushes: its data, nothing (`OP_0`), the byte of -1 (`OP_1NEGATE`), or the byte of a number from 1
to 16. -/
def pushed : WireInstr → Option Bytes
  | (_, some d) => some d
  | (op, none) =>
    if op.val = 0 then some []
    else if op.val = 79 then some [0x81]
    else if h : 81 ≤ op.val ∧ op.val ≤ 96 then some [⟨op.val - 80, by omega⟩]
    else none

/-- The number of bytes that an instruction takes. -/
def wireSize : WireInstr → Nat
  | (_, none) => 1
  | (op, some d) => match pushKind op with
    | .plain => 1
    | .direct _ => 1 + d.length
    | .counted w => 1 + w + d.length

/-- No instruction pushes the same in fewer bytes. -/
def MinimalPush (i : WireInstr) : Prop :=
  ∀ j, Wf j → pushed j = pushed i → wireSize i ≤ wireSize j

/-- The instruction that `CScript << b` of the reference client appends. -/
def pushOf (b : Bytes) : WireInstr :=
  if b.length = 0 then (0, none)
  else (Fin.ofNat 256 (if b.length ≤ 75 then b.length else if b.length ≤ 255 then 76
    else if b.length ≤ 65535 then 77 else 78), some b)

end Bitforge.Spec
