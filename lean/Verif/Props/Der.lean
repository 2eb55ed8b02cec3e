import Verif.Proofs.Der

/-! # C55: strict DER signatures -/

namespace Bitforge
open Spec

/-- C55. `validate_signature` never raises on a byte string, and accepts exactly the strict DER
signatures. -/
theorem C55_strict_der (sig : Bytes) :
    ∃ b, validateSignature ⟨.str, sig⟩ = .ok b ∧ (b = true ↔ StrictDer sig) := by
  obtain ⟨b, h, hb⟩ := validate_eq sig
  exact ⟨b, h, hb.trans (checks_iff sig)⟩

/-- A signature with `R = 1` and `S = 128` (padded, since its top bit is set). -/
def derSample : Bytes := [0x30, 0x07, 0x02, 0x01, 0x01, 0x02, 0x02, 0x00, 0x80, 0x01]

example : validateSignature ⟨.str, derSample⟩ = .ok true := by decide +kernel
example : StrictDer derSample := by
  obtain ⟨b, h, hb⟩ := C55_strict_der derSample
  have : validateSignature ⟨.str, derSample⟩ = .ok true := by decide +kernel
  rw [this] at h; injection h with h; exact hb.mp h.symm
example : validateSignature ⟨.str, [0x30, 0x07, 0x02, 0x01, 0x01, 0x02, 0x02, 0x00, 0x7f, 0x01]⟩ = .ok false := by
  decide +kernel

/-- C55. The integers of an accepted signature are determined by it: the format is unambiguous. -/
theorem C55_unambiguous (r s r' s' rb sb rb' sb' seq seq' : Bytes) (h h' : Byte)
    (k1 : Tlv 0x02 r rb) (k2 : Tlv 0x02 s sb) (k3 : Tlv 0x30 (rb ++ sb) seq)
    (l1 : Tlv 0x02 r' rb') (l2 : Tlv 0x02 s' sb') (l3 : Tlv 0x30 (rb' ++ sb') seq')
    (e : seq ++ [h] = seq' ++ [h']) : r = r' ∧ s = s' ∧ h = h' := by
  obtain ⟨d, hd, rfl⟩ := k1
  obtain ⟨f, hf, rfl⟩ := k2
  obtain ⟨b, hb, rfl⟩ := k3
  obtain ⟨d', hd', rfl⟩ := l1
  obtain ⟨f', hf', rfl⟩ := l2
  obtain ⟨b', hb', rfl⟩ := l3
  simp only [List.cons_append, List.cons.injEq, true_and, List.append_assoc] at e
  obtain ⟨rfl, rfl, e⟩ := e
  obtain ⟨rfl, e2⟩ := List.append_inj e (by omega)
  simp only [List.cons.injEq, true_and] at e2
  obtain ⟨rfl, e3⟩ := e2
  obtain ⟨rfl, e4⟩ := List.append_inj e3 (by omega)
  simp at e4
  exact ⟨rfl, rfl, e4⟩

example : Tlv 0x02 [0x01] [0x02, 0x01, 0x01] := ⟨1, rfl, rfl⟩

/-- C55. On a `bytearray` (other than the empty one) `validate_signature` raises a TypeError. -/
theorem C55_bytearray (sig : Bytes) : validateSignature ⟨.bytearray, sig⟩ =
    if sig = [] then .ok false else .error .typeError := by
  cases sig <;> rfl

example : validateSignature ⟨.bytearray, derSample⟩ = .error .typeError := by decide +kernel

end Bitforge
