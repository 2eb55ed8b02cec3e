import Verif.Props.Standard
import Verif.Props.Instances
import Verif.Proofs.RefSound

/-! # C113, continued: which signed inputs that spend scripts the reference client relays -/

namespace Bitforge.Relay
open Spec Transaction Interpreter

theorem pushOf_short (b : Bytes) (h1 : 1 ≤ b.length) (h2 : b.length ≤ 75) : wireSize (pushOf b) = 1 + b.length := by
  rw [wire_size (pushOf_isWire b h1 h2), shortPush_length, Nat.add_comm]

theorem pushOf_least (b : Bytes) : 1 + b.length ≤ wireSize (pushOf b) := by
  by_cases h0 : b.length = 0
  · unfold pushOf; rw [if_pos h0]; simp only [wireSize]; omega
  · obtain ⟨h2, h3, h4, -⟩ := Ref.pushOf_op b (by omega)
    have e : pushOf b = ((pushOf b).1, some b) := Prod.ext rfl h2
    rw [e]
    generalize (pushOf b).1 = op at *
    have hk : ∀ op : Byte, 1 ≤ op.val → op.val ≤ 78 → pushKind op ≠ .plain := by decide +kernel
    unfold wireSize
    simp only []
    split
    · next q => exact absurd q (hk op h3 h4)
    · omega
    · omega

theorem pushOf_small (b : Bytes) : (pushOf b).1.val ≤ 96 := by
  by_cases h0 : b.length = 0
  · unfold pushOf; rw [if_pos h0]; decide
  · have := (Ref.pushOf_op b (by omega)).2.2.1
    omega

theorem sigs_size {f : PrivateKey → SecpGroup} {m : Bytes} {st : Nat} {ks : List PrivateKey} {sbs : List Bytes}
    (h : List.Forall₂ (fun k b => SignsDigest (f k) m st b) ks sbs) : 10 * ks.length ≤ ((sbs.map pushOf).map wireSize).sum ∧
      ((sbs.map pushOf).map wireSize).sum ≤ 74 * ks.length := by
  induction h with
  | nil => simp
  | @cons k b _ _ hb _ ih =>
    obtain ⟨h9, h73, _⟩ := signsDigest_head hb
    have := pushOf_short b (by omega) (by omega)
    simp only [List.map_cons, List.sum_cons, List.length_cons]
    omega

/-- C113. A signed `ScriptInput` or `MultisigInput` only pushes, so that it is relayed exactly if its script has at most
1650 bytes; it has as many as the signatures and the script that is spent, and one to five for each push. -/
theorem C113_signed (H : Hashes) (nonces : Nat → Nat) (hν : NoncesOk nonces) (t u v : Transaction) (ks : List PrivateKey)
    (n : Nat) (st : Int) (x : Input) (hcls : x.cls = .script ∨ x.cls = .multisig) (ht : t.InRange)
    (hx : t.inputs[n]? = some x) (h : t.sign H (keySigner nonces) ks n st = .ok u) (hv : Signs H u v) (w : WireTx)
    (hw : v.Shows w) (rb : Bytes) (hrb : x.script.toBytes = .ok rb) :
    ∃ i, w.inputs[n]? = some i ∧ (Ref.InputOk i ↔ i.script.length ≤ 1650) ∧
      2 + 10 * ks.length + rb.length ≤ i.script.length ∧ i.script.length ≤ 6 + 74 * ks.length + rb.length := by
  obtain ⟨w0, y, sbs, rb', hw0, hy, hrb2, hsig, _, _, hwires⟩ := C74_script H nonces hν t u ks n st _ ht hx hcls h
  rw [hrb] at hrb2
  cases hrb2
  obtain ⟨_, _, _, _, _, hfr⟩ := C37_frame H _ t u ks n st h
  obtain ⟨_, y', _, _, hy', _, _, _, _, _, hgen⟩ := hfr n rfl
  rw [hy] at hy'
  cases hy'
  obtain ⟨i, hi, his⟩ := shows_get hw.2.1 (signs_generic hv hy hgen)
  have he : Encodes ((0, none) :: (sbs ++ [rb]).map pushOf) i.script := hwires ▸ his.2.2.1
  refine ⟨i, hi, ⟨fun h => h.1, fun h => ⟨h, _, he, ?_⟩⟩, ?_⟩
  · intro j hj
    rcases List.mem_cons.1 hj with rfl | hj
    · decide
    · obtain ⟨b, _, rfl⟩ := List.mem_map.1 hj
      exact pushOf_small b
  · rw [← size_spec he]
    have hs := sigs_size hsig
    have h1 := pushOf_least rb
    have h2 := Ref.pushOf_size rb
    simp only [Ref.size, List.map_cons, List.sum_cons, Ref.op_size, List.map_append, List.sum_append, List.map_nil,
      List.sum_nil]
    omega

/-- C113. It is enough that the script that is spent has at most 520 bytes, as the reference client asks of it (`C94_size`),
and that there are at most fifteen signatures. -/
theorem C113_spend (H : Hashes) (nonces : Nat → Nat) (hν : NoncesOk nonces) (t u v : Transaction) (ks : List PrivateKey)
    (n : Nat) (st : Int) (x : Input) (hcls : x.cls = .script ∨ x.cls = .multisig) (ht : t.InRange)
    (hx : t.inputs[n]? = some x) (h : t.sign H (keySigner nonces) ks n st = .ok u) (hv : Signs H u v) (w : WireTx)
    (hw : v.Shows w) (rb : Bytes) (hrb : x.script.toBytes = .ok rb) (h520 : rb.length ≤ 520) (hks : ks.length ≤ 15) :
    ∃ i, w.inputs[n]? = some i ∧ Ref.InputOk i := by
  obtain ⟨i, hi, hiff, _, hle⟩ := C113_signed H nonces hν t u v ks n st x hcls ht hx h hv w hw rb hrb
  exact ⟨i, hi, hiff.2 (by omega)⟩

/-- C113 is false of the code: an input that spends a longer script, or has too many signatures, is signed all the same
(`C74_script_succeeds`), and the transaction is not relayed, whatever the fee. -/
theorem C113_spend_refuted (H : Hashes) (nonces : Nat → Nat) (hν : NoncesOk nonces) (t u v : Transaction)
    (ks : List PrivateKey) (n : Nat) (st : Int) (x : Input) (hcls : x.cls = .script ∨ x.cls = .multisig) (ht : t.InRange)
    (hx : t.inputs[n]? = some x) (h : t.sign H (keySigner nonces) ks n st = .ok u) (hv : Signs H u v) (w : WireTx)
    (hw : v.Shows w) (rb : Bytes) (hrb : x.script.toBytes = .ok rb) (hl : 1648 < 10 * ks.length + rb.length) (rate : Nat) :
    ¬ Ref.Standard rate w := by
  obtain ⟨i, hi, hiff, hge, _⟩ := C113_signed H nonces hν t u v ks n st x hcls ht hx h hv w hw rb hrb
  intro hs
  have := (hs.inputs i (List.mem_of_getElem? hi)).1
  omega

/-- Two of two: the signed input is relayed. -/
example : ∃ u w i, bothTx.sign .real (keySigner fun _ => 1) [oneKey, twoKey] (0 : Nat) 1 = .ok u ∧ u.Shows w ∧
    w.inputs[0]? = some i ∧ Ref.InputOk i := by
  obtain ⟨u, hu⟩ := ok_of_toBool (e := bothTx.sign .real (keySigner fun _ => 1) [oneKey, twoKey] (0 : Nat) 1) (by decide +kernel)
  obtain ⟨w, hw⟩ := signs_shows (H := .real) (t := bothTx) (.step (.refl _) (Int.natCast_nonneg 0) hu (C74_signer _ nonce_one)
    both_keys) both_tx
  obtain ⟨rb, hrb, hl⟩ : ∃ rb, bothInput.script.toBytes = .ok rb ∧ rb.length ≤ 520 := by
    have h : (bothInput.script.toBytes.toOption.getD []).length ≤ 520 ∧ bothInput.script.toBytes.toBool = true := by
      decide +kernel
    obtain ⟨b, hb⟩ := ok_of_toBool h.2
    refine ⟨b, hb, ?_⟩
    rw [hb] at h
    exact h.1
  obtain ⟨i, hi⟩ := C113_spend .real _ nonce_one bothTx u u [oneKey, twoKey] 0 1 bothInput (by decide +kernel) both_tx rfl hu
    (.refl _) w hw rb hrb hl (by simp)
  exact ⟨u, w, i, hu, hw, hi⟩

/-- Scripts of 500 and of 1700 bytes can be spent by a `ScriptInput`. -/
example : let x := fun m : Nat => (⟨.script, List.replicate 64 'a', 0, ⟨.generic, List.replicate m ⟨.num 97, none⟩⟩, 0xFFFFFFFF⟩ : Input)
    ((x 500).script.toBytes = .ok (List.replicate 500 97) ∧ 500 ≤ 520) ∧
    ((x 1700).script.toBytes = .ok (List.replicate 1700 97) ∧ 1648 < 10 * 0 + 1700) := by
  decide +kernel

end Bitforge.Relay
