import Verif.Proofs.TxParse
import Verif.Props.Tx

/-! # C36 (exactly what is parsed), C95: truncated transactions -/

namespace Bitforge
open Spec

/-! ## C36 exactly what is parsed -/

/-- A transaction on the wire that the parser can read: fields in range, at least one input and one output, scripts made of
complete instructions that do not crash the script classifier. -/
def Readable (w : WireTx) : Prop :=
  w.Fits ∧ w.inputs ≠ [] ∧ w.outputs ≠ [] ∧ (∀ i ∈ w.inputs, Complete i.script ∧ ¬ CrashesOn i.script) ∧
    ∀ o ∈ w.outputs, Complete o.script ∧ ¬ CrashesOn o.script

/-- C36. A string that begins with a readable transaction, its counts and lengths written in any width, is parsed: the
result shows that transaction, serialises to its canonical form (unless it has PUSHDATA), and the rest of the string is left
in the buffer. -/
theorem C36_reads (w : WireTx) (h : Readable w) (p rest : Bytes) (hp : w.Form p) :
    ∃ t, Transaction.fromBuffer (p ++ rest) = (.ok t, rest) ∧ Transaction.fromBytes (p ++ rest) = .ok t ∧ t.Shows w ∧
      (∀ i ∈ t.inputs, i.cls = .generic) ∧ (¬ t.HasPushData → t.toBytes = .ok w.bytes) := by
  obtain ⟨h1, h2, h3, h4, h5⟩ := h
  rcases tx_form w h1 h2 h3 (fun i hi => (h4 i hi).1) (fun o ho => (h5 o ho).1) hp rest with
    ⟨-, t, ht, hs, hg⟩ | ⟨hc, -⟩
  · exact ⟨t, ht, by rw [Transaction.fromBytes, ht], hs, hg, fun hn => by rw [tx_toBytes t w hs, if_neg hn]⟩
  · rcases hc with ⟨i, hi, hc⟩ | ⟨o, ho, hc⟩
    · exact absurd hc (h4 i hi).2
    · exact absurd hc (h5 o ho).2

/-- C36. The strings that are parsed are exactly those that begin with a readable transaction, with counts and lengths in any
of the widths. -/
theorem C36_domain (b : Bytes) : (∃ t, Transaction.fromBytes b = .ok t) ↔
    ∃ w p rest, b = p ++ rest ∧ w.Form p ∧ Readable w := by
  constructor
  · rintro ⟨t, ht⟩
    unfold Transaction.fromBytes at ht
    rcases hm : Transaction.fromBuffer b with ⟨r, s⟩
    rw [hm] at ht
    simp only at ht
    subst ht
    obtain ⟨w, p, he, -, h1, h2, h3, h4, h5, hf⟩ := tx_form_ok hm
    exact ⟨w, p, s, he, hf, h1, h2, h3, h4, h5⟩
  · rintro ⟨w, p, rest, rfl, hf, hr⟩
    obtain ⟨t, -, ht, -⟩ := C36_reads w hr p rest hf
    exact ⟨t, ht⟩

/-- C36. A transaction in range whose scripts are made of complete instructions but one of which trips the classifier is
refused with AttributeError, however it is written. -/
theorem C36_trips (w : WireTx) (hw : w.Fits) (hi : w.inputs ≠ []) (ho : w.outputs ≠ [])
    (hsi : ∀ i ∈ w.inputs, Complete i.script) (hso : ∀ o ∈ w.outputs, Complete o.script)
    (hc : (∃ i ∈ w.inputs, CrashesOn i.script) ∨ ∃ o ∈ w.outputs, CrashesOn o.script) (p rest : Bytes) (hp : w.Form p) :
    Transaction.fromBytes (p ++ rest) = .error .attributeError := by
  rcases tx_form w hw hi ho hsi hso hp rest with ⟨⟨h1, h2⟩, -⟩ | ⟨-, he⟩
  · rcases hc with ⟨i, hm, hc⟩ | ⟨o, hm, hc⟩
    · exact absurd hc (h1 i hm)
    · exact absurd hc (h2 o hm)
  · exact he

/-- The transaction `sampleTx` stands for. -/
def sampleWire : WireTx := ⟨1, [⟨List.replicate 32 170, 1, [81], 0xFFFFFFFF⟩], [⟨5000, [2, 7, 8]⟩, ⟨5000, [2, 7, 8]⟩], 7⟩

theorem sampleWire_readable : Readable sampleWire := by
  have h1 : Encodes [⟨81, none⟩] [81] := .cons (b := [81]) (by decide) rfl .nil
  have h2 : Encodes [⟨2, some [7, 8]⟩] [2, 7, 8] := .cons (b := [2, 7, 8]) (by decide) rfl .nil
  refine ⟨⟨by decide, by decide, ?_, ?_, by decide, by decide⟩, by simp [sampleWire], by simp [sampleWire], ?_, ?_⟩
  · intro i hi
    obtain rfl : i = _ := List.mem_singleton.1 hi
    exact ⟨by decide, by decide, by decide, by decide⟩
  · intro o ho
    obtain rfl : o = ⟨5000, [2, 7, 8]⟩ := by simpa [sampleWire] using ho
    exact ⟨by decide, by decide⟩
  · intro i hi
    obtain rfl : i = _ := List.mem_singleton.1 hi
    refine ⟨⟨_, h1⟩, fun hc => ?_⟩
    exact absurd ((crashesOn_iff h1).1 hc).1 (by decide)
  · intro o ho
    obtain rfl : o = ⟨5000, [2, 7, 8]⟩ := by simpa [sampleWire] using ho
    exact ⟨⟨_, h2⟩, fun hc => absurd ((crashesOn_iff h2).1 hc).1 (by decide)⟩

theorem nonCanonical_form : sampleWire.Form nonCanonical := by
  refine ⟨253 :: le 2 1, _, [2], _, .two 1 (by decide), listed_map (g := WireIn.bytes) _ ?_, .one 2 (by decide),
    listed_map (g := WireOut.bytes) _ ?_, by decide +kernel⟩
  · intro i hi; exact wireIn_form i (sampleWire_readable.1.2.2.1 i hi)
  · intro o ho; exact wireOut_form o (sampleWire_readable.1.2.2.2.1 o ho)

example : ∃ t, Transaction.fromBytes (nonCanonical ++ [9]) = .ok t ∧ nonCanonical ≠ sampleWire.bytes := by
  obtain ⟨t, -, ht, -⟩ := C36_reads _ sampleWire_readable _ [9] nonCanonical_form
  exact ⟨t, ht, by decide +kernel⟩

/-! ## C95 truncated transactions -/

theorem eager_take {α : Type} {f : Rd α} (hf : f.Eager) {s s' : Bytes} {a : α} (h : f s = (.ok a, s')) :
    ∃ n, n + s'.length = s.length ∧ ∀ k, (n ≤ k → (f (s.take k)).1 = .ok a) ∧
      (k < n → ∃ r q, (f (s.take k)).1 = .error (.insufficientData r q) ∧ r < q) := by
  obtain ⟨c, rfl, h1, h2⟩ := hf _ _ _ h
  refine ⟨c.length, by simp, fun k => ⟨fun hk => ?_, fun hk => h2 _ ?_ ?_⟩⟩
  · rw [List.take_append, List.take_of_length_le hk, h1]
  · rw [List.take_append_of_le_length (by omega)]
    exact List.take_prefix _ _
  · intro he
    have := congrArg List.length he
    simp at this
    omega

/-- C95. Parsing looks at a definite number of bytes of the string: any cut that keeps them gives the same transaction, any
cut that does not raises InsufficientData, with numbers that tell what is missing. -/
theorem C95_cut (b : Bytes) (t : Transaction) (h : Transaction.fromBytes b = .ok t) :
    ∃ n, n + (Transaction.fromBuffer b).2.length = b.length ∧ ∀ k,
      (n ≤ k → Transaction.fromBytes (b.take k) = .ok t) ∧
      (k < n → ∃ r q, Transaction.fromBytes (b.take k) = .error (.insufficientData r q) ∧ r < q) := by
  unfold Transaction.fromBytes at h
  rcases hm : Transaction.fromBuffer b with ⟨r, s⟩
  rw [hm] at h
  simp only at h
  subst h
  exact eager_take eager_tx hm

/-- C95. The same for inputs, read as any of the classes, and for outputs. -/
theorem C95_parts (b : Bytes) : (∀ (c : InputClass) (i : Input), Input.fromBytes b c = .ok i →
    ∃ n, n + (Input.fromBuffer c b).2.length = b.length ∧ ∀ k, (n ≤ k → Input.fromBytes (b.take k) c = .ok i) ∧
      (k < n → ∃ r q, Input.fromBytes (b.take k) c = .error (.insufficientData r q) ∧ r < q)) ∧
    ∀ o : Output, Output.fromBytes b = .ok o →
    ∃ n, n + (Output.fromBuffer b).2.length = b.length ∧ ∀ k, (n ≤ k → Output.fromBytes (b.take k) = .ok o) ∧
      (k < n → ∃ r q, Output.fromBytes (b.take k) = .error (.insufficientData r q) ∧ r < q) := by
  constructor
  · intro c i h
    unfold Input.fromBytes at h
    rcases hm : Input.fromBuffer c b with ⟨r, s⟩
    rw [hm] at h
    simp only at h
    subst h
    exact eager_take (eager_input c) hm
  · intro o h
    unfold Output.fromBytes at h
    rcases hm : Output.fromBuffer b with ⟨r, s⟩
    rw [hm] at h
    simp only at h
    subst h
    exact eager_take eager_output hm

/-- C95. A serialised transaction, cut anywhere, is refused: with InsufficientData, or with AttributeError if it trips the
classifier (then the whole is refused too). -/
theorem C95_serialised (t : Transaction) (h : t.InRange) (b : Bytes) (hb : t.toBytes = .ok b) (k : Nat) (hk : k < b.length) :
    (∃ r q, Transaction.fromBytes (b.take k) = .error (.insufficientData r q) ∧ r < q) ∨
      t.Trips ∧ ∃ e, Transaction.fromBytes (b.take k) = .error e := by
  have hp : ¬ t.HasPushData := fun hp => by
    rw [C34_pushdata_refuted t h hp] at hb; cases hb
  obtain ⟨b', hb', hr⟩ := C34_roundtrip_partial t h hp
  obtain rfl : b' = b := Except.ok.inj (hb'.symm.trans hb)
  rcases hr [] with ⟨-, u, hu, -, hu', -⟩ | ⟨ht, he⟩
  · rw [List.append_nil] at hu hu'
    obtain ⟨n, hn, hc⟩ := C95_cut b' u hu'
    rw [hu] at hn
    exact .inl ((hc k).2 (by simp at hn; omega))
  · right
    refine ⟨ht, ?_⟩
    cases hm : Transaction.fromBytes (b'.take k) with
    | error e => exact ⟨e, rfl⟩
    | ok u =>
      have := C36_trailing_refuted _ u hm (b'.drop k)
      rw [List.take_append_drop] at this
      rw [List.append_nil, this] at he
      cases he

theorem hexText_append (a b : Bytes) : hexText (a ++ b) = hexText a ++ hexText b := by
  simp [hexText]

theorem hexText_take (b : Bytes) (j : Nat) : (hexText b).take (2 * j) = hexText (b.take j) := by
  rw [hexText_eq, hexText_eq]
  rcases Nat.lt_or_ge j b.length with h | h
  · have e := List.take_append_drop j b
    conv_lhs => rw [← e, ← hexText_eq, hexText_append, hexText_eq]
    rw [List.take_append_of_le_length, List.take_of_length_le] <;> rw [encodeHex_length] <;> simp <;> omega
  · rw [List.take_of_length_le h, List.take_of_length_le (by rw [encodeHex_length]; omega)]

/-- C95. The hexadecimal form of a transaction, cut anywhere, is refused: with InvalidHex after an odd number of digits, as
the bytes are otherwise. -/
theorem C95_hex (b : Bytes) (k : Nat) (hk : k < 2 * b.length) :
    Transaction.fromHex ((hexText b).take k) =
      if k % 2 = 1 then .error .invalidHex else Transaction.fromBytes (b.take (k / 2)) := by
  split
  · next h =>
    have hd : decodeHex ((hexText b).take k) = .error .invalidHex := by
      unfold decodeHex
      rw [if_pos]
      · cases hu : unhexlify ((hexText b).take k) with
        | none => rfl
        | some d =>
          have := congrArg List.length ((unhexlify_iff _ _).1 hu).2
          rw [encodeHex_length, List.length_map, List.length_take, hexText_eq, encodeHex_length] at this
          omega
      · have := encodeHex_ascii b
        rw [hexText_eq]
        unfold isAscii at this ⊢
        rw [List.all_eq_true] at this ⊢
        exact fun c hc => this c (List.mem_of_mem_take hc)
    rw [Transaction.fromHex, hd]
  · next h =>
    rw [show k = 2 * (k / 2) by omega, hexText_take, (C34_hex _ .generic).1]
    congr 2
    omega

example : ∃ b, sampleTx.toBytes = .ok b ∧ b.length = 76 ∧
    (∀ k < 76, ∃ r q, Transaction.fromBytes (b.take k) = .error (.insufficientData r q) ∧ r < q) ∧
    Transaction.fromHex ((hexText b).take 151) = .error .invalidHex := by
  obtain ⟨b, hb, hl⟩ : ∃ b, sampleTx.toBytes = .ok b ∧ b.length = 76 := 
    ⟨sampleWire.bytes, by decide +kernel, by decide +kernel⟩
  refine ⟨b, hb, hl, fun k hk => ?_, by rw [C95_hex b 151 (by omega)]; rfl⟩
  rcases C95_serialised _ sample_tx b hb k (by omega) with h | ⟨h, -⟩
  · exact h
  · rcases h with ⟨i, hi, h⟩ | ⟨o, ho, h⟩
    · obtain rfl : i = sampleInput := List.mem_singleton.1 hi
      exact absurd h.1 (by decide)
    · obtain rfl : o = sampleOutput := by simpa [sampleTx] using ho
      exact absurd h.1 (by decide)

end Bitforge
