import Verif.Props.InOut
import Verif.Props.KeySign
import Verif.Spec.Push

/-! # C74: the signatures in signed transactions

Here the signer of the transaction layer is `PrivateKey.sign` (`Verif/KeySign.lean`). -/

namespace Bitforge
open Spec Transaction

/-- `PrivateKey.sign`, with the nonces that it draws, as the signer of the transaction layer. -/
def keySigner (nonces : Nat → Nat) : Signer := fun n k m => k.sign (nonces n) m

/-- Nonces that `sign` may draw. -/
def NoncesOk (nonces : Nat → Nat) : Prop := ∀ n, 1 ≤ nonces n ∧ nonces n < secpN

/-- `b` is a valid signature with small `s`, in strict DER, of the digest `m` by the public key `Q`, followed by the
signature type. -/
def SignsDigest (Q : SecpGroup) (m : Bytes) (sigType : Nat) (b : Bytes) : Prop :=
  StrictDer b ∧ ∃ sig r s, ∃ t : Byte, b = sig ++ [t] ∧ t.val = sigType ∧ SigText sig r s ∧
    ValidSig Q (beValue m) r s ∧ 2 * s ≤ secpN

/-- The push of at most 75 bytes. -/
def shortPush (b : Bytes) : Bytes := Fin.ofNat 256 b.length :: b

/-- The double SHA-256 that SIGHASH_ALL signs for the input at `n` of `w`. -/
def sighash (H : Hashes) (w : WireTx) (n sigType : Nat) : Bytes :=
  H.sha256 (H.sha256 ((w.blank n).bytes ++ le 4 sigType))

theorem keySigner_signs {nonces : Nat → Nat} (hν : NoncesOk nonces) {n : Nat} {k : PrivateKey} {m : Bytes} {st : Int}
    {d : Data} (h : Input.signature (keySigner nonces) n k m st = .ok d) :
    SignsDigest (k.secret • G) m st.toNat d.val ∧ d.kind = .str ∧ 1 ≤ d.val.length ∧ d.val.length ≤ 73 ∧
      0 ≤ st ∧ st < 256 := by
  obtain ⟨sig, c, hs, h0, h1, rfl, rfl⟩ := signature_ok h
  obtain ⟨hk, hk'⟩ := hν n
  obtain ⟨r, s, ht, hv, hl⟩ := C69_valid k _ hk hk' m sig hs
  obtain ⟨_, _, _, _, h8, h72⟩ := sign_ok hk hk' hs
  refine ⟨⟨(C69_strict k _ hk hk' m sig hs _).1, sig, r, s, _, rfl, val_byte_lt (by omega), ht, hv, hl⟩, rfl, ?_, ?_, h0, h1⟩ <;>
    simp <;> omega

theorem push_wire (b : Bytes) (i : Instruction) (h : (SchemItem.bytes ⟨.str, b⟩).instruction = .ok i) (hl : b.length ≤ 75) :
    Wf i.wire ∧ IsWire i.wire (shortPush b) ∧ ¬ (76 ≤ i.wire.1.val ∧ i.wire.1.val ≤ 78) := by
  obtain ⟨_, hd, hp, hw⟩ := instruction_bytes_ok _ i h
  have hn : ¬ (76 ≤ i.opcode.number.val ∧ i.opcode.number.val ≤ 78) := by
    rw [(instruction_push b i h).1]; omega
  have e : i.wire = (i.opcode.number, some b) := by unfold Instruction.wire; rw [hd]; rfl
  refine ⟨hw, ?_, hn⟩
  rw [e] at hw ⊢
  have hk : pushKind i.opcode.number = .direct i.opcode.number.val := by
    rcases pushKind_cases i.opcode.number with h | h | h | h | h
    · exact absurd h hp
    · exact h
    · rw [h.1] at hn; exact absurd hn (by decide)
    · rw [h.1] at hn; exact absurd hn (by decide)
    · rw [h.1] at hn; exact absurd hn (by decide)
  simp only [Wf, hk] at hw
  simp only [IsWire, hk, shortPush]
  congr 1
  apply Fin.ext
  rw [hw]
  have := i.opcode.number.isLt
  simp [Fin.ofNat]

/-- A push of a schematic is the one that the reference client would append. -/
theorem push_pushOf (b : Bytes) (i : Instruction) (h : (SchemItem.bytes ⟨.str, b⟩).instruction = .ok i) :
    i.wire = pushOf b := by
  simp only [SchemItem.instruction, bind, Except.bind] at h
  split at h
  · cases h
  · next o ho =>
    rw [instr_make_ok_iff] at h
    obtain ⟨rfl, _⟩ := h
    rw [pushFor_table] at ho
    unfold Instruction.wire pushOf
    simp only [Option.map_some]
    split at ho
    · cases ho
    · next h0 =>
      rw [if_neg (by omega)]
      congr 1
      split at ho
      · cases ho
        rw [if_pos (by omega)]
        rw [Int.toNat_natCast]
        rfl
      · rw [if_neg (by omega)]
        split at ho
        · cases ho; rw [if_pos (by omega)]; rfl
        · rw [if_neg (by omega)]
          split at ho
          · cases ho; rw [if_pos (by omega)]; rfl
          · rw [if_neg (by omega)]
            split at ho
            · cases ho; rfl
            · cases ho

theorem pushes_pushOf : ∀ (bs : List Bytes) (is : List Instruction),
    toInstructions (bs.map fun b => .bytes ⟨.str, b⟩) = .ok is → is.map Instruction.wire = bs.map pushOf
  | [], is, h => by rw [List.map_nil, toInstructions_nil] at h; subst h; rfl
  | b :: bs, is, h => by
    rw [List.map_cons] at h
    obtain ⟨i, js, h1, h2, rfl⟩ := (toInstructions_cons _ _ _).1 h
    rw [List.map_cons, List.map_cons, push_pushOf b i h1, pushes_pushOf bs js h2]

theorem pushes_wires : ∀ (bs : List Bytes) (is : List Instruction),
    toInstructions (bs.map fun b => .bytes ⟨.str, b⟩) = .ok is → (∀ b ∈ bs, b.length ≤ 75) →
    Encodes (is.map Instruction.wire) (bs.map shortPush).flatten ∧
      ¬ ∃ w ∈ is.map Instruction.wire, 76 ≤ w.1.val ∧ w.1.val ≤ 78
  | [], is, h, _ => by
    rw [List.map_nil, toInstructions_nil] at h; subst h; exact ⟨.nil, by simp⟩
  | b :: bs, is, h, hl => by
    rw [List.map_cons] at h
    obtain ⟨i, js, h1, h2, rfl⟩ := (toInstructions_cons _ _ _).1 h
    obtain ⟨e, hn⟩ := pushes_wires bs js h2 fun x hx => hl x (by simp [hx])
    obtain ⟨w1, w2, w3⟩ := push_wire b i h1 (hl b (by simp))
    refine ⟨.cons w1 w2 e, ?_⟩
    rintro ⟨w, hw, hw'⟩
    rcases List.mem_cons.1 hw with rfl | hw
    · exact w3 hw'
    · exact hn ⟨w, hw, hw'⟩

/-- C74. The script of a signed AddressInput is a signature and the public key of the private key given; the signature
is valid for the SIGHASH digest of the transaction, in strict DER, with small `s`, and followed by its type. -/
theorem C74_address (H : Hashes) (nonces : Nat → Nat) (hν : NoncesOk nonces) (t u : Transaction) (k : PrivateKey)
    (hk : k.Good) (n : Nat) (st : Int) (x : Input) (ht : t.InRange) (hx : t.inputs[n]? = some x) (hc : x.cls = .address)
    (h : t.sign H (keySigner nonces) [k] n st = .ok u) :
    ∃ w y sb pb a b, t.Shows w ∧ u.inputs[n]? = some y ∧ y.script.toBytes = .ok (shortPush sb ++ shortPush pb) ∧
      SignsDigest (k.secret • G) (sighash H w n st.toNat) st.toNat sb ∧
      reduced a ∧ reduced b ∧ IsPoint a b (k.secret • G) ∧ Sec a.toNat b.toNat k.compressed pb ∧
      (∃ p, k.toPublicKey = .ok p ∧ p.toBytes = .ok pb) ∧ y.script.wires = [pushOf sb, pushOf pb] := by
  obtain ⟨w, hw, _, hpay⟩ := C39_payload H t ht
  obtain ⟨_, _, _, _, _, hn⟩ := C37_frame H _ t u [k] n st h
  obtain ⟨x', y, p, hx', hy, hp, hs, _⟩ := hn n rfl
  rw [hx] at hx'
  cases hx'
  have hp' : p = sighash H w n st.toNat := by
    by_cases hb : t.BlocksPayload n
    · rw [(hpay n st).1 hb] at hp; cases hp
    · rw [(hpay n st).2 hb] at hp; cases hp; rfl
  unfold Input.sign at hs
  rw [hc] at hs
  simp only [Input.signAddress] at hs
  obtain ⟨a, b, hpk, ha, hb, hon, hpt⟩ := C20_public_key k.secret (.network k.network) k.compressed k
    (by rw [make_network, if_pos ⟨hk.1, hk.2⟩])
  obtain ⟨pb, hpb, hsec⟩ := C18_to_bytes ⟨(a, b), k.network, k.compressed⟩ ha hb
  obtain ⟨pb', hpb', hpl, _⟩ := C18_bytes ⟨(a, b), k.network, k.compressed⟩ hon ha hb
  rw [hpb] at hpb'
  cases hpb'
  rw [hpk] at hs
  simp only [] at hs
  split at hs
  · cases hs
  · next d hd =>
    obtain ⟨hsig, hkind, h1, h73, _⟩ := keySigner_signs hν hd
    split at hs
    · cases hs
    · next sc hsc =>
      cases hs
      unfold PayToPubkeyIn.create at hsc
      rw [hpb] at hsc
      simp only [] at hsc
      obtain ⟨_, hto⟩ := ofSchematic_ok _ _ _ hsc
      obtain ⟨kd, sb⟩ := d
      simp only at hkind h1 h73 hsig
      subst hkind
      obtain ⟨e, hno⟩ := pushes_wires [sb, pb] sc.instructions hto (by
        intro z hz
        simp only [List.mem_cons, List.not_mem_nil, or_false] at hz
        rcases hz with rfl | rfl
        · omega
        · rw [hpl]; split <;> omega)
      refine ⟨w, _, sb, pb, a, b, hw, hy, ?_, hp' ▸ hsig, ha, hb, ?_, hsec, ⟨_, hpk, hpb⟩, pushes_pushOf [sb, pb] _ hto⟩
      · show sc.toBytes = _
        rw [script_toBytes sc _ e]
        refine (if_neg hno).trans ?_
        simp
      · have : k.secret = (k.secret.toNat : Int) := by have := hk.1; omega
        rw [this, natCast_zsmul]
        exact hpt

theorem keySigner_all {nonces : Nat → Nat} (hν : NoncesOk nonces) {p : Bytes} {st : Int} :
    ∀ (n : Nat) (ks : List PrivateKey) (ds : List Data), Input.signatures (keySigner nonces) p st n ks = .ok ds →
      ∃ sbs : List Bytes, ds = sbs.map (⟨.str, ·⟩) ∧ (∀ b ∈ sbs, b.length ≤ 73) ∧
        List.Forall₂ (fun (k : PrivateKey) b => SignsDigest (k.secret • G) p st.toNat b) ks sbs
  | n, [], ds, h => by cases h; exact ⟨[], rfl, by simp, .nil⟩
  | n, k :: ks, ds, h => by
    unfold Input.signatures at h
    split at h
    · cases h
    · next d hd =>
      split at h
      · cases h
      · next ds' hds =>
        cases h
        obtain ⟨sbs, rfl, hl, hf⟩ := keySigner_all hν (n + 1) ks ds' hds
        obtain ⟨hsig, hkind, _, h73, _⟩ := keySigner_signs hν hd
        obtain ⟨kd, sb⟩ := d
        simp only at hkind h73 hsig
        subst hkind
        refine ⟨sb :: sbs, rfl, ?_, .cons hsig hf⟩
        intro b hb
        rcases List.mem_cons.1 hb with rfl | hb
        · exact h73
        · exact hl b hb

/-- C74. The script of a signed ScriptInput or MultisigInput has a signature of each of the private keys given, in their
order, each valid for the SIGHASH digest of the transaction; its bytes, when the redeem script has at most 75, are those
of the template: OP_0, the signatures, the redeem script. -/
theorem C74_script (H : Hashes) (nonces : Nat → Nat) (hν : NoncesOk nonces) (t u : Transaction) (ks : List PrivateKey)
    (n : Nat) (st : Int) (x : Input) (ht : t.InRange) (hx : t.inputs[n]? = some x)
    (hc : x.cls = .script ∨ x.cls = .multisig) (h : t.sign H (keySigner nonces) ks n st = .ok u) :
    ∃ w y sbs rb, t.Shows w ∧ u.inputs[n]? = some y ∧ x.script.toBytes = .ok rb ∧
      List.Forall₂ (fun (k : PrivateKey) b => SignsDigest (k.secret • G) (sighash H w n st.toNat) st.toNat b) ks sbs ∧
      PayToScriptIn.getSignatures y.script = sbs.map (some ⟨.str, ·⟩) ∧
      (rb.length ≤ 75 → y.script.toBytes = .ok (0 :: ((sbs.map shortPush).flatten ++ shortPush rb))) ∧
      y.script.wires = (0, none) :: (sbs ++ [rb]).map pushOf := by
  obtain ⟨w, hw, _, hpay⟩ := C39_payload H t ht
  obtain ⟨_, _, _, _, _, hn⟩ := C37_frame H _ t u ks n st h
  obtain ⟨x', y, p, hx', hy, hp, hs, _⟩ := hn n rfl
  rw [hx] at hx'
  cases hx'
  have hp' : p = sighash H w n st.toNat := by
    by_cases hb : t.BlocksPayload n
    · rw [(hpay n st).1 hb] at hp; cases hp
    · rw [(hpay n st).2 hb] at hp; cases hp; rfl
  have hs' : x.signScript (keySigner nonces) ks p st = .ok y := by
    unfold Input.sign at hs
    rcases hc with hc | hc <;> rw [hc] at hs <;> exact hs
  unfold Input.signScript at hs'
  split at hs'
  · cases hs'
  · next ds hds =>
    obtain ⟨sbs, rfl, hl, hf⟩ := keySigner_all hν _ _ _ hds
    split at hs'
    · cases hs'
    · next sc hsc =>
      cases hs'
      unfold PayToScriptIn.create at hsc
      split at hsc
      · cases hsc
      · next rb hrb =>
        obtain ⟨_, hto⟩ := ofSchematic_ok _ _ _ hsc
        obtain ⟨i0, j0, hi0, hj0, e0⟩ := (toInstructions_append _ _ _).1 hto
        obtain ⟨i1, j1, hi1, hj1, e1⟩ := (toInstructions_append _ _ _).1 hi0
        have hz : i1 = [⟨.num 0, none⟩] := by
          rw [show toInstructions [.opcode (.num 0)] = .ok [⟨.num 0, none⟩] by decide] at hi1
          cases hi1; rfl
        have hj1' : toInstructions (sbs.map fun b => .bytes ⟨.str, b⟩) = .ok j1 := by
          rw [List.map_map] at hj1; exact hj1
        obtain ⟨d, _, _⟩ := toInstructions_pushes _ j1 hj1
        obtain ⟨r, _, hr, hr', er⟩ := (toInstructions_cons _ _ _).1 hj0
        rw [toInstructions_nil] at hr'
        subst hr' hz e1
        rw [er] at e0
        have hall : toInstructions ((sbs ++ [rb]).map fun b => .bytes ⟨.str, b⟩) = .ok (j1 ++ [r]) := by
          rw [List.map_append]
          exact (toInstructions_append _ _ _).2 ⟨j1, [r], hj1', er ▸ hj0, rfl⟩
        have hwz : sc.wires = ((0 : Byte), none) :: (j1 ++ [r]).map Instruction.wire := by
          unfold Script.wires
          rw [e0]
          rfl
        refine ⟨w, _, sbs, rb, hw, hy, hrb, hp' ▸ hf, ?_, ?_, ?_⟩
        · show PayToScriptIn.getSignatures sc = _
          unfold PayToScriptIn.getSignatures
          rw [e0]
          simp [d]
        · intro hrl
          obtain ⟨e, hno⟩ := pushes_wires (sbs ++ [rb]) _ hall (by
            intro b hb
            rcases List.mem_append.1 hb with hb | hb
            · have := hl b hb; omega
            · rw [List.mem_singleton.1 hb]; exact hrl)
          have e' : Encodes sc.wires ([0] ++ ((sbs ++ [rb]).map shortPush).flatten) := by
            rw [hwz]
            exact .cons (by decide) rfl e
          show sc.toBytes = _
          rw [script_toBytes sc _ e', if_neg]
          · simp
          · rw [hwz]
            rintro ⟨v, hv, hv'⟩
            rcases List.mem_cons.1 hv with rfl | hv
            · exact absurd hv' (by decide)
            · exact hno ⟨v, hv, hv'⟩
        · show sc.wires = _
          rw [hwz, pushes_pushOf _ _ hall]

/-- Signing with given keys fails only when a nonce makes `r` or `s` zero. -/
theorem keySigner_ok {nonces : Nat → Nat} (hν : NoncesOk nonces) (n : Nat) (k : PrivateKey) (m : Bytes)
    (hm : m.length ≤ 32) : (∃ sig, keySigner nonces n k m = .ok sig ∧ sig.length ≤ 72) ∨
      keySigner nonces n k m = .error .rsZeroError := by
  obtain ⟨hk, hk'⟩ := hν n
  rcases (C69_digest k _ hk hk' m).2 hm with ⟨sig, hs⟩ | ⟨he, _⟩
  · obtain ⟨_, _, _, _, _, h72⟩ := sign_ok hk hk' hs
    exact .inl ⟨sig, hs, h72⟩
  · exact .inr he

/-- C74. The signer that is `PrivateKey.sign` meets what C41 asks of a signer. -/
theorem C74_signer (nonces : Nat → Nat) (hν : NoncesOk nonces) (n : Nat) (k : PrivateKey) (m s : Bytes)
    (h : keySigner nonces n k m = .ok s) : s.length ≤ 74 := by
  obtain ⟨hk, hk'⟩ := hν n
  obtain ⟨_, _, _, _, _, h72⟩ := sign_ok hk hk' h
  omega

/-- C74. Signing an AddressInput with one private key succeeds, unless the nonce makes `r` or `s` zero. -/
theorem C74_address_succeeds (H : Hashes) (nonces : Nat → Nat) (hν : NoncesOk nonces) (t : Transaction) (k : PrivateKey)
    (hk : k.Good) (n st : Nat) (hst : st < 256) (x : Input) (ht : t.InRange) (hx : t.inputs[n]? = some x)
    (hc : x.cls = .address) (hb : ¬ t.BlocksPayload n) :
    (∃ u, t.sign H (keySigner nonces) [k] n st = .ok u) ∨
      t.sign H (keySigner nonces) [k] n st = .error .rsZeroError := by
  obtain ⟨w, hw, _, hpay⟩ := C39_payload H t ht
  have hp := (hpay n st).2 hb
  rcases keySigner_ok hν 0 k (sighash H w n st) (by unfold sighash; rw [H.sha256_length]) with ⟨sig, hs, hl⟩ | he
  · obtain ⟨u, _, hu, _⟩ := C37_address_succeeds H _ t k n st x sig _ ht hx hc hk hst hp hs (by omega)
    exact .inl ⟨u, hu⟩
  · right
    have hpy : pyIndex t.inputs (n : Int) = .ok x := by
      rw [pyIndex_ok_iff]
      have hlt := (List.getElem?_eq_some_iff.1 hx).1
      have e : resolve t.inputs.length (n : Int) = n := by unfold resolve; rw [if_neg (by omega)]
      rw [e, Int.toNat_natCast]
      exact ⟨by omega, hx⟩
    obtain ⟨pk, hpk, _⟩ := good_public k hk
    unfold Transaction.sign
    rw [hp]
    simp only [hpy, Input.sign, hc, Input.signAddress, hpk, Input.signature]
    rw [show keySigner nonces 0 k (H.sha256 (H.sha256 ((w.blank n).bytes ++ le 4 (st : Int).toNat))) = _ from he]

theorem signatures_made {nonces : Nat → Nat} (hν : NoncesOk nonces) (m : Bytes) (hm : m.length ≤ 32) (st : Nat) (hst : st < 256) :
    ∀ (ks : List PrivateKey) (n : Nat),
      (∃ sbs : List Bytes, Input.signatures (keySigner nonces) m st n ks = .ok (sbs.map (⟨.str, ·⟩)) ∧
        ∀ b ∈ sbs, 1 ≤ b.length ∧ b.length < 2 ^ 32) ∨
      Input.signatures (keySigner nonces) m st n ks = .error .rsZeroError
  | [], n => .inl ⟨[], rfl, by simp⟩
  | k :: ks, n => by
    rcases keySigner_ok hν n k m hm with ⟨sig, hs, hl⟩ | he
    · have hsig : Input.signature (keySigner nonces) n k m st = .ok ⟨.str, sig ++ [byte st]⟩ := by
        unfold Input.signature chrByte
        rw [hs]
        simp only []
        rw [if_pos (by omega), Int.toNat_natCast]
      rcases signatures_made hν m hm st hst ks (n + 1) with ⟨sbs, h1, h2⟩ | he
      · refine .inl ⟨(sig ++ [byte st]) :: sbs, by simp only [Input.signatures, hsig, h1, List.map_cons], fun b hb => ?_⟩
        rcases List.mem_cons.1 hb with rfl | hb
        · simp; omega
        · exact h2 b hb
      · right
        simp only [Input.signatures, hsig, he]
    · right
      simp only [Input.signatures, Input.signature, he]

/-- C74. Signing a ScriptInput or MultisigInput, with any number of private keys, succeeds unless a nonce makes `r` or `s`
zero, if the redeem script is not empty. -/
theorem C74_script_succeeds (H : Hashes) (nonces : Nat → Nat) (hν : NoncesOk nonces) (t : Transaction)
    (ks : List PrivateKey) (n st : Nat) (hst : st < 256) (x : Input) (ht : t.InRange) (hx : t.inputs[n]? = some x)
    (hc : x.cls = .script ∨ x.cls = .multisig) (hb : ¬ t.BlocksPayload n) (rb : Bytes) (hrb : x.script.toBytes = .ok rb)
    (hrl : 1 ≤ rb.length ∧ rb.length < 2 ^ 32) :
    (∃ u, t.sign H (keySigner nonces) ks n st = .ok u) ∨
      t.sign H (keySigner nonces) ks n st = .error .rsZeroError := by
  obtain ⟨w, hw, _, hpay⟩ := C39_payload H t ht
  have hp : t.payload H n st = .ok (sighash H w n st) := (hpay n st).2 hb
  have hpy : pyIndex t.inputs (n : Int) = .ok x := by
    rw [pyIndex_ok_iff]
    have hlt := (List.getElem?_eq_some_iff.1 hx).1
    have e : resolve t.inputs.length (n : Int) = n := by unfold resolve; rw [if_neg (by omega)]
    rw [e, Int.toNat_natCast]
    exact ⟨by omega, hx⟩
  have hsx : x.sign (keySigner nonces) ks (sighash H w n st) st = x.signScript (keySigner nonces) ks (sighash H w n st) st := by
    unfold Input.sign
    rcases hc with hc | hc <;> rw [hc]
  rcases signatures_made hν (sighash H w n st) (by unfold sighash; rw [H.sha256_length]) st hst ks 0 with ⟨sbs, h1, h2⟩ | he
  · left
    obtain ⟨is, his⟩ := toInstructions_pushes_ok sbs h2
    obtain ⟨j, hj⟩ := instruction_bytes rb hrl.1 hrl.2
    have hcr : ∃ s, PayToScriptIn.create x.script (sbs.map (⟨.str, ·⟩)) = .ok s := by
      unfold PayToScriptIn.create
      rw [hrb]
      simp only []
      unfold ofSchematic
      have : toInstructions ([.opcode (.num 0)] ++ (sbs.map (⟨.str, ·⟩)).map .bytes ++ [.bytes ⟨.str, rb⟩]) =
          .ok ([⟨.num 0, none⟩] ++ is ++ [j]) := by
        rw [List.map_map]
        exact (toInstructions_append _ _ _).2 ⟨_, _, (toInstructions_append _ _ _).2 ⟨_, _, by decide, his, rfl⟩,
          (toInstructions_cons _ _ _).2 ⟨_, _, hj, (toInstructions_nil _).2 rfl, rfl⟩, rfl⟩
      rw [this]
      exact ⟨_, rfl⟩
    obtain ⟨s, hs⟩ := hcr
    exact ⟨_, (sign_ok_iff _ _ _ _ _ _ _).2 ⟨_, x, x.replaceScript s, hp, hpy, by
      rw [hsx]
      simp only [Input.signScript, h1, hs], rfl⟩⟩
  · right
    unfold Transaction.sign
    rw [hp]
    simp only [hpy, hsx, Input.signScript, he]

/-- Hypotheses of `C74_address` and of `C74_script`: two inputs signed in turn with `PrivateKey.sign`. -/
example : NoncesOk (fun _ => 1) ∧ addressTx.InRange ∧
    (addressTx.sign .toy (keySigner fun _ => 1) [⟨2, .livenet, true⟩] 0).toBool = true ∧
    (addressTx.sign .toy (keySigner fun _ => 1) [⟨2, .livenet, true⟩, ⟨3, .testnet, false⟩] 1).toBool = true :=
  ⟨fun _ => ⟨le_refl 1, by show 1 < secpN; decide⟩, address_tx, by decide +kernel, by decide +kernel⟩

/-- Hypotheses of `C74_address_succeeds`. -/
example : (addressTx.inputs[0]?.map (·.cls)) = some .address ∧ ¬ addressTx.BlocksPayload 0 :=
  ⟨by decide, by rw [← hasPushData_blank]; decide⟩

end Bitforge
