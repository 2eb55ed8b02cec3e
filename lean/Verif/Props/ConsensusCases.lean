import Verif.Props.Consensus
import Verif.RealHashes

/-! # C84, C85: signatures that the reference client refuses, with the real hash functions -/

namespace Bitforge
open Spec Transaction ExtEcdsa

/-- A signature whose `r` is the x-coordinate of `G` has the nonce one, up to its sign. -/
theorem valid_one {d z s : Int} (h : ValidSig (d • G) z secpGx s) :
    (z + secpGx * d - s) % secpN = 0 ∨ (z + secpGx * d + s) % secpN = 0 := by
  obtain ⟨_, _, _, _, w, x, hw, ⟨hx, y, hy⟩, hr⟩ := h
  have hxr : x = secpGx := by
    have h1 := hx.1
    have h2 := hx.2
    have e : (secpGx : Int) % secpN = secpGx := by decide
    rw [e] at hr
    have h3 : (secpGx : Int) + secpN > 2 ^ 256 - 2 ^ 32 - 977 := by decide
    have h4 := Int.emod_add_mul_ediv x secpN
    have h5 : (0 : Int) < secpN := by decide
    rw [hr] at h4
    have h6 : x / (secpN : Int) < 1 := by
      rw [Int.ediv_lt_iff_lt_mul h5]
      by_contra hc
      have : 1 ≤ x / (secpN : Int) := by rw [Int.le_ediv_iff_mul_le h5]; omega
      have := Int.mul_le_mul_of_nonneg_left this (le_of_lt h5)
      omega
    have h7 : 0 ≤ x / (secpN : Int) := Int.ediv_nonneg h1 (by omega)
    rw [show x / (secpN : Int) = 0 by omega] at h4
    omega
  subst hxr
  have hG : IsPoint secpGx secpGy G := ⟨_, rfl⟩
  have hs : (z * w) • G + (secpGx * w) • d • G = ((z + secpGx * d) * w) • G := by
    rw [smul_smul, ← add_zsmul]
    congr 1
    ring
  have key : ∀ e : Int, ((z + secpGx * d) * w + e) • G = 0 → (z + secpGx * d + e * s) % secpN = 0 := by
    intro e he
    rw [zsmul_G_eq_zero_iff] at he
    have h1 : (secpN : Int) ∣ (z + secpGx * d) * w + e := Int.dvd_of_emod_eq_zero he
    have h2 : (secpN : Int) ∣ s * w - 1 := by
      have : ((s * w) - 1) % (secpN : Int) = 0 := by
        rw [Int.sub_emod, hw]; decide
      exact Int.dvd_of_emod_eq_zero this
    have h3 : z + secpGx * d + e * s = ((z + secpGx * d) * w + e) * s - (z + secpGx * d) * (s * w - 1) := by ring
    rw [h3]
    exact Int.emod_eq_zero_of_dvd (dvd_sub (h1.mul_right _) (h2.mul_left _))
  rcases isPoint_pm hG hy with e | e
  · left
    have := key (-1) (by rw [add_zsmul, ← hs, e]; simp)
    rw [show z + secpGx * d - s = z + secpGx * d + -1 * s by ring]
    exact this
  · right
    have := key 1 (by rw [add_zsmul, ← hs, e]; simp)
    rw [one_mul] at this
    exact this

/-- Two keys, their public keys, and a transaction that spends what is paid to both. -/
def oneKey : PrivateKey := ⟨1, .livenet, true⟩
def twoKey : PrivateKey := ⟨2, .livenet, true⟩
def onePub : PublicKey := ⟨(secpGx, secpGy), .livenet, true⟩
def twoPub : PublicKey := ⟨(0xC6047F9441ED7D6D3045406E95C07CD85C778E4B8CEF3CA7ABAC09B95C709EE5,
  0x1AE168FEA63DC339A3C58419466CEAEEF7F632653266D0E1236431A950CFE52A), .livenet, true⟩
def bothInput : Input :=
  ⟨.multisig, List.replicate 64 'a', 0, ⟨.redeemMultisig, [⟨.num 82, none⟩,
    ⟨.num 33, some ⟨.str, 2 :: encodeInt secpGx true (some 32)⟩⟩,
    ⟨.num 33, some ⟨.str, 2 :: encodeInt twoPub.pair.1 true (some 32)⟩⟩, ⟨.num 82, none⟩, ⟨.num 174, none⟩]⟩, 0xFFFFFFFF⟩
def bothTx : Transaction := ⟨[bothInput], [sampleOutput], 0, 1⟩

theorem both_create : MultisigInput.create (List.replicate 64 'a') 0 [onePub, twoPub] 2 = .ok bothInput ∧
    oneKey.toPublicKey = .ok onePub ∧ twoKey.toPublicKey = .ok twoPub ∧
    MultisigInput.canSign bothInput [twoKey, oneKey] = .ok true := by decide +kernel

theorem both_valid : ∀ p ∈ [onePub, twoPub], p.Valid := by
  unfold PublicKey.Valid OnSecp Spec.reduced
  decide +kernel

theorem both_good : ∀ k ∈ [twoKey, oneKey], k.Good := by
  unfold PrivateKey.Good
  decide +kernel

/-- The redeem script. -/
def bothScript : Bytes :=
  82 :: 33 :: 2 :: encodeInt secpGx true (some 32) ++ 33 :: 2 :: encodeInt twoPub.pair.1 true (some 32) ++ [82, 174]

theorem both_tx : bothTx.InRange := by
  refine ⟨⟨by decide, by decide, by decide, by decide⟩, by decide, ?_, ?_, by decide, by decide⟩
  · intro i hi
    have : i = bothInput := by simpa [bothTx] using hi
    rw [this]
    refine ⟨sample_input.1, by decide, ?_, by decide⟩
    have := redeem_encodes 2 (by decide) [2 :: encodeInt secpGx true (some 32), 2 :: encodeInt twoPub.pair.1 true (some 32)]
      (by decide) (by decide +kernel)
    exact ⟨_, (show bothInput.script.wires = Ref.redeemScript 2 [2 :: encodeInt secpGx true (some 32),
      2 :: encodeInt twoPub.pair.1 true (some 32)] by decide +kernel) ▸ this, by decide +kernel⟩
  · intro o ho
    have : o = sampleOutput := by simpa [bothTx] using ho
    rw [this]
    exact sample_output

/-- What `PrivateKey.sign` returns for nonce one, with the hash type. -/
def oneSig (s : Int) (hashType : Byte := 1) : Bytes :=
  [0x30, 0x44, 2, 32] ++ encodeInt secpGx true (some 32) ++ [2, 32] ++ encodeInt s true (some 32) ++ [hashType]

/-- The digest. -/
def bothDigest : Nat := 0xde2883b71d7723e4f047dbf47fdbc28fadd1b04001babc26148f12c4ba88ccba

theorem both_payload : bothTx.payload .real 0 1 = .ok (encodeInt bothDigest true (some 32)) := by decide +kernel

/-- A signature that is not one by `oneKey`. -/
theorem one_rejects {z s : Int} {b : Bytes} {m : Bytes} {st : Nat} (hz : (beValue m : Int) = z)
    (hd : sigdecodeDer b.dropLast = .ok (secpGx, s)) (h1 : (z + secpGx - s) % secpN ≠ 0)
    (h2 : (z + secpGx + s) % secpN ≠ 0) (hl : b.length < 100) :
    ¬ ∃ Q, IsPoint secpGx secpGy Q ∧ SignsDigest Q m st b := by
  rintro ⟨Q, ⟨_, rfl⟩, _, der, r', s', t, rfl, _, hx, hv, _⟩
  rw [List.dropLast_concat, sigdecode_text hx (by simp at hl; omega)] at hd
  cases hd
  have hG : ((1 : Int) • G : SecpGroup) = G := one_zsmul _
  have := valid_one (d := 1) (z := beValue m) (s := s) (by rw [hG]; exact hv)
  rw [hz, mul_one] at this
  exact this.elim h1 h2

/-- The input signed by `twoKey` and `oneKey`, in this order. -/
def orderInput : Input :=
  ⟨.generic, List.replicate 64 'a', 0, ⟨.payToScriptIn, [⟨.num 0, none⟩,
    ⟨.num 71, some ⟨.str, oneSig 0x2e5aaf4aeecf64c264775edfe316275fc2540fd7013a329eb730a79eb7f38698⟩⟩,
    ⟨.num 71, some ⟨.str, oneSig 0x57e6ea361753df9145e83e8a4e62cd97f5bed034804044c3aeaf3593014aa311⟩⟩,
    ⟨.num 71, some ⟨.str, bothScript⟩⟩]⟩, 0xFFFFFFFF⟩

theorem both_sign : bothTx.sign .real (keySigner fun _ => 1) [twoKey, oneKey] 0 =
    .ok { bothTx with inputs := [orderInput] } := by
  unfold Transaction.sign
  rw [both_payload]
  decide +kernel

theorem both_order : ∃ u y b2 b1 rb b s, bothTx.sign .real (keySigner fun _ => 1) [twoKey, oneKey] 0 = .ok u ∧
    u.inputs = [y] ∧ y.script.wires = (0, none) :: [b2, b1, rb].map pushOf ∧ b2.length < 100 ∧
    sigdecodeDer b2.dropLast = .ok (secpGx, s) ∧
    (bothDigest + secpGx - s) % secpN ≠ 0 ∧ (bothDigest + secpGx + s) % secpN ≠ 0 ∧ bothInput.script.toBytes = .ok rb ∧ rb.length = 71 ∧ u.toBytes = .ok b := by
  refine ⟨{ bothTx with inputs := [orderInput] }, orderInput,
    oneSig 0x2e5aaf4aeecf64c264775edfe316275fc2540fd7013a329eb730a79eb7f38698,
    oneSig 0x57e6ea361753df9145e83e8a4e62cd97f5bed034804044c3aeaf3593014aa311, bothScript, _,
    0x2e5aaf4aeecf64c264775edfe316275fc2540fd7013a329eb730a79eb7f38698, both_sign, rfl,
    by decide +kernel, by decide +kernel, by decide +kernel, by decide +kernel, by decide +kernel, by decide +kernel,
    by decide +kernel, rfl⟩

/-- C84 is false of the code when the keys are given in another order than the public keys.  `can_sign` is true, the
input is signed and the transaction serialised, but the reference client refuses it whenever it verifies pay to script
hash. -/
theorem C84_order_refuted : ∃ (k k' : PrivateKey) (p p' : PublicKey) (x : Input) (t u : Transaction) (b rb : Bytes) (w : WireTx),
    k.Good ∧ k'.Good ∧ k.toPublicKey = .ok p ∧ k'.toPublicKey = .ok p' ∧
    MultisigInput.create (List.replicate 64 'a') 0 [p, p'] 2 = .ok x ∧ MultisigInput.canSign x [k', k] = .ok true ∧
    t.InRange ∧ t.inputs = [x] ∧ NoncesOk (fun _ => 1) ∧ t.sign .real (keySigner fun _ => 1) [k', k] 0 = .ok u ∧
    x.script.toBytes = .ok rb ∧ u.toBytes = .ok b ∧ u.Shows w ∧ ∀ flags : Nat, flags.testBit 0 →
      ¬ Ref.Spends .real flags w 0 (169 :: 20 :: (Hashes.real.ripemd160 (Hashes.real.sha256 rb) ++ [135])) := by
  obtain ⟨c1, c2, c3, c4⟩ := both_create
  obtain ⟨u, y, b2, b1, rb, b, s, s1, s2, s3, s4, s5, s5a, s5b, s6, s7, s8⟩ := both_order
  have hν : NoncesOk fun _ => 1 := fun _ => ⟨le_refl 1, by show 1 < secpN; decide⟩
  obtain ⟨w, hw⟩ := signs_shows (.step (.refl bothTx) (i := 0) (by omega) s1 (C74_signer _ hν) both_good) both_tx
  refine ⟨oneKey, twoKey, onePub, twoPub, bothInput, bothTx, u, b, rb, w,
    both_good _ (by simp), both_good _ (by simp), c2, c3, c1, c4, both_tx, rfl, hν, s1, s6, s8, hw, fun flags h0 h => ?_⟩
  obtain ⟨w0, y', sbs, hw0, hy, hwires, hsigs, hiff⟩ := C84_iff .real _ hν bothTx u u [twoKey, oneKey] both_good 0 _ 0 _
    [onePub, twoPub] both_valid (by simp) (by simp) bothInput c1 both_tx rfl s1 (.refl _) w hw rb s6 (by omega)
  obtain ⟨qs, hq, hm⟩ := (hiff flags h0).1 h
  have hl1 : sbs.length = 2 := hsigs.length_eq.symm
  have hl2 : qs = [onePub, twoPub] := hq.eq_of_length (by rw [← hm.length_eq, hl1]; rfl)
  subst hl2
  rw [s2] at hy
  cases hy
  rw [s3] at hwires
  have e := (List.map_injective_iff.2 fun _ _ => pushOf_inj) (List.cons.inj hwires).2
  cases hm with
  | cons ha hb =>
    cases (List.cons.inj e).1
    have hpay : bothTx.payload .real 0 1 = .ok (sighash .real w0 0 1) := by
      have := payload_eq .real bothTx w0 both_tx.1 hw0 0 1
      rw [if_neg (by rw [← hasPushData_blank]; decide)] at this
      exact this
    rw [both_payload] at hpay
    have hval : (beValue (sighash .real w0 0 1) : Int) = bothDigest := by
      rw [← Except.ok.inj hpay]
      decide +kernel
    exact one_rejects hval s5 s5a s5b s4 ha

/-! ## C85 -/

/-- The hash of `onePub`, two inputs that spend what is paid to it, and a transaction with two outputs. -/
def oneHash : Bytes := encodeInt 0x751e76e8199196d454941c45d1b3a323f1433bd6 true (some 20)
def oneInput (ix : Int) : Input :=
  ⟨.address, List.replicate 64 'a', ix, ⟨.payToPubkeyOut, [⟨.num 118, none⟩, ⟨.num 169, none⟩, ⟨.num 20, some ⟨.str, oneHash⟩⟩,
    ⟨.num 136, none⟩, ⟨.num 172, none⟩]⟩, 0xFFFFFFFF⟩
def pairTx : Transaction := ⟨[oneInput 0, oneInput 1], [sampleOutput, sampleOutput], 0, 1⟩

theorem one_create : AddressInput.create (List.replicate 64 'a') 0 ⟨oneHash, .livenet, .publicKey⟩ = .ok (oneInput 0) ∧
    AddressInput.canSign .real (oneInput 0) [oneKey] = .ok true := by decide +kernel

/-- `pairTx` on the wire. -/
def pairWire : WireTx :=
  ⟨1, [⟨List.replicate 32 0xaa, 0, 118 :: 169 :: 20 :: (oneHash ++ [136, 172]), 0xFFFFFFFF⟩,
    ⟨List.replicate 32 0xaa, 1, 118 :: 169 :: 20 :: (oneHash ++ [136, 172]), 0xFFFFFFFF⟩],
    [⟨sampleOutput.amount.toNat, [2, 7, 8]⟩, ⟨sampleOutput.amount.toNat, [2, 7, 8]⟩], 0⟩

theorem pair_shows : pairTx.Shows pairWire := by
  have he := payToKey_encodes oneHash (by decide +kernel)
  have hw : ∀ ix, (oneInput ix).script.wires = Ref.payToKey oneHash := fun ix => by
    show (oneInput 0).script.wires = Ref.payToKey oneHash
    decide +kernel
  have ho : Output.Shows sampleOutput ⟨sampleOutput.amount.toNat, [2, 7, 8]⟩ := ⟨by decide, .cons (b := [2, 7, 8]) (by decide) rfl .nil⟩
  exact ⟨rfl, .cons ⟨by decide +kernel, rfl, hw 0 ▸ he, rfl⟩ (.cons ⟨by decide +kernel, rfl, hw 1 ▸ he, rfl⟩ .nil),
    .cons ho (.cons ho .nil), rfl⟩

theorem pair_tx : pairTx.InRange :=
  shows_inRange _ _ ⟨by decide, by decide, by decide, by decide⟩ pair_shows
    (by unfold WireTx.Fits WireIn.Fits WireOut.Fits; decide +kernel)

/-- The first input signed with nonce one. -/
def typeInput (s : Int) (hashType : Byte) : Input :=
  ⟨.generic, List.replicate 64 'a', 0, ⟨.payToPubkeyIn, [⟨.num 71, some ⟨.str, oneSig s hashType⟩⟩,
    ⟨.num 33, some ⟨.str, 2 :: encodeInt secpGx true (some 32)⟩⟩]⟩, 0xFFFFFFFF⟩

theorem ok_of_toBool {α : Type} {e : Except Err α} (h : e.toBool = true) : ∃ a, e = .ok a := by
  cases e with
  | ok a => exact ⟨a, rfl⟩
  | error _ => cases h

theorem sign_steps {H : Hashes} {signer : Signer} {t u : Transaction} {ks : List PrivateKey} {n st : Int} {m : Bytes} {x y : Input}
    (h1 : t.payload H n st = .ok m) (h2 : pyIndex t.inputs n = .ok x) (h3 : x.sign signer ks m st = .ok y)
    (h4 : t.replaceInputs (atIndex (fun _ => y) (fun x => x) n 0 t.inputs) = .ok u) : t.sign H signer ks n st = .ok u := by
  unfold Transaction.sign
  rw [h1]
  simp only [h2, h3]
  exact h4

theorem type_rejects (st : Int) (b : Byte) (m s z : Nat)
    (hm : pairTx.payload .real 0 st = .ok (encodeInt m true (some 32))) (hb : st.toNat = b.val)
    (hs : (oneInput 0).sign (keySigner fun _ => 1) [oneKey] (encodeInt m true (some 32)) st = .ok (typeInput s b))
    (hwires : (typeInput s b).script.wires =
      [pushOf (oneSig s b), pushOf (2 :: encodeInt secpGx true (some 32))])
    (hd : sigdecodeDer (oneSig s b).dropLast = .ok (secpGx, (s : Int)))
    (hz : Ref.signatureHash .real pairWire 0 (118 :: 169 :: 20 :: (oneHash ++ [136, 172])) b.val =
      encodeInt z true (some 32)) (hzz : z < 2 ^ 256)
    (h1 : ((z : Int) + secpGx - s) % secpN ≠ 0) (h2 : ((z : Int) + secpGx + s) % secpN ≠ 0)
    (hl : (oneSig s b).length = 71) :
    ∃ u ub w, pairTx.sign .real (keySigner fun _ => 1) [oneKey] 0 st = .ok u ∧ u.toBytes = .ok ub ∧ u.Shows w ∧
      ∀ flags, ¬ Ref.Spends .real flags w 0 (118 :: 169 :: 20 :: (oneHash ++ [136, 172])) := by
  have hν : NoncesOk fun _ => 1 := fun _ => ⟨le_refl 1, by show 1 < secpN; decide⟩
  have hsign : pairTx.sign .real (keySigner fun _ => 1) [oneKey] 0 st = .ok { pairTx with inputs := [typeInput s b, oneInput 1] } :=
    sign_steps hm rfl hs (replaceInputs_ok _ _ pair_tx.1 (by simp [pairTx, atIndex]))
  have hgood : ∀ k ∈ [oneKey], k.Good := fun k hk => both_good k (by simp_all)
  have hst : Signs .real pairTx { pairTx with inputs := [typeInput s b, oneInput 1] } :=
    .step (.refl pairTx) (by omega) hsign (C74_signer _ hν) hgood
  obtain ⟨w, ub, hw, hub, _⟩ := C41_serialises_partial .real pairTx _ pair_tx
    (by decide +kernel)
    (by
      intro y hy hc
      simp only [pairTx, List.mem_cons, List.not_mem_nil, or_false] at hy
      rcases hy with rfl | rfl <;> exact absurd rfl hc) hst
  refine ⟨_, ub, w, hsign, hub, hw, fun flags h => ?_⟩
  obtain ⟨_, _, y, sb, pb, ax, ay, _, _, _, _, hy, hyw, hsig, rx, ry, hpt, hsec, -, hiff⟩ :=
    address_spends .real _ hν pairTx _ _ oneKey (both_good _ (by simp)) 0 st _ 0 _ ⟨oneHash, .livenet, .publicKey⟩ _
      (by decide +kernel) one_create.1 one_create.2 pair_tx rfl hsign (.refl _) w hw
  rw [hiff] at h
  cases hy
  rw [hwires] at hyw
  cases pushOf_inj (List.cons.inj hyw).1
  have h73 := (signsDigest_head hsig).1
  obtain ⟨_, der, r, s', t, e1, e2, e3, _, _⟩ := hsig
  have hne : oneSig s b ≠ oneHash := by
    intro e
    rw [e] at hl
    exact absurd hl (by decide +kernel)
  have hS : Ref.Signed .real w 0 (Ref.payToKey oneHash) [oneSig s b] (oneSig s b) pb := by
    simp only [Ref.checker] at h
    split at h
    · simpa using h
    · cases h
  rw [e1, List.dropLast_concat, sigdecode_text e3 (by rw [e1] at hl; simp at hl; omega)] at hd
  cases hd
  rw [hb] at e2
  have hsc := scriptCode_payToKey (oneSig s b) oneHash h73 (by decide +kernel) hne
  rw [e1] at hS hsc
  rw [signed_iff e3 (by rw [e1] at hl; simp at hl; omega) hsec rx ry hpt
    (hsc.symm ▸ payToKey_encodes oneHash (by decide +kernel)), e2, ← signatureHash_core .real (signs_core hst pair_shows hw), hz,
    beValue_encodeInt, Int.toNat_natCast, Nat.mod_eq_of_lt (by omega)] at hS
  have := valid_one (d := 1) hS
  rw [mul_one] at this
  exact this.elim h1 h2

/-- C85 is false of the code for every hash type but SIGHASH_ALL: the digest that is signed is still that of all inputs and
outputs.  The transaction is signed and serialised, but the reference client refuses it, whatever the verification
flags. -/
theorem C85_types_refuted : ∃ (k : PrivateKey) (a : Address) (x : Input) (t : Transaction), k.Good ∧
    AddressInput.create (List.replicate 64 'a') 0 a = .ok x ∧ AddressInput.canSign .real x [k] = .ok true ∧
    t.InRange ∧ t.inputs[0]? = some x ∧ NoncesOk (fun _ => 1) ∧ ∀ st ∈ [2, 3, 0x81, 0x82, 0x83],
    ∃ u ub w, t.sign .real (keySigner fun _ => 1) [k] 0 st = .ok u ∧ u.toBytes = .ok ub ∧ u.Shows w ∧
      ∀ flags, ¬ Ref.Spends .real flags w 0 (118 :: 169 :: 20 :: (a.phash ++ [136, 172])) := by
  refine ⟨oneKey, ⟨oneHash, .livenet, .publicKey⟩, oneInput 0, pairTx, both_good _ (by simp), one_create.1, one_create.2,
    pair_tx, rfl, fun _ => ⟨le_refl 1, by show 1 < secpN; decide⟩, ?_⟩
  intro st hst
  simp only [List.mem_cons, List.not_mem_nil, or_false] at hst
  rcases hst with rfl | rfl | rfl | rfl | rfl
  · exact type_rejects 2 2 0xcbb572c2b375ab59ca101b95d11cb8fdaa4318dfa797c120afe667b9e31e139e
      0x4573d941ad5267061fb07e2b9fa3c405f23038d4261d49be4a068a8829dfe9f5
      0x659523efe5e51d8b6fa7db600b8865073870d44fdc8cf41f05c485a263e8645a (by decide +kernel) rfl (by decide +kernel)
      (by decide +kernel) (by decide +kernel) (by decide +kernel) (by decide +kernel) (by decide +kernel) (by decide +kernel) (by decide +kernel)
  · exact type_rejects 3 3 0x8d5615f641d7fc825bfe09475ba936d63a56f0dd10bea9ce9f87ac72ba43176c
      0x07147c753bb4b82eb19e6bdd2a3041de824410d18f44326c39a7cf410104edc3
      0xc828eef4467ed76c7075277e284c9c086246d47d4ed912dec5190252d5e9d7d6 (by decide +kernel) rfl (by decide +kernel)
      (by decide +kernel) (by decide +kernel) (by decide +kernel) (by decide +kernel) (by decide +kernel) (by decide +kernel) (by decide +kernel)
  · exact type_rejects 129 129 0xad5ac041f9d4dac8709a50a831e9860d21c50a7d97434b464a7cc2774c6cc63c
      0x271926c0f3b19674c63ab33e0070911569b22a7215c8d3e3e49ce545932e9c93
      0x1ef1043664ddd5ef34cc22fa0b663b64162780706e6a2d27a27f62121ef23542 (by decide +kernel) rfl (by decide +kernel)
      (by decide +kernel) (by decide +kernel) (by decide +kernel) (by decide +kernel) (by decide +kernel) (by decide +kernel) (by decide +kernel)
  · exact type_rejects 130 130 0xe2ff6999eedeeac70502feed5c68a1c98401d1cf63b36cffe6601bf68a0e914a
      0x5cbdd018e8bba6735aa361832aefacd1cbeef1c3e238f59d80803ec4d0d067a1
      0xc843877739fd220f8376ec85ea7782a46a1005c2c3ac26376c6a760d5fc381f7 (by decide +kernel) rfl (by decide +kernel)
      (by decide +kernel) (by decide +kernel) (by decide +kernel) (by decide +kernel) (by decide +kernel) (by decide +kernel) (by decide +kernel)
  · exact type_rejects 131 131 0x1391f77a691a12781b8a1c5b66b7e9051e4981de318a3f4019f1db7520e04748
      0x72afa2069d0931db8ed5810ecac10bf299c95e2d4ff038224bee01bc985de261
      0x5e74fe812787c09a42a71336835ddbb9e62029b395cf2e01b23af74bb8fd47b7 (by decide +kernel) rfl (by decide +kernel)
      (by decide +kernel) (by decide +kernel) (by decide +kernel) (by decide +kernel) (by decide +kernel) (by decide +kernel) (by decide +kernel)

/-- Hypotheses of `C83_address` and of `C85_all_partial`, for the real hash functions; the input is one of two. -/
example : (⟨oneHash, .livenet, .publicKey⟩ : Address).phash.length = 20 ∧
    (∃ u, pairTx.sign .real (keySigner fun _ => 1) [oneKey] 0 1 = .ok u ∧
      (∀ y, u.inputs[0]? = some y → y.script.wires.head? ≠ some (pushOf oneHash)) ∧
      ∃ v, u.sign .real (keySigner fun _ => 1) [oneKey] 1 1 = .ok v) := by
  have hm : pairTx.payload .real 0 1 = .ok (encodeInt 0xc275525bf0ad87a6ea41203d666e1ef9d369ba0a196a4103a6688052b07b5bee true
      (some 32)) := by decide +kernel
  have hs : (oneInput 0).sign (keySigner fun _ => 1) [oneKey]
      (encodeInt 0xc275525bf0ad87a6ea41203d666e1ef9d369ba0a196a4103a6688052b07b5bee true (some 32)) 1 =
      .ok (typeInput 0x3c33b8daea8a43533fe182d334f52a021b56d9fe97efc9a14088a320f73d3245 1) := by decide +kernel
  refine ⟨by decide +kernel, _, sign_steps hm rfl hs (replaceInputs_ok _ _ pair_tx.1 (by simp [pairTx, atIndex])), ?_, ?_⟩
  · intro y hy
    cases hy
    decide +kernel
  · exact ok_of_toBool (by decide +kernel)

/-- Hypotheses of `C84_multisig_partial` and of `C84_iff`. -/
example : ∃ ps, PublicKeys [oneKey, twoKey] ps ∧ (ps.map (·.pair)).Sublist ([onePub, twoPub].map (·.pair)) ∧
    ∃ u, bothTx.sign .real (keySigner fun _ => 1) [oneKey, twoKey] 0 1 = .ok u :=
  ⟨[onePub, twoPub], .cons both_create.2.1 (.cons both_create.2.2.1 .nil), List.Sublist.refl _,
    ok_of_toBool (by decide +kernel)⟩

end Bitforge
