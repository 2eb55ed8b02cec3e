import Verif.Props.Owner
import Verif.Props.Malleable

/-! # C107: a signature authorises one transaction -/

namespace Bitforge
open Spec

/-! ## The digests of a signature -/

/-- `s` times the point of the equation. -/
theorem smul_point {Q : SecpGroup} {z r s w : Int} (hw : (s * w) % (secpN : Int) = 1) :
    s • ((z * w) • G + (r * w) • Q) = z • G + r • Q := by
  have e : ∀ (a : Int) (P : SecpGroup), s • (a * w) • P = a • P := by
    intro a P
    rw [smul_smul, show s * (a * w) = a * (s * w) by ring]
    apply zsmul_congr
    rw [Int.mul_emod, hw]
    simp
  rw [zsmul_add, e, e]

/-- Two digests with the same point, or its opposite. -/
theorem digests_pm {d z z' r s x : Int} (h : SigAt (d • G) z r s x) (h' : SigAt (d • G) z' r s x) :
    z' % (secpN : Int) = z % (secpN : Int) ∨ (z + z' + 2 * (r * d)) % (secpN : Int) = 0 := by
  obtain ⟨w, hw, _, y, hy⟩ := h
  obtain ⟨w', hw', _, y', hy'⟩ := h'
  have e := smul_point (Q := d • G) (z := z) (r := r) hw
  have e' := smul_point (Q := d • G) (z := z') (r := r) hw'
  rcases isPoint_pm hy hy' with h | h
  · left
    rw [h, e] at e'
    have e'' : (z' - z) • G = 0 := by rw [sub_zsmul, ← add_right_cancel e', add_neg_cancel]
    exact Int.emod_eq_emod_iff_emod_sub_eq_zero.2 ((zsmul_G_eq_zero_iff _).1 e'')
  · right
    rw [h, zsmul_neg, e, neg_eq_iff_add_eq_zero, smul_smul] at e'
    rw [← zsmul_G_eq_zero_iff, show z + z' + 2 * (r * d) = z + r * d + (z' + r * d) by ring, add_zsmul, add_zsmul,
      add_zsmul, e']

/-- C107. A signature by the key `d` is one of at most two digests modulo `n`: a second is the one that adds up to
`-2rd` with the first; unless `r` is below `p - n`, which is less than 2^129. -/
theorem C107_digests_partial {d z z' r s : Int} (h : ValidSig (d • G) z r s) (h' : ValidSig (d • G) z' r s)
    (hr : (secp.p : Int) - secpN ≤ r) :
    z' % (secpN : Int) = z % (secpN : Int) ∨ (z + z' + 2 * (r * d)) % (secpN : Int) = 0 := by
  obtain ⟨a1, a2, a3, a4, w, x, hw, hx, he⟩ := h
  obtain ⟨_, _, b3, b4, w', x', hw', hx', he'⟩ := h'
  have key : ∀ {x : Int}, reduced x → x % (secpN : Int) = r % (secpN : Int) → x = r := by
    intro x hx he
    rcases x_cases hx (by omega) (by omega) he with h | h
    · exact h
    · have := ((reduced_iff x).1 hx).2
      omega
  obtain rfl := key hx.1 he
  obtain rfl := key hx'.1 he'
  exact digests_pm ⟨w, hw, hx⟩ ⟨w', hw', hx'⟩

/-- C107. … and this one it is a signature of: no signature is of one digest only. -/
theorem C107_digests_refuted {d z r s : Int} (h : ValidSig (d • G) z r s) :
    ValidSig (d • G) (-z - 2 * (r * d)) r s := by
  obtain ⟨h1, h2, h3, h4, w, x, hw, ⟨hx, y, hy⟩, he⟩ := h
  refine ⟨h1, h2, h3, h4, w, x, hw, ⟨hx, -y, ?_⟩, he⟩
  have e : ((-z - 2 * (r * d)) * w) • G + (r * w) • d • G = -((z * w) • G + (r * w) • d • G) := by
    rw [smul_smul, ← add_zsmul, ← add_zsmul, ← neg_zsmul]
    congr 1
    ring
  rw [e]
  exact isPoint_neg hy hx

/-- C107. In any case there are at most four. -/
theorem C107_four (d r s : Int) : ∃ a b : Int, ∀ z, ValidSig (d • G) z r s →
    z % (secpN : Int) = a % (secpN : Int) ∨ (a + z + 2 * (r * d)) % (secpN : Int) = 0 ∨
    z % (secpN : Int) = b % (secpN : Int) ∨ (b + z + 2 * (r * d)) % (secpN : Int) = 0 := by
  have pick : ∀ x : Int, ∃ a : Int, ∀ z : Int, SigAt (d • G) z r s x →
      z % (secpN : Int) = a % (secpN : Int) ∨ (a + z + 2 * (r * d)) % (secpN : Int) = 0 := by
    intro x
    by_cases hx : ∃ a : Int, SigAt (d • G) a r s x
    · obtain ⟨a, h⟩ := hx
      exact ⟨a, fun z hz => digests_pm h hz⟩
    · exact ⟨0, fun z hz => absurd ⟨z, hz⟩ hx⟩
  obtain ⟨a, ha⟩ := pick r
  obtain ⟨b, hb⟩ := pick (r + secpN)
  refine ⟨a, b, fun z h => ?_⟩
  obtain ⟨h1, h2, h3, h4, w, x, hw, hx, he⟩ := h
  rcases x_cases hx.1 (by omega) (by omega) he with rfl | rfl
  · rcases ha z ⟨w, hw, hx⟩ with h | h
    · exact .inl h
    · exact .inr (.inl h)
  · rcases hb z ⟨w, hw, hx⟩ with h | h
    · exact .inr (.inr (.inl h))
    · exact .inr (.inr (.inr h))

/-! ## Transactions -/

theorem inputs_unique : ∀ {is : List Input} {ws vs : List WireIn}, List.Forall₂ Input.Shows is ws →
    List.Forall₂ Input.Shows is vs → ws = vs
  | [], _, _, .nil, .nil => rfl
  | _ :: _, _ :: _, _ :: _, .cons a as, .cons b bs => by
    rw [inputs_unique as bs, input_shows_unique a b]

theorem shows_unique {t : Transaction} {w v : WireTx} (h : t.Shows w) (h' : t.Shows v) : w = v := by
  obtain ⟨a1, a2, a3, a4⟩ := h
  obtain ⟨b1, b2, b3, b4⟩ := h'
  have e1 : w.version = v.version := by omega
  have e2 : w.lockTime = v.lockTime := by omega
  have e3 := inputs_unique a2 b2
  have e4 := outputs_unique a3 b3
  cases w; cases v
  simp_all

theorem withScript_fits {w : WireTx} (hw : w.Fits) (n : Nat) {b : Bytes} (hb : b.length < 2 ^ 64) :
    (withScript w n b).Fits := by
  obtain ⟨h1, h2, h3, h4, h5, h6⟩ := hw
  refine ⟨h1, h2, fun i hi => ?_, h4, by simpa [withScript] using h5, h6⟩
  obtain ⟨k, hk⟩ := List.mem_iff_getElem?.1 hi
  simp only [withScript, List.getElem?_modify] at hk
  cases hx : w.inputs[k]? with
  | none => rw [hx] at hk; cases hk
  | some x =>
    rw [hx] at hk
    have := h3 x (List.mem_of_getElem? hx)
    split at hk <;> cases hk
    · exact ⟨this.1, this.2.1, hb, this.2.2.2⟩
    · exact this

/-- What the digest of the input at `n` of `w`, with script `code`, is the hash of. -/
def preimage (w : WireTx) (n : Nat) (code : Bytes) (hashType : Nat) : Bytes :=
  ((withScript w n code).blank n).bytes ++ le 4 hashType

theorem signatureHash_preimage (H : Hashes) (w : WireTx) (n : Nat) (hn : n < w.inputs.length) (code : Bytes) (ht : Nat)
    (h2 : ht % 32 ≠ 2) (h3 : ht % 32 ≠ 3) (h7 : ht.testBit 7 = false) :
    Ref.signatureHash H w n code ht = H.sha256 (H.sha256 (preimage w n code ht)) := by
  have hx : (withScript w n code).inputs[n]? = some { w.inputs[n] with script := code } := by
    simp only [withScript, List.getElem?_modify, List.getElem?_eq_getElem hn]
    simp
  rw [signatureHash_core H (withScript_core w n code)]
  exact signatureHash_all H (withScript w n code) n _ hx ht h2 h3 h7

/-- The digest `m'` is not `m`, but what is a signature `(r, s)` of the one, by the key `d`, may be one of the other. -/
def Coincide (d r : Int) (m m' : Bytes) : Prop :=
  m ≠ m' ∧ ((beValue m' : Int) % (secpN : Int) = (beValue m : Int) % (secpN : Int) ∨
    ((beValue m : Int) + beValue m' + 2 * (r * d)) % (secpN : Int) = 0 ∨ r < (secp.p : Int) - secpN)

/-- What it takes to use a signature of `w` a second time: the same transaction, up to the scripts of its inputs; or a
collision; or a coincidence. -/
def SameUse (H : Hashes) (d : Int) (w : WireTx) (n : Nat) (w' : WireTx) (n' : Nat) (code sb : Bytes) : Prop :=
  (n' = n ∧ SameCore w w') ∨ Collide256 H (preimage w n code 1) (preimage w' n' code 1) ∨
  ∃ der r s t, sb = der ++ [t] ∧ SigText der r s ∧
    Coincide d r (H.sha256 (H.sha256 (preimage w n code 1))) (H.sha256 (H.sha256 (preimage w' n' code 1)))

theorem withScript_self {w : WireTx} {n : Nat} {x : WireIn} (hx : w.inputs[n]? = some x) : withScript w n x.script = w := by
  have : w.inputs.modify n (fun y => { y with script := x.script }) = w.inputs := by
    apply List.ext_getElem?
    intro k
    rw [List.getElem?_modify]
    by_cases hk : n = k
    · subst hk
      rw [hx]
      simp
    · simp [hk]
  unfold withScript
  rw [this]

theorem same_use {H : Hashes} {d : Int} {w w' : WireTx} {n n' : Nat} {x : WireIn} {sb kb : Bytes}
    {code : List WireInstr} {sigs : List Bytes} {kx ky : Int} {c : Bool} (hw : w.Fits) (hw' : w'.Fits)
    (hx : w.inputs[n]? = some x) (hne : x.script ≠ []) (hn' : n' < w'.inputs.length)
    (hsig : SignsDigest (d • G) (sighash H w n 1) 1 sb) (henc : Encodes (Ref.scriptCode sigs code) x.script)
    (hsec : Sec kx.toNat ky.toNat c kb) (rx : reduced kx) (ry : reduced ky) (hpt : IsPoint kx ky (d • G))
    (h : Ref.Signed H w' n' code sigs sb kb) : SameUse H d w n w' n' x.script sb := by
  obtain ⟨_, h73, _⟩ := signsDigest_head hsig
  obtain ⟨_, der, r, s, t, rfl, ht, htext, hval, _⟩ := hsig
  simp only [List.length_append, List.length_cons, List.length_nil] at h73
  have hval' := (signed_iff htext (by omega) hsec rx ry hpt henc).1 h
  rw [ht, signatureHash_preimage H w' n' hn' x.script 1 (by decide) (by decide) (by decide)] at hval'
  have hp : preimage w n x.script 1 = (w.blank n).bytes ++ le 4 1 := by
    unfold preimage
    rw [withScript_self hx]
  have hval : ValidSig (d • G) (beValue (H.sha256 (H.sha256 (preimage w n x.script 1)))) r s := by rw [hp]; exact hval
  unfold SameUse
  by_cases he : H.sha256 (H.sha256 (preimage w n x.script 1)) = H.sha256 (H.sha256 (preimage w' n' x.script 1))
  · by_cases hpe : preimage w n x.script 1 = preimage w' n' x.script 1
    · left
      rw [hp] at hpe
      obtain ⟨_, c1, c2, c3, c4, c5⟩ := C39_commits w (withScript w' n' x.script) hw
        (withScript_fits hw' n' (hw.2.2.1 x (List.mem_of_getElem? hx)).2.2.1) n n' 1 1 (by norm_num) (by norm_num) hpe
      obtain ⟨rfl, _⟩ := c5 x hx hne
      have hc := withScript_core w' n x.script
      refine ⟨rfl, c1, c3, c2, ?_⟩
      rw [hc.2.2.2]
      apply List.ext_getElem?
      intro k
      rw [List.getElem?_map, List.getElem?_map]
      exact c4 k
    · exact .inr (.inl ⟨hpe, he⟩)
  · refine .inr (.inr ⟨der, r, s, t, rfl, htext, he, ?_⟩)
    by_cases hr : (secp.p : Int) - secpN ≤ r
    · rcases C107_digests_partial hval hval' hr with h | h
      · exact .inl h
      · exact .inr (.inl h)
    · exact .inr (.inr (by omega))

/-- C107. The signature that `Transaction.sign` makes for an AddressInput does not serve to spend anything else of the
address: if the reference client accepts it, or the input script with it, in another transaction or at another input,
this is the same up to the scripts of its inputs, or else a collision or a coincidence. -/
theorem C107_address (H : Hashes) (nonces : Nat → Nat) (hν : NoncesOk nonces) (t u : Transaction) (k : PrivateKey)
    (hk : k.Good) (n : Nat) (id : Text) (ix seq : Int) (a : Address) (x : Input) (ha : a.phash.length = 20)
    (hc : AddressInput.create id ix a seq = .ok x) (hcan : AddressInput.canSign H x [k] = .ok true)
    (ht : t.InRange) (hx : t.inputs[n]? = some x) (h : t.sign H (keySigner nonces) [k] n 1 = .ok u) :
    ∃ w y sb pb, t.Shows w ∧ u.inputs[n]? = some y ∧ y.script.wires = [pushOf sb, pushOf pb] ∧
      (sb ≠ a.phash → ∀ (flags : Nat) (w' : WireTx) (n' : Nat), w'.Fits → n' < w'.inputs.length →
        (Endorsed H flags w' n' (Ref.payToKey a.phash) [sb] sb pb →
          SameUse H k.secret w n w' n' (118 :: 169 :: 20 :: (a.phash ++ [136, 172])) sb) ∧
        ∀ x', w'.inputs[n']? = some x' → Encodes [pushOf sb, pushOf pb] x'.script →
          Ref.Spends H flags w' n' (118 :: 169 :: 20 :: (a.phash ++ [136, 172])) →
          SameUse H k.secret w n w' n' (118 :: 169 :: 20 :: (a.phash ++ [136, 172])) sb) := by
  obtain ⟨v, hv⟩ := signs_shows (.step (.refl t) (i := n) (by omega) h (C74_signer _ hν) (by simpa using hk)) ht
  obtain ⟨w, xw, y, sb, pb, ax, ay, hw, hxw, hxscript, _, hy, hwires, hsig, rx, ry, hpt, hsec, _, _⟩ :=
    address_spends H nonces hν t u u k hk n 1 id ix seq a x ha hc hcan ht hx h (.refl u) v hv
  rw [show ((1 : Int).toNat) = 1 from rfl] at hsig
  obtain ⟨wf, hwf, hfits⟩ := tx_shows t ht
  cases shows_unique hwf hw
  refine ⟨w, y, sb, pb, hw, hy, hwires, fun hne flags w' n' hf' hn' => ?_⟩
  obtain ⟨h9, h73, _⟩ := signsDigest_head hsig
  have key : Endorsed H flags w' n' (Ref.payToKey a.phash) [sb] sb pb →
      SameUse H k.secret w n w' n' (118 :: 169 :: 20 :: (a.phash ++ [136, 172])) sb := by
    intro he
    rw [← hxscript]
    refine same_use hfits hf' hxw (by rw [hxscript]; simp) hn' hsig ?_ hsec rx ry hpt he.2.2
    rw [scriptCode_payToKey sb a.phash h9 ha hne, hxscript]
    exact payToKey_encodes a.phash ha
  refine ⟨key, fun x' hx' henc hsp => key ?_⟩
  obtain ⟨x'', hx'', s, p, st, st', es, ep, _, e1, e2, hs, _⟩ := hsp
  rw [hx'] at hx''
  cases hx''
  cases encodes_injective es henc
  cases encodes_injective ep (payToKey_encodes a.phash ha)
  have e1' := eval_pushes H (Ref.checker H flags w' n') flags false [sb, pb] (by
    intro b hb
    have : 33 ≤ pb.length ∧ pb.length ≤ 65 := by rcases sec_head hsec with h | h <;> omega
    simp only [List.mem_cons, List.not_mem_nil, or_false] at hb
    rcases hb with rfl | rfl <;> omega) (by simp)
  cases e1.symm.trans e1'
  obtain ⟨_, _, _, e, _, hck, _⟩ := Ref.payToKey_inv ha e2 hs
  cases e
  exact checker_iff.1 hck

/-- C107. Nor does a signature of a MultisigInput serve its key to spend anything else of the redeem script. -/
theorem C107_multisig (H : Hashes) (nonces : Nat → Nat) (hν : NoncesOk nonces) (t u : Transaction)
    (ks : List PrivateKey) (hk : ∀ k ∈ ks, k.Good) (n : Nat) (id : Text) (ix seq : Int) (pubs : List PublicKey)
    (hpv : ∀ p ∈ pubs, p.Valid) (hn : pubs.length ≤ 16) (hm : ks.length ≤ pubs.length) (x : Input)
    (hc : MultisigInput.create id ix pubs ks.length seq = .ok x)
    (ht : t.InRange) (hx : t.inputs[n]? = some x) (h : t.sign H (keySigner nonces) ks n 1 = .ok u)
    (rb : Bytes) (hrb : x.script.toBytes = .ok rb) (h520 : rb.length ≤ 520) :
    ∃ w y sbs bs, t.Shows w ∧ u.inputs[n]? = some y ∧ y.script.wires = (0, none) :: (sbs ++ [rb]).map pushOf ∧
      List.Forall₂ (fun (p : PublicKey) b => p.toBytes = .ok b) pubs bs ∧
      List.Forall₂ (fun (k : PrivateKey) sb => ∀ p, k.toPublicKey = .ok p →
        ∀ (q : PublicKey) (kb : Bytes), q ∈ pubs → q.pair = p.pair → q.toBytes = .ok kb →
        ∀ (flags : Nat) (w' : WireTx) (n' : Nat) (sigs : List Bytes), w'.Fits → n' < w'.inputs.length →
        (∀ s ∈ sigs, StrictDer s) → Endorsed H flags w' n' (Ref.redeemScript ks.length bs) sigs sb kb →
        SameUse H k.secret w n w' n' rb sb) ks sbs := by
  obtain ⟨v, hv⟩ := signs_shows (.step (.refl t) (i := n) (by omega) h (C74_signer _ hν) hk) ht
  obtain ⟨w, xw, y, sbs, bs, hw, hxw, hxscript, _, hy, hwires, hsigs, hbs, hkeys, henc, _, _, _⟩ :=
    multisig_spends H nonces hν t u u ks hk n id ix seq pubs hpv hn hm x hc ht hx h (.refl u) v hv rb hrb h520
  obtain ⟨wf, hwf, hfits⟩ := tx_shows t ht
  cases shows_unique hwf hw
  refine ⟨w, y, sbs, bs, hw, hy, hwires, hbs, (forall₂_mem hsigs).imp ?_⟩
  rintro k sb ⟨hkm, hsig⟩ p hp q kb hq hqp hqb flags w' n' sigs hf' hn' hder he
  obtain ⟨ax, ay, hpk, rx, ry, _, hpt⟩ := C20_public_key k.secret (.network k.network) k.compressed k
    (by rw [make_network, if_pos ⟨(hk k hkm).1, (hk k hkm).2⟩])
  rw [hp] at hpk
  cases hpk
  obtain ⟨b', hb', hsec⟩ := C18_to_bytes q (hpv q hq).2.1 (hpv q hq).2.2
  rw [hqb] at hb'
  cases hb'
  rw [hqp] at hsec
  have hpt' : IsPoint ax ay (k.secret • G) := by
    have : k.secret = (k.secret.toNat : Int) := by have := (hk k hkm).1; omega
    rw [this, natCast_zsmul]
    exact hpt
  rw [← hxscript]
  refine same_use hfits hf' hxw ?_ hn' hsig ?_ hsec rx ry hpt' he.2.2
  · intro e
    rw [hxscript] at e
    rw [e] at henc
    cases encodes_injective henc .nil
  · rw [scriptCode_redeem sigs bs ks.length (by omega) (by rw [← hbs.length_eq]; omega), hxscript]
    · exact henc
    · intro s hs
      obtain ⟨_, _, rb', sb', seq', _, _, _, _, _, ⟨_, _, rfl⟩, rfl, h9, _⟩ := hder s hs
      exact ⟨by omega, rfl⟩
    · intro b hb
      obtain ⟨_, _, _, hs⟩ := hkeys b hb
      rcases sec_head hs with ⟨h1, h2 | h2⟩ | ⟨h1, h2⟩ <;> rw [h2] <;> exact ⟨by omega, by decide⟩

/-! ## Cases -/

/-- `(Gx, Gx)` signs zero, and `-2Gx`, for the key one. -/
theorem two_digests : ValidSig ((1 : Int) • G) 0 secpGx secpGx ∧ ValidSig ((1 : Int) • G) (-0 - 2 * (secpGx * 1)) secpGx secpGx ∧
    (secp.p : Int) - secpN ≤ secpGx := by
  have h : ValidSig G 0 secpGx secpGx := (verify_iff (qx := secpGx) (qy := secpGy) ⟨G_nonsingular, rfl⟩
    (by unfold reduced; decide)).1 (by decide +kernel)
  have hv : ValidSig ((1 : Int) • G) 0 secpGx secpGx := (one_zsmul G).symm ▸ h
  exact ⟨hv, C107_digests_refuted hv, by decide +kernel⟩

/-- A transaction signed as in `C107_address`. -/
example : ∃ u, oneKey.Good ∧ oneHash.length = 20 ∧
    AddressInput.create (List.replicate 64 'a') 0 ⟨oneHash, .livenet, .publicKey⟩ = .ok (oneInput 0) ∧
    AddressInput.canSign .real (oneInput 0) [oneKey] = .ok true ∧ pairTx.InRange ∧ pairTx.inputs[0]? = some (oneInput 0) ∧
    pairTx.sign .real (keySigner fun _ => 1) [oneKey] (0 : Nat) 1 = .ok u := by
  obtain ⟨u, hu⟩ := ok_of_toBool (e := pairTx.sign .real (keySigner fun _ => 1) [oneKey] (0 : Nat) 1) (by decide +kernel)
  exact ⟨u, both_good _ (by simp), by decide +kernel, one_create.1, one_create.2, pair_tx, rfl, hu⟩

/-- One signed as in `C107_multisig`. -/
example : ∃ u rb, (∀ p ∈ [onePub, twoPub], p.Valid) ∧
    MultisigInput.create (List.replicate 64 'a') 0 [onePub, twoPub] 2 = .ok bothInput ∧ bothTx.InRange ∧
    bothTx.inputs[0]? = some bothInput ∧ bothTx.sign .real (keySigner fun _ => 1) [twoKey, oneKey] 0 = .ok u ∧
    bothInput.script.toBytes = .ok rb ∧ rb.length ≤ 520 :=
  ⟨_, bothScript, both_valid, both_create.1, both_tx, rfl, both_sign, by decide +kernel, by decide +kernel⟩

end Bitforge
