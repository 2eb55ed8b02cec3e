import Verif.Props.HdPath
import Verif.Props.MakeOutcome

/-! # C122: what making and deriving extended keys does in every case -/

namespace Bitforge
open Spec

/-- The fingerprint of a public key: the number in the first four bytes of the HASH160 of what it is written as. -/
inductive FingerprintMade (H : Hashes) (k : PublicKey) : Except Err Nat → Prop
  | fails {e} : SecWritten k (.error e) → FingerprintMade H k (.error e)
  | number {b} : SecWritten k (.ok b) → FingerprintMade H k (.ok (beValue ((H.ripemd160 (H.sha256 b)).take 4)))

/-- An extended public key with these fields. -/
inductive XpubMade (H : Hashes) (q : PublicKey) (chain : Bytes) (depth index : Int) (parent : Nat) (net : Network) :
    Except Err HDPublicKey → Prop
  | fails {e} : FingerprintMade H q (.error e) → XpubMade H q chain depth index parent net (.error e)
  | key {f} : FingerprintMade H q (.ok f) →
      XpubMade H q chain depth index parent net (.ok ⟨q, chain, depth, index, parent, net, f⟩)

/-- `derive` of an extended public key.  `m` is the HMAC of the key and of its own index. -/
inductive XpubDerived (H : Hashes) (k : HDPublicKey) (i : Int) : Bool → Except Err HDPublicKey → Prop
  | hardened : XpubDerived H k i true (.error .valueError)
  | wide {e} : SecWritten k.pubkey (.error e) → XpubDerived H k i false (.error e)
  | infinity {b m : Bytes} {Q : SecpGroup} : SecWritten k.pubkey (.ok b) → m = H.hmacSha512 k.chain (b ++ twos 4 k.index) →
      IsPoint k.pubkey.pair.1 k.pubkey.pair.2 Q → beValue (m.take 32) • G + Q = 0 → XpubDerived H k i false (.error .typeError)
  | child {b m : Bytes} {Q : SecpGroup} {x y : Int} {r : Except Err HDPublicKey} : SecWritten k.pubkey (.ok b) →
      m = H.hmacSha512 k.chain (b ++ twos 4 k.index) → IsPoint k.pubkey.pair.1 k.pubkey.pair.2 Q → reduced x → reduced y →
      IsPoint x y (beValue (m.take 32) • G + Q) →
      XpubMade H ⟨(x, y), k.network, true⟩ (m.drop 32) (k.depth + 1) i k.fingerprint k.network r → XpubDerived H k i false r

/-- `derive` of an extended private key: there is no child in any case. -/
inductive XprvDerived (k : HDPrivateKey) : Bool → Except Err HDPrivateKey → Prop
  | plain : XprvDerived k false (.error .attributeError)
  | unicode : ¬ Seven (be 32 k.privkey.secret.toNat ++ twos 4 k.index) → XprvDerived k true (.error .unicodeDecodeError)
  | ascii : Seven (be 32 k.privkey.secret.toNat ++ twos 4 k.index) → XprvDerived k true (.error .attributeError)

theorem fingerprint_made (H : Hashes) (k : PublicKey) (r : Except Err Nat) : fingerprintOf H k = r ↔ FingerprintMade H k r := by
  refine graph (f := fingerprintOf H) (R := fun k r => FingerprintMade H k r) ?_ ?_ k r
  · intro k r h
    unfold fingerprintOf
    cases h with
    | fails h => rw [(C119_public _ _).2 h]
    | number h => rw [(C119_public _ _).2 h]; simp only [intFromBytes_eq]; rfl
  · intro k
    cases hk : k.toBytes with
    | error e => exact ⟨_, .fails ((C119_public _ _).1 hk)⟩
    | ok b => exact ⟨_, .number ((C119_public _ _).1 hk)⟩

/-- C122. Making an extended public key. -/
theorem C122_new (H : Hashes) (q : PublicKey) (chain : Bytes) (depth index : Int) (parent : Nat) (net : Network)
    (r : Except Err HDPublicKey) : HDPublicKey.new H q chain depth index parent net = r ↔ XpubMade H q chain depth index parent net r := by
  refine graph (f := fun q => HDPublicKey.new H q chain depth index parent net)
    (R := fun q r => XpubMade H q chain depth index parent net r) ?_ ?_ q r
  · intro q r h
    unfold HDPublicKey.new
    cases h with
    | fails h => rw [(fingerprint_made _ _ _).2 h]
    | key h => rw [(fingerprint_made _ _ _).2 h]
  · intro q
    cases hq : fingerprintOf H q with
    | error e => exact ⟨_, .fails ((fingerprint_made _ _ _).1 hq)⟩
    | ok f => exact ⟨_, .key ((fingerprint_made _ _ _).1 hq)⟩

/-- The point at infinity is what `derive` computes from opposite points. -/
theorem derive_infinity (e : Nat) (x y : Int) (Q : SecpGroup) (hx : reduced x) (hQ : IsPoint x y Q) (h0 : e • G + Q = 0) :
    ∃ L, Point.mul secp secpG (e : Int) = .ok L ∧ Point.make secp x y (some secpN) = .ok (.affine x y (some secpN)) ∧
      Point.add secp L (.affine x y (some secpN)) = .ok .infinity := by
  have hcp : secp.containsPoint x y = true := (containsPoint_iff_nonsingular secp_regular _ _).2 hQ.1
  have e0 : 0 ≤ effective secpG e := by rw [effective_secpG]; exact Int.emod_nonneg _ (by decide)
  obtain ⟨L, hL, hD⟩ := secp_mul (denotes_G (some secpN)) (e : Int) e0
  have hD' : Denotes secp L (e • G) := by
    have : (effective (.affine secpGx secpGy (some secpN)) (e : Int)).toNat • G = e • G := by
      change (effective secpG (e : Int)).toNat • G = e • G
      rw [effective_secpG, ← natCast_zsmul, Int.toNat_of_nonneg (by rw [← effective_secpG]; exact e0),
        ← natCast_zsmul, ← addOrderOf_G, mod_addOrderOf_zsmul]
    rwa [this] at hD
  have hx' := (reduced_iff _).1 hx
  obtain ⟨hn, rfl⟩ := hQ
  have hDQ : Denotes secp (.affine x y (some secpN)) (.some _ _ hn) := .affine _ _ _ hx'.1 hx'.2 hn
  obtain ⟨R, hR, hDR⟩ := add_denotes secp_regular hD' hDQ
  rw [h0] at hDR
  refine ⟨L, hL, by unfold Point.make; rw [if_pos hcp], ?_⟩
  cases R with
  | infinity => exact hR
  | affine x y o =>
    exfalso
    obtain ⟨_, hp⟩ := denotes_isPoint hDR
    exact WeierstrassCurve.Affine.Point.some_ne_zero _ hp.symm

/-- C122. Deriving from an extended public key, compressed or not, with any index, depth, chain code and network.  The
child has the number that is given, but its key and chain code come from the number of its parent. -/
theorem C122_public (H : Hashes) (k : HDPublicKey) (hx : reduced k.pubkey.pair.1) (hy : reduced k.pubkey.pair.2)
    (hon : OnSecp k.pubkey.pair.1 k.pubkey.pair.2) (i : Int) (hardened : Bool) (r : Except Err HDPublicKey) :
    k.derive H i hardened = r ↔ XpubDerived H k i hardened r := by
  have hn := (containsPoint_iff_nonsingular secp_regular _ _).1 ((onSecp_iff _ _).1 hon)
  refine graph (f := fun hardened => k.derive H i hardened) (R := fun hardened r => XpubDerived H k i hardened r) ?_ ?_ hardened r
  · intro hardened r h
    cases h with
    | hardened => exact C58_hardened H k i
    | wide h =>
      show k.derive H i false = _
      unfold HDPublicKey.derive
      simp only [bind, Except.bind, Bool.false_eq_true, if_false, (C119_public _ _).2 h]
    | @infinity b m Q h hm hQ h0 =>
      subst hm
      obtain ⟨L, h1, h2, h3⟩ := derive_infinity _ _ _ _ hx hQ h0
      show k.derive H i false = _
      unfold HDPublicKey.derive
      simp only [bind, Except.bind, Bool.false_eq_true, if_false, (C119_public _ _).2 h, intFromBytes_eq,
        intToBytes_twos, h1, h2, h3, Point.pair]
    | @child b m Q x y r h hm hQ rx ry hP hr =>
      subst hm
      have hne : beValue ((H.hmacSha512 k.chain (b ++ twos 4 k.index)).take 32) • G + Q ≠ 0 := by
        intro h0
        rw [h0] at hP
        obtain ⟨_, hp⟩ := hP
        exact WeierstrassCurve.Affine.Point.some_ne_zero _ hp.symm
      obtain ⟨L, R, x', y', hL, hO, hR, hpair, rx', ry', hcont, hP'⟩ := derive_point _ _ _ _ hx hy hQ hne
      obtain rfl := isPoint_x_unique hP hP' rx rx'
      obtain rfl := isPoint_y_unique hP hP' ry ry'
      have hnew : PublicKey.new (x, y) (.network k.network) = .ok ⟨(x, y), k.network, true⟩ :=
        (pub_new_ok_iff _ _ _ _).2 ⟨_, rfl, hcont, rfl⟩
      show k.derive H i false = _
      unfold HDPublicKey.derive
      simp only [bind, Except.bind, Bool.false_eq_true, and_false, if_false, (C119_public _ _).2 h, intFromBytes_eq,
        intToBytes_twos, hL, hO, hR, hpair, hnew]
      exact (C122_new H _ _ _ _ _ _ _).2 hr
  · intro hardened
    cases hardened with
    | true => exact ⟨_, .hardened⟩
    | false =>
      cases hb : k.pubkey.toBytes with
      | error e => exact ⟨_, .wide ((C119_public _ _).1 hb)⟩
      | ok b =>
        have hb := (C119_public _ _).1 hb
        have hQ : IsPoint k.pubkey.pair.1 k.pubkey.pair.2 (.some _ _ hn) := ⟨hn, rfl⟩
        by_cases h0 : beValue ((H.hmacSha512 k.chain (b ++ twos 4 k.index)).take 32) • G + (.some _ _ hn : SecpGroup) = 0
        · exact ⟨_, .infinity hb rfl hQ h0⟩
        · obtain ⟨L, R, x', y', hL, hO, hR, hpair, rx', ry', hcont, hP'⟩ := derive_point _ _ _ _ hx hy hQ h0
          exact ⟨_, .child hb rfl hQ rx' ry' hP' ((C122_new H _ _ _ _ _ _ _).1 rfl)⟩

/-- C122. Deriving from an extended private key: the exception is that of the missing attribute, unless a part of the
message of a hardened child is not ASCII. -/
theorem C122_private (k : HDPrivateKey) (h0 : 0 < k.privkey.secret) (h1 : k.privkey.secret < secpN) (i : Int) (hardened : Bool)
    (r : Except Err HDPrivateKey) : k.derive i hardened = r ↔ XprvDerived k hardened r := by
  have fl : [[0], k.privkey.toBytes, intToBytes k.index 4].flatten = 0 :: (be 32 k.privkey.secret.toNat ++ twos 4 k.index) := by
    simp [intToBytes_twos, (C119_private k.privkey).1]
  have hs : Seven [[0], k.privkey.toBytes, intToBytes k.index 4].flatten ↔ Seven (be 32 k.privkey.secret.toNat ++ twos 4 k.index) := by
    rw [fl]
    unfold Seven
    simp
  refine graph (f := fun hardened => k.derive i hardened) (R := fun hardened r => XprvDerived k hardened r) ?_ ?_ hardened r
  · intro hardened r h
    cases h with
    | plain => exact C58_private_error k i h0 h1
    | unicode h =>
      show k.derive i true = _
      unfold HDPrivateKey.derive
      simp only [if_true, bind, Except.bind, (asciiSum_graph _).2 fun hc => h (hs.1 hc)]
    | ascii h =>
      show k.derive i true = _
      unfold HDPrivateKey.derive
      simp only [if_true, bind, Except.bind, (asciiSum_graph _).1 (hs.2 h)]
  · intro hardened
    cases hardened with
    | false => exact ⟨_, .plain⟩
    | true =>
      by_cases h : Seven (be 32 k.privkey.secret.toNat ++ twos 4 k.index)
      · exact ⟨_, .ascii h⟩
      · exact ⟨_, .unicode h⟩

/-- An uncompressed parent with a negative index, and keys with and without a byte above 127. -/
example : (∃ c, (⟨⟨(secpGx, secpGy), .testnet, false⟩, [1, 2], -1, -5, 0, .livenet, 9⟩ : HDPublicKey).derive .toy (-7) = .ok c ∧
      c.pubkey.compressed = true ∧ c.pubkey.network = .livenet ∧ c.depth = 0 ∧ c.index = -7 ∧ c.parent = 9) ∧
    (⟨⟨5, .livenet, true⟩, [], 0, 0, 0, .livenet, 0⟩ : HDPrivateKey).derive 3 true = .error .attributeError ∧
    (⟨⟨128, .livenet, true⟩, [], 0, 0, 0, .livenet, 0⟩ : HDPrivateKey).derive 3 true = .error .unicodeDecodeError := by
  refine ⟨?_, by decide +kernel, by decide +kernel⟩
  have key : (((⟨⟨(secpGx, secpGy), .testnet, false⟩, [1, 2], -1, -5, 0, .livenet, 9⟩ : HDPublicKey).derive .toy (-7)).toOption.any
      fun c => c.pubkey.compressed = true ∧ c.pubkey.network = .livenet ∧ c.depth = 0 ∧ c.index = -7 ∧ c.parent = 9) = true := by
    decide +kernel
  revert key
  cases (⟨⟨(secpGx, secpGy), .testnet, false⟩, [1, 2], -1, -5, 0, .livenet, 9⟩ : HDPublicKey).derive .toy (-7) with
  | error e => exact fun h => nomatch h
  | ok c => exact fun h => ⟨c, rfl, of_decide_eq_true h⟩

end Bitforge
