import Verif.HdKey
import Verif.Spec.Bip32
import Verif.Proofs.Der
import Verif.Props.Keys
import Verif.Props.PubKey

/-! # Extended keys -/

namespace Bitforge
open Spec

theorem intFromBytes_eq (b : Bytes) : intFromBytes b = beValue b := by
  have key : ∀ (b : Bytes) (v : Nat), b.foldl (fun (v : Nat) (c : Byte) => v * 256 + c.val) v =
      v * 256 ^ b.length + beValue b := by
    intro b
    induction b with
    | nil => intro v; simp [beValue, leValue]
    | cons x b ih => intro v; rw [List.foldl_cons, ih, beValue_cons, List.length_cons, pow_succ]; ring
  unfold intFromBytes; rw [key]; simp

theorem beValue_intToBytes (v : Int) (l : Nat) : ((beValue (intToBytes v l) : Nat) : Int) = v % 256 ^ l := by
  unfold intToBytes beValue
  rw [List.reverse_reverse]
  induction l generalizing v with
  | zero => simp [intToBytesLoop, leValue]
  | succ l ih =>
    simp only [intToBytesLoop, leValue]
    have hb : ((byte (v % 256).toNat).val : Int) = v % 256 := by
      unfold byte; simp [Fin.ofNat]; omega
    push_cast
    rw [hb, ih, pow_succ, mul_comm ((256 : Int) ^ l)]
    have e : v / 256 / 256 ^ l = v / (256 * 256 ^ l) := Int.ediv_ediv_of_nonneg (by norm_num)
    rw [Int.emod_def v (256 * 256 ^ l), Int.emod_def v 256, Int.emod_def (v / 256), e]; ring

theorem intToBytes_len (v : Int) (l : Nat) : (intToBytes v l).length = l := by
  unfold intToBytes
  rw [List.length_reverse]
  induction l generalizing v with
  | zero => rfl
  | succ l ih => simp [intToBytesLoop, ih]

theorem bigEndian_intToBytes (v : Int) (l : Nat) (h0 : 0 ≤ v) (h : v < 256 ^ l) :
    BigEndian l v.toNat (intToBytes v l) := by
  refine ⟨intToBytes_len v l, ?_⟩
  have := beValue_intToBytes v l
  rw [Int.emod_eq_of_lt h0 h] at this
  omega

/-- The slices of `from_string` on a payload laid out as in BIP 32. -/
theorem cuts (v d p i chain key rest : Bytes) (hv : v.length = 4) (hd : d.length = 1) (hp : p.length = 4)
    (hi : i.length = 4) (hc : chain.length = 32) (hk : key.length = 33) :
    cut (v ++ d ++ p ++ i ++ chain ++ key ++ rest) 0 4 = v ∧
    cut (v ++ d ++ p ++ i ++ chain ++ key ++ rest) 4 5 = d ∧
    cut (v ++ d ++ p ++ i ++ chain ++ key ++ rest) 5 9 = p ∧
    cut (v ++ d ++ p ++ i ++ chain ++ key ++ rest) 9 13 = i ∧
    cut (v ++ d ++ p ++ i ++ chain ++ key ++ rest) 13 45 = chain ∧
    cut (v ++ d ++ p ++ i ++ chain ++ key ++ rest) 45 78 = key ∧
    cut (v ++ d ++ p ++ i ++ chain ++ key ++ rest) 46 78 = key.drop 1 := by
  have t : ∀ (a b c : Bytes) (m n : Nat), a.length = m → (a ++ b).length = n → cut (a ++ b ++ c) m n = b := by
    intro a b c m n h1 h2
    unfold cut
    rw [← h2, List.take_left, ← h1, List.drop_left]
  have e45 := t (v ++ d ++ p ++ i ++ chain) key rest 45 78 (by simp; omega) (by simp; omega)
  refine ⟨?_, ?_, ?_, ?_, ?_, e45, ?_⟩
  · have := t [] v (d ++ p ++ i ++ chain ++ key ++ rest) 0 4 rfl (by simpa using hv)
    simpa using this
  · have := t v d (p ++ i ++ chain ++ key ++ rest) 4 5 hv (by simp; omega)
    simpa using this
  · have := t (v ++ d) p (i ++ chain ++ key ++ rest) 5 9 (by simp; omega) (by simp; omega)
    simpa using this
  · have := t (v ++ d ++ p) i (chain ++ key ++ rest) 9 13 (by simp; omega) (by simp; omega)
    simpa using this
  · have := t (v ++ d ++ p ++ i) chain (key ++ rest) 13 45 (by simp; omega) (by simp; omega)
    simpa using this
  · have : ∀ l : Bytes, cut l 46 78 = (cut l 45 78).drop 1 := by intro l; simp [cut]
    rw [this, e45]

theorem cut_length (data : Bytes) (h : 78 ≤ data.length) (a b : Nat) (hb : b ≤ 78) :
    (cut data a b).length = b - a := by
  unfold cut; simp; omega

theorem cut_split (data : Bytes) (a b c : Nat) (hab : a ≤ b) (hbc : b ≤ c) :
    cut data a c = cut data a b ++ cut data b c := by
  have e1 : data.take b = (data.take c).take b := by rw [List.take_take, Nat.min_eq_left hbc]
  unfold cut
  rw [e1]
  have : ∀ l : Bytes, l.drop a = (l.take b).drop a ++ l.drop b := by
    intro l
    conv_lhs => rw [← List.take_append_drop b l]
    rw [List.drop_append]
    by_cases hl : b ≤ l.length
    · simp [Nat.min_eq_left hl, Nat.sub_eq_zero_of_le hab]
    · have : l.drop b = [] := List.drop_eq_nil_iff.2 (by omega)
      simp [this]
  exact this _

theorem take_eq_cuts (data : Bytes) : data.take 78 = cut data 0 4 ++ cut data 4 5 ++ cut data 5 9 ++
    cut data 9 13 ++ cut data 13 45 ++ cut data 45 78 := by
  have e0 : data.take 78 = cut data 0 78 := by simp [cut]
  rw [e0, cut_split data 0 4 78 (by omega) (by omega), cut_split data 4 5 78 (by omega) (by omega),
    cut_split data 5 9 78 (by omega) (by omega), cut_split data 9 13 78 (by omega) (by omega),
    cut_split data 13 45 78 (by omega) (by omega)]
  simp

theorem find_hd_private (test : Bool) :
    Network.find (.int (xprvVersion test : Nat)) "hd_private_key" = .ok (netOf test) := by
  cases test <;> decide +kernel

theorem find_hd_public (test : Bool) :
    Network.find (.int (xpubVersion test : Nat)) "hd_public_key" = .ok (netOf test) := by
  cases test <;> decide +kernel

theorem fingerprint_ok (H : Hashes) (k : PublicKey) (hx : reduced k.pair.1) (hy : reduced k.pair.2) :
    ∃ f, fingerprintOf H k = .ok f ∧ Fingerprint H k.pair.1 k.pair.2 k.compressed f := by
  obtain ⟨b, hb, hs⟩ := C18_to_bytes k hx hy
  refine ⟨_, by unfold fingerprintOf; rw [hb]; rfl, b, hs, ?_, (intFromBytes_eq _).symm⟩
  have := H.ripemd160_length (H.sha256 b)
  simp [this]

theorem a2b_of_check {H : Hashes} {d : Bytes} {t : Text} (h : Base58Check H d t) : a2bHashedBase58 H t = .ok d :=
  (a2bHashed_iff H t d).2 ((decodeBase58h_iff H t d).1 ((base58Check_iff H d t).1 h))

theorem check_of_a2b {H : Hashes} {d : Bytes} {t : Text} (h : a2bHashedBase58 H t = .ok d) : Base58Check H d t :=
  (base58Check_iff H d t).2 ((decodeBase58h_iff H t d).2 ((a2bHashed_iff H t d).1 h))

/-- `HDPrivateKey(...)` computes the fingerprint of the public key. -/
theorem hdpriv_new (H : Hashes) (s : Int) (n : Network) (c : Bool) (h0 : 0 < s) (h1 : s < secpN) (chain : Bytes)
    (depth index : Int) (parent : Nat) (net : Network) :
    ∃ x y f, reduced x ∧ reduced y ∧ OnSecp x y ∧ IsPoint x y (s.toNat • G) ∧ Fingerprint H x y c f ∧
      (⟨s, n, c⟩ : PrivateKey).toPublicKey = .ok ⟨(x, y), n, c⟩ ∧
      fingerprintOf H ⟨(x, y), n, c⟩ = .ok f ∧
      HDPrivateKey.new H ⟨s, n, c⟩ chain depth index parent net =
        .ok ⟨⟨s, n, c⟩, chain, depth, index, parent, net, f⟩ := by
  have hm : PrivateKey.make s (.network n) c = .ok ⟨s, n, c⟩ :=
    (make_ok_iff _ _ _ _).2 ⟨n, rfl, h0, h1, rfl⟩
  obtain ⟨x, y, hk, hx, hy, hon, hp⟩ := C20_public_key s (.network n) c _ hm
  obtain ⟨f, hf, hF⟩ := fingerprint_ok H ⟨(x, y), n, c⟩ hx hy
  refine ⟨x, y, f, hx, hy, hon, hp, hF, hk, hf, ?_⟩
  unfold HDPrivateKey.new
  rw [hk]; simp only; rw [hf]

/-- The point computed by `HDPublicKey.derive`. -/
theorem derive_point (e : Nat) (x y : Int) (Q : SecpGroup) (hx : reduced x) (hy : reduced y) (hQ : IsPoint x y Q)
    (hne : e • G + Q ≠ 0) : ∃ L R x' y', Point.mul secp secpG (e : Int) = .ok L ∧
      Point.make secp x y (some secpN) = .ok (.affine x y (some secpN)) ∧
      Point.add secp L (.affine x y (some secpN)) = .ok R ∧ R.pair = some (x', y') ∧ reduced x' ∧ reduced y' ∧
      secp.containsPoint x' y' = true ∧ IsPoint x' y' (e • G + Q) := by
  have hN : (0 : Int) < secpN := by decide
  have e0 : 0 ≤ effective secpG e := by rw [effective_secpG]; exact Int.emod_nonneg _ (by decide)
  have e1 : effective secpG e < secpN := by rw [effective_secpG]; exact Int.emod_lt_of_pos _ hN
  obtain ⟨L, hL, hD⟩ := secp_mul (denotes_G (some secpN)) (e : Int) e0
  have hLr : YReduced secp L := secp_mul_reduced (denotes_G (some secpN)) (G_reduced _) (e : Int) e0 e1 hL
  have hD' : Denotes secp L (e • G) := by
    have : (effective (.affine secpGx secpGy (some secpN)) (e : Int)).toNat • G = e • G := by
      change (effective secpG (e : Int)).toNat • G = e • G
      rw [effective_secpG, ← natCast_zsmul, Int.toNat_of_nonneg (by rw [← effective_secpG]; exact e0),
        ← natCast_zsmul, ← addOrderOf_G, mod_addOrderOf_zsmul]
    rwa [this] at hD
  obtain ⟨hn, rfl⟩ := hQ
  have hx' := (reduced_iff x).1 hx
  have hy' := (reduced_iff y).1 hy
  have hDQ : Denotes secp (.affine x y (some secpN)) (.some _ _ hn) := .affine _ _ _ hx'.1 hx'.2 hn
  have hmake : Point.make secp x y (some secpN) = .ok (.affine x y (some secpN)) := by
    unfold Point.make
    rw [if_pos ((containsPoint_iff_nonsingular secp_regular x y).2 hn)]
  obtain ⟨R, hR, hDR⟩ := add_denotes secp_regular hD' hDQ
  have hRr : YReduced secp R := add_reduced hR hLr fun _ => ⟨hy'.1, hy'.2⟩
  cases R with
  | infinity => exact absurd (denotes_infinity hDR) hne
  | affine x' y' o =>
    have hp := denotes_isPoint hDR
    have hrx : reduced x' := by
      generalize e • G + _ = T at hDR
      cases hDR; exact (reduced_iff x').2 ⟨by assumption, by assumption⟩
    refine ⟨L, _, x', y', hL, hmake, hR, rfl, hrx, (reduced_iff y').2 ⟨hRr.1, hRr.2⟩, ?_, hp⟩
    obtain ⟨hn', _⟩ := hp
    exact (containsPoint_iff_nonsingular secp_regular x' y').2 hn'

end Bitforge
