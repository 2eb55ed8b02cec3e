import Verif.Props.Ecdsa
import Verif.Props.Der
import Verif.Proofs.DerText
import Verif.Proofs.HdKey

/-! # Properties C63, C69, C70: `PrivateKey.sign` and `PrivateKey.verify` -/

namespace Bitforge
open Spec ExtEcdsa

theorem signPair_ok {key : PrivateKey} {nonce : Nat} (hk : 1 ≤ nonce) (hk' : nonce < secpN) {m : Bytes} {r s : Int}
    (h : key.signPair nonce m = .ok (r, s)) :
    ValidSig (key.secret • G) (intFromBytes m) r s ∧ 2 * s ≤ secpN ∧ m.length ≤ 32 := by
  unfold PrivateKey.signPair at h
  cases hs : signDigest key.secret nonce m with
  | error e => rw [hs] at h; cases h
  | ok rs =>
    obtain ⟨r', s'⟩ := rs
    rw [hs] at h
    have hv := signDigest_ok hk hk' hs
    have hlen : m.length ≤ 32 := by
      by_contra hc
      unfold signDigest at hs
      rw [if_pos (by omega)] at hs
      cases hs
    simp only [bind, Except.bind] at h
    injection h with h
    unfold canonize at h
    have hs4 := hv.2.2.2.1
    split at h
    · next hgt =>
      injection h with h1 h2
      simp only at h1 h2 hgt
      subst h1 h2
      exact ⟨validSig_neg hv, by omega, hlen⟩
    · next hgt =>
      injection h with h1 h2
      simp only at hgt
      subst h1 h2
      exact ⟨hv, by omega, hlen⟩

theorem secpN_lt : (secpN : Int) < 256 ^ 32 := by decide

/-- What `sign` returns is the DER text of the pair. -/
theorem sign_ok {key : PrivateKey} {nonce : Nat} (hk : 1 ≤ nonce) (hk' : nonce < secpN) {m : Bytes} {sig : Bytes}
    (h : key.sign nonce m = .ok sig) : ∃ r s, key.signPair nonce m = .ok (r, s) ∧ SigText sig r s ∧
      8 ≤ sig.length ∧ sig.length ≤ 72 := by
  unfold PrivateKey.sign at h
  cases hs : key.signPair nonce m with
  | error e => rw [hs] at h; cases h
  | ok rs =>
    obtain ⟨r, s⟩ := rs
    rw [hs] at h
    simp only [bind, Except.bind] at h
    obtain ⟨⟨h1, h2, h3, h4, _⟩, _, _⟩ := signPair_ok hk hk' hs
    have hN := secpN_lt
    obtain ⟨sig', e, ht⟩ := sigencode_spec (r := r) (s := s) (by omega) (by omega) (by omega) (by omega)
    rw [e] at h
    injection h with h
    subst h
    exact ⟨r, s, rfl, ht⟩

theorem signPair_sign {key : PrivateKey} {nonce : Nat} (hk : 1 ≤ nonce) (hk' : nonce < secpN) {m : Bytes} {r s : Int}
    (h : key.signPair nonce m = .ok (r, s)) : ∃ sig, key.sign nonce m = .ok sig ∧ SigText sig r s ∧
      8 ≤ sig.length ∧ sig.length ≤ 72 := by
  obtain ⟨⟨h1, h2, h3, h4, _⟩, _, _⟩ := signPair_ok hk hk' h
  have hN := secpN_lt
  obtain ⟨sig', e, ht⟩ := sigencode_spec (r := r) (s := s) (by omega) (by omega) (by omega) (by omega)
  refine ⟨sig', ?_, ht⟩
  unfold PrivateKey.sign
  simp only [h, bind, Except.bind]
  exact e

theorem verify_text (H : Hashes) (key : PrivateKey) {sig : Bytes} {r s : Int} (ht : SigText sig r s)
    (hl : sig.length < 130) (m : Bytes) : key.verify H sig m = key.verifyPair H (r, s) m := by
  unfold PrivateKey.verify
  rw [sigdecode_text ht hl]
  rfl

/-! ## C63 -/

/-- C63. `k.verify(k.sign(SHA1(m)), m)` is True for every key, message and nonce: `verify` hashes what it is given
and `sign` does not.  Missing from the full claim: the same `m` on both sides, see `C63_refuted`. -/
theorem C63_partial (H : Hashes) (key : PrivateKey) (h0 : 1 ≤ key.secret) (h1 : key.secret < secpN) (nonce : Nat)
    (hk : 1 ≤ nonce) (hk' : nonce < secpN) (m : Bytes) (sig : Bytes)
    (h : key.sign nonce (H.sha1 m) = .ok sig) : key.verify H sig m = .ok true := by
  obtain ⟨r, s, hp, ht, _, hl⟩ := sign_ok hk hk' h
  rw [verify_text H key ht (by omega)]
  exact sign_verify_pair H key h0 h1 nonce hk hk' m (r, s) hp

example : ((PrivateKey.mk 2 .livenet true).sign 1 (Hashes.toy.sha1 [9])).toBool = true := by decide +kernel

/-- C63 is false, for every function of 20-byte hashes in the place of SHA-1: the signature that `PrivateKey(1)` makes
of 2^200 with nonce 1 is not accepted. -/
theorem C63_refuted (H : Hashes) : ∃ (key : PrivateKey) (nonce : Nat) (m : Bytes) (sig : Bytes),
    1 ≤ key.secret ∧ key.secret < secpN ∧ 1 ≤ nonce ∧ nonce < secpN ∧ m.length = 32 ∧
    key.sign nonce m = .ok sig ∧ key.verify H sig m ≠ .ok true := by
  obtain ⟨key, nonce, m, ⟨r, s⟩, h1, h2, h3, h4, h5, h6, h7⟩ := sign_verify_pair_refuted H
  obtain ⟨sig, hs, ht, _, hl⟩ := signPair_sign h3 h4 h6
  exact ⟨key, nonce, m, sig, h1, h2, h3, h4, h5, hs, by rw [verify_text H key ht (by omega)]; exact h7⟩

/-! ## C69 -/

/-- C69. A signature is the DER text of a valid ECDSA signature of the digest given, the one with the smaller `s`. -/
theorem C69_valid (key : PrivateKey) (nonce : Nat) (hk : 1 ≤ nonce) (hk' : nonce < secpN) (m sig : Bytes)
    (h : key.sign nonce m = .ok sig) :
    ∃ r s, SigText sig r s ∧ ValidSig (key.secret • G) (beValue m) r s ∧ 2 * s ≤ secpN := by
  obtain ⟨r, s, hp, ht, _, _⟩ := sign_ok hk hk' h
  obtain ⟨h1, h2, _⟩ := signPair_ok hk hk' hp
  rw [intFromBytes_eq] at h1
  exact ⟨r, s, ht, h1, h2⟩

/-- C69. With any byte for the type of the hash it is a strict DER signature, and passes `validate_signature`. -/
theorem C69_strict (key : PrivateKey) (nonce : Nat) (hk : 1 ≤ nonce) (hk' : nonce < secpN) (m sig : Bytes)
    (h : key.sign nonce m = .ok sig) (hashType : Byte) :
    StrictDer (sig ++ [hashType]) ∧ validateSignature ⟨.str, sig ++ [hashType]⟩ = .ok true := by
  obtain ⟨r, s, hp, ⟨rc, sc, rb, sb, h1, h2, h3, h4, h5⟩, h8, h72⟩ := sign_ok hk hk' h
  have hd : StrictDer (sig ++ [hashType]) :=
    ⟨rc, sc, rb, sb, sig, hashType, derNat_of h1, derNat_of h2, h3, h4, h5, rfl, by simp; omega, by simp; omega⟩
  obtain ⟨b, hb, hi⟩ := C55_strict_der (sig ++ [hashType])
  rw [hb, hi.2 hd]
  exact ⟨hd, rfl⟩

/-- C69. Digests of more than 32 bytes are refused, all others are signed, unless the nonce makes `r` or `s` zero. -/
theorem C69_digest (key : PrivateKey) (nonce : Nat) (hk : 1 ≤ nonce) (hk' : nonce < secpN) (m : Bytes) :
    (32 < m.length → key.sign nonce m = .error .badDigestError) ∧
    (m.length ≤ 32 → (∃ sig, key.sign nonce m = .ok sig) ∨ (key.sign nonce m = .error .rsZeroError ∧
      ∃ x, HasX (nonce • G) x ∧ (x % (secpN : Int) = 0 ∨ (beValue m + key.secret * (x % (secpN : Int))) % (secpN : Int) = 0))) := by
  constructor
  · intro hl
    unfold PrivateKey.sign PrivateKey.signPair signDigest
    rw [if_pos (by omega)]
    rfl
  · intro hl
    obtain ⟨x, y, o, hm, hx, hx', _, _, hD⟩ := mul_G nonce (by omega) (by omega)
    rw [Int.toNat_natCast] at hD
    have hX : HasX (nonce • G) x := ⟨(reduced_iff x).2 ⟨hx, hx'⟩, y, denotes_isPoint hD⟩
    obtain ⟨w, hw, _, _, hkw⟩ := inverseMod_secpN (a := (nonce : Int))
      (by rw [Int.emod_eq_of_lt (by omega) (by omega)]; omega)
    have hs : ∀ r s, signDigest key.secret nonce m = .ok (r, s) → ∃ sig, key.sign nonce m = .ok sig := by
      intro r s h
      have : key.signPair nonce m = .ok ((canonize (r, s)).1, (canonize (r, s)).2) := by
        unfold PrivateKey.signPair
        rw [h]
        rfl
      obtain ⟨sig, h1, _⟩ := signPair_sign hk hk' this
      exact ⟨sig, h1⟩
    have he : ∀ e, signDigest key.secret nonce m = .error e → key.sign nonce m = .error e := by
      intro e h
      unfold PrivateKey.sign PrivateKey.signPair
      rw [h]
      rfl
    unfold signDigest at hs he
    rw [if_neg (by omega)] at hs he
    simp only [hm, bind, Except.bind, Point.pair, hw] at hs he
    by_cases hr : x % (secpN : Int) = 0
    · right
      rw [if_pos hr] at he
      exact ⟨he _ rfl, x, hX, .inl hr⟩
    · rw [if_neg hr] at hs he
      by_cases hs0 : w * (↑(intFromBytes m) + key.secret * (x % (secpN : Int))) % (secpN : Int) = 0
      · right
        rw [if_pos hs0] at he
        refine ⟨he _ rfl, x, hX, .inr ?_⟩
        rw [intFromBytes_eq] at hs0
        generalize (beValue m : Int) + key.secret * (x % (secpN : Int)) = a at hs0 ⊢
        have : (nonce : Int) * (w * a) % (secpN : Int) = 0 := by rw [Int.mul_emod, hs0]; simp
        rw [← mul_assoc, Int.mul_emod, hkw, one_mul, Int.emod_emod_of_dvd _ dvd_rfl] at this
        exact this
      · left
        rw [if_neg hs0] at hs
        exact hs _ _ rfl

example : ((PrivateKey.mk 2 .livenet true).sign 1 [9]).toBool = true := by decide +kernel

/-! ## C70 -/

/-- C70. On a DER text `verify` decides ECDSA, for the SHA-1 hash of the message.  Missing: other texts, and that the
negative answer is False, see `C70_never_false` and `C70_text_refuted`. -/
theorem C70_partial (H : Hashes) (key : PrivateKey) (h0 : 1 ≤ key.secret) (h1 : key.secret < secpN) (sig m : Bytes)
    (r s : Int) (ht : SigText sig r s) (hl : sig.length < 130) :
    key.verify H sig m = .ok true ↔ ValidSig (key.secret • G) (beValue (H.sha1 m)) r s := by
  rw [verify_text H key ht hl, priv_verify H key h0 h1, intFromBytes_eq]

/-- C70. Whatever is accepted is read as a valid signature. -/
theorem C70_sound (H : Hashes) (key : PrivateKey) (h0 : 1 ≤ key.secret) (h1 : key.secret < secpN) (sig m : Bytes)
    (h : key.verify H sig m = .ok true) :
    ∃ r s, sigdecodeDer sig = .ok (r, s) ∧ ValidSig (key.secret • G) (beValue (H.sha1 m)) r s := by
  unfold PrivateKey.verify at h
  cases hs : sigdecodeDer sig with
  | error e => rw [hs] at h; cases h
  | ok rs =>
    obtain ⟨r, s⟩ := rs
    rw [hs] at h
    have := (priv_verify H key h0 h1 r s m).1 h
    rw [intFromBytes_eq] at this
    exact ⟨r, s, rfl, this⟩

/-- C70 is false: `verify` never returns False. -/
theorem C70_never_false (H : Hashes) (key : PrivateKey) (sig m : Bytes) : key.verify H sig m ≠ .ok false := by
  intro h
  unfold PrivateKey.verify at h
  cases hs : sigdecodeDer sig with
  | error e => rw [hs] at h; cases h
  | ok rs =>
    rw [hs] at h
    simp only [bind, Except.bind] at h
    unfold PrivateKey.verifyPair ExtEcdsa.verifyPair at h
    simp only [bind, Except.bind] at h
    split at h
    · cases h
    · split at h
      · cases h
      · split at h
        · cases h
        · split at h <;> cases h

/-- Two texts for the same pair, the first of them the DER text: a zero byte in front of `s`. -/
def laxText (sig : Bytes) : Bytes :=
  match sig with
  | a :: b :: c :: d :: rest =>
    a :: byte (b.val + 1) :: c :: d :: (rest.take d.val ++
      match rest.drop d.val with
      | e :: f :: s => e :: byte (f.val + 1) :: 0 :: s
      | l => l)
  | l => l

/-- C70 is false: an accepted signature can be changed into another accepted one that is not a DER text, for all keys
and messages, by a zero byte in front of `s`. -/
theorem C70_text_refuted (H : Hashes) (key : PrivateKey) (h0 : 1 ≤ key.secret) (h1 : key.secret < secpN) (sig m : Bytes)
    (r s : Int) (ht : SigText sig r s) (hl : sig.length < 129) (h : key.verify H sig m = .ok true) :
    key.verify H (laxText sig) m = .ok true ∧ ∀ r' s', ¬ SigText (laxText sig) r' s' := by
  have ht' := ht
  obtain ⟨rc, sc, rb, sb, k1, k2, ⟨l1, hl1, rfl⟩, ⟨l2, hl2, rfl⟩, ⟨l, hl', rfl⟩⟩ := ht
  simp only [List.length_cons, List.length_append] at hl hl'
  have e : laxText (48 :: l :: (2 :: l1 :: rc ++ 2 :: l2 :: sc)) =
      48 :: byte (l.val + 1) :: (2 :: l1 :: rc ++ 2 :: byte (l2.val + 1) :: 0 :: sc) := by
    simp only [laxText, List.cons_append, hl1, List.take_left, List.drop_left]
  rw [e]
  have t1 : Tlv 0x02 rc (2 :: l1 :: rc) := ⟨l1, hl1, rfl⟩
  have t2 : Tlv 0x02 (0 :: sc) (2 :: byte (l2.val + 1) :: 0 :: sc) :=
    ⟨byte (l2.val + 1), by rw [val_byte_lt (by omega), hl2]; simp, rfl⟩
  have t3 : Tlv 0x30 (2 :: l1 :: rc ++ 2 :: byte (l2.val + 1) :: 0 :: sc)
      (48 :: byte (l.val + 1) :: (2 :: l1 :: rc ++ 2 :: byte (l2.val + 1) :: 0 :: sc)) :=
    ⟨byte (l.val + 1), by rw [val_byte_lt (by omega), hl']; simp; omega, rfl⟩
  constructor
  · have hv := (C70_partial H key h0 h1 _ m r s ht' (by simp; omega)).1 h
    obtain ⟨x, t, rfl, hx, _⟩ := (derNat_iff rc).1 (derNat_of k1)
    have hs := sigdecode_raw t1 t2 t3 hx (by simp) (by simp at hl ⊢; omega)
    rw [show beValue (0 :: sc) = beValue sc by rw [beValue_cons 0]; simp, ← derOf_value k1, ← derOf_value k2] at hs
    unfold PrivateKey.verify
    rw [hs]
    rw [← intFromBytes_eq] at hv
    exact (priv_verify H key h0 h1 r s m).2 hv
  · rintro r' s' ⟨rc', sc', rb', sb', j1, j2, j3, j4, j5⟩
    obtain ⟨-, e2, -⟩ := C55_unambiguous _ _ _ _ _ _ _ _ _ _ 0 0 t1 t2 t3 j3 j4 j5 rfl
    subst e2
    obtain ⟨x, t, ex, _, hx⟩ := (derNat_iff _).1 (derNat_of j2)
    obtain ⟨y, u, rfl, hy, _⟩ := (derNat_iff sc).1 (derNat_of k2)
    injection ex with e1 e2
    subst e1 e2
    have := hx rfl y u rfl
    omega

/-- The texts are those of the refutation: a valid signature and its changed form. -/
example : (match (PrivateKey.mk 2 .livenet true).sign 1 (Hashes.toy.sha1 [9]) with
    | .ok sig => decide ((PrivateKey.mk 2 .livenet true).verify Hashes.toy (laxText sig) [9] = .ok true ∧
        laxText sig ≠ sig)
    | .error _ => false) = true := by decide +kernel

end Bitforge
