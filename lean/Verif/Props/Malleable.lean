import Verif.Props.DerLax
import Verif.Props.Rfc6979

/-! # C98, C99: how much a signature can vary, and what two of them reveal -/

namespace Bitforge
open Spec ExtEcdsa

theorem secp_smul_eq_zero {T : SecpGroup} (hT : T ≠ 0) {a : Int} (h : a • T = 0) : a % (secpN : Int) = 0 := by
  have h1 : addOrderOf T ∣ secpN := by rw [← card_secp]; exact addOrderOf_dvd_natCard T
  rcases (Nat.dvd_prime prime_secpN).1 h1 with h2 | h2
  · exact absurd (AddMonoid.addOrderOf_eq_one_iff.1 h2) hT
  · rw [← addOrderOf_dvd_iff_zsmul_eq_zero, h2] at h
    exact Int.emod_eq_zero_of_dvd h

/-- The equation with the x-coordinate in view. -/
def SigAt (Q : SecpGroup) (z r s x : Int) : Prop := ∃ w : Int, (s * w) % secpN = 1 ∧ HasX ((z * w) • G + (r * w) • Q) x

theorem inverse_inj {s s' w w' : Int} (hs : 1 ≤ s) (hs' : s ≤ secpN - 1) (ht : 1 ≤ s') (ht' : s' ≤ secpN - 1)
    (hw : (s * w) % (secpN : Int) = 1) (hw' : (s' * w') % (secpN : Int) = 1)
    (h : w' % (secpN : Int) = w % (secpN : Int)) : s' = s := by
  have h1 : (w * s') % (secpN : Int) = 1 := by
    rw [Int.mul_comm, ← mul_mod_congr h]; exact hw'
  have h2 : (w * s) % (secpN : Int) = 1 := by rw [Int.mul_comm]; exact hw
  have h3 := inv_unique h1 h2
  rw [Int.emod_eq_of_lt (by omega) (by omega), Int.emod_eq_of_lt (by omega) (by omega)] at h3
  exact h3

theorem sigAt_pm {Q : SecpGroup} {z r s s' x : Int} (hs : 1 ≤ s) (hs' : s ≤ secpN - 1) (ht : 1 ≤ s') (ht' : s' ≤ secpN - 1)
    (h : SigAt Q z r s x) (h' : SigAt Q z r s' x) : s' = s ∨ s' = secpN - s := by
  obtain ⟨w, hw, _, y, hy⟩ := h
  obtain ⟨w', hw', _, y', hy'⟩ := h'
  have e : ∀ a : Int, (z * a) • G + (r * a) • Q = a • (z • G + r • Q) := by
    intro a
    rw [zsmul_add, smul_smul, smul_smul, mul_comm z, mul_comm r]
  rw [e] at hy hy'
  have hT : z • G + r • Q ≠ 0 := by
    intro h0
    rw [h0, zsmul_zero] at hy
    exact isPoint_ne_zero hy rfl
  rcases isPoint_pm hy hy' with h | h
  · left
    have : (w' - w) • (z • G + r • Q) = 0 := by rw [sub_zsmul, h, add_neg_cancel]
    exact inverse_inj hs hs' ht ht' hw hw' (Int.emod_eq_emod_iff_emod_sub_eq_zero.2 (secp_smul_eq_zero hT this))
  · right
    have : (w' - -w) • (z • G + r • Q) = 0 := by rw [sub_zsmul, neg_zsmul, h, add_neg_cancel]
    refine inverse_inj (w := -w) (by omega) (by omega) ht ht' ?_ hw'
      (Int.emod_eq_emod_iff_emod_sub_eq_zero.2 (secp_smul_eq_zero hT this))
    have : ((secpN : Int) - s) * -w = s * w - secpN * w := by ring
    rw [this, Int.sub_mul_emod_self_left, hw]

/-- The x-coordinates that are `r` modulo `n`. -/
theorem x_cases {x r : Int} (hx : reduced x) (hr : 0 ≤ r) (hr' : r < secpN) (h : x % (secpN : Int) = r % (secpN : Int)) :
    x = r ∨ x = r + secpN := by
  rw [Int.emod_eq_of_lt hr hr'] at h
  have h1 := hx.1
  have h2 := hx.2
  have hN : (secpN : Int) = 115792089237316195423570985008687907852837564279074904382605163141518161494337 := rfl
  rw [hN] at h hr' ⊢
  norm_num at h1 h2
  omega

/-- C98. Of the signatures with the same `r`, of one digest and for one key, a valid one leaves at most one other, the one
with `n - s`; unless `r` is below `p - n`, which is less than 2^129. -/
theorem C98_pair_partial {Q : SecpGroup} {z r s s' : Int} (h : ValidSig Q z r s) (h' : ValidSig Q z r s')
    (hr : (secp.p : Int) - secpN ≤ r) : s' = s ∨ s' = secpN - s := by
  obtain ⟨a1, a2, a3, a4, w, x, hw, hx, he⟩ := h
  obtain ⟨_, _, b3, b4, w', x', hw', hx', he'⟩ := h'
  have key : ∀ {x : Int}, reduced x → x % (secpN : Int) = r % (secpN : Int) → x = r := by
    intro x hx he
    rcases x_cases hx (by omega) (by omega) he with h | h
    · exact h
    · have := ((reduced_iff x).1 hx).2
      omega
  obtain rfl := key hx.1 he
  obtain rfl := key hx'.1 he'
  exact sigAt_pm a3 a4 b3 b4 ⟨w, hw, hx⟩ ⟨w', hw', hx'⟩

/-- Hypotheses of `C98_pair_partial`: two signatures of the digest zero by the key one. -/
example : ValidSig G 0 secpGx secpGx ∧ ValidSig G 0 secpGx (secpN - secpGx) ∧ (secp.p : Int) - secpN ≤ secpGx := by
  have h : ValidSig G 0 secpGx secpGx := (verify_iff (qx := secpGx) (qy := secpGy) ⟨G_nonsingular, rfl⟩
    (by unfold reduced; decide)).1 (by decide +kernel)
  exact ⟨h, validSig_neg h, by decide⟩

/-- C98. In any case there are at most four. -/
theorem C98_four (Q : SecpGroup) (z r : Int) : ∃ a b : Int, ∀ s, ValidSig Q z r s →
    s = a ∨ s = secpN - a ∨ s = b ∨ s = secpN - b := by
  classical
  have pick : ∀ x : Int, ∃ a : Int, ∀ s : Int, 1 ≤ s → s ≤ secpN - 1 → SigAt Q z r s x → s = a ∨ s = secpN - a := by
    intro x
    by_cases hx : ∃ a : Int, 1 ≤ a ∧ a ≤ secpN - 1 ∧ SigAt Q z r a x
    · obtain ⟨a, h1, h2, h3⟩ := hx
      exact ⟨a, fun s g1 g2 g3 => sigAt_pm h1 h2 g1 g2 h3 g3⟩
    · exact ⟨0, fun s g1 g2 g3 => absurd ⟨s, g1, g2, g3⟩ hx⟩
  obtain ⟨a, ha⟩ := pick r
  obtain ⟨b, hb⟩ := pick (r + secpN)
  refine ⟨a, b, fun s h => ?_⟩
  obtain ⟨h1, h2, h3, h4, w, x, hw, hx, he⟩ := h
  rcases x_cases hx.1 (by omega) (by omega) he with rfl | rfl
  · rcases ha s h3 h4 ⟨w, hw, hx⟩ with h | h
    · exact .inl h
    · exact .inr (.inl h)
  · rcases hb s h3 h4 ⟨w, hw, hx⟩ with h | h
    · exact .inr (.inr (.inl h))
    · exact .inr (.inr (.inr h))

/-- C98 is false: what `verify` accepts can be changed without the key; the other signature has `n - s`. -/
theorem C98_verify_refuted (qx qy z r s : Int) (Q : SecpGroup) (hQ : IsPoint qx qy Q) (hx : reduced qx)
    (h : Ecdsa.verify secp secpG (qx, qy) z (r, s) = .ok true) :
    Ecdsa.verify secp secpG (qx, qy) z (r, secpN - s) = .ok true ∧ (secpN : Int) - s ≠ s := by
  refine ⟨(verify_iff hQ hx).2 (validSig_neg ((verify_iff hQ hx).1 h)), ?_⟩
  have : (secpN : Int) % 2 = 1 := by decide
  omega

example : IsPoint secpGx secpGy G ∧ reduced secpGx ∧
    Ecdsa.verify secp secpG (secpGx, secpGy) 0 (secpGx, secpGx) = .ok true :=
  ⟨⟨G_nonsingular, rfl⟩, by unfold reduced; decide, by decide +kernel⟩

/-- C98 is false of `PrivateKey.verify` as well: every accepted text can be replaced by a strict DER text of another
signature. -/
theorem C98_text_refuted (H : Hashes) (key : PrivateKey) (h0 : 1 ≤ key.secret) (h1 : key.secret < secpN) (sig m : Bytes)
    (h : key.verify H sig m = .ok true) : ∃ sig' r s, sig' ≠ sig ∧ LaxSig sig r s ∧ SigText sig' r (secpN - s) ∧
      key.verify H sig' m = .ok true := by
  obtain ⟨r, s, hl, hv⟩ := (C70_accepts H key h0 h1 sig m).1 h
  obtain ⟨b1, b2, b3, b4, _⟩ := validSig_neg hv
  have hN := secpN_lt
  obtain ⟨sig', e, ht, l1, l2⟩ := sigencode_spec (r := r) (s := secpN - s) (by omega) (by omega) (by omega) (by omega)
  have hv' : key.verify H sig' m = .ok true := (C70_partial H key h0 h1 sig' m r _ ht (by omega)).2 (validSig_neg hv)
  refine ⟨sig', r, s, ?_, hl, ht, hv'⟩
  rintro rfl
  have d1 := sigdecode_text ht (by omega)
  rw [(sigdecode_iff _ _ _).2 hl] at d1
  simp only [Except.ok.injEq, Prod.mk.injEq, true_and] at d1
  have : (secpN : Int) % 2 = 1 := by decide
  omega

/-- C98. `PrivateKey.sign` makes the one with the smaller `s`: of valid signatures with small `s` and the same `r`, there is
one only, with the exception above. -/
theorem C98_small_partial {Q : SecpGroup} {z r s s' : Int} (h : ValidSig Q z r s) (h' : ValidSig Q z r s')
    (hs : 2 * s ≤ secpN) (hs' : 2 * s' ≤ secpN) (hr : (secp.p : Int) - secpN ≤ r) : s' = s := by
  have : (secpN : Int) % 2 = 1 := by decide
  rcases C98_pair_partial h h' hr with h | h <;> omega

/-! ## Nonces -/

theorem neg_nonce {k : Nat} (hk' : k < secpN) : (secpN - k) • G = -(k • G) := by
  have h : secpN • G = 0 := by rw [← card_secp]; exact card_nsmul_eq_zero'
  rw [← natCast_zsmul, ← natCast_zsmul, Nat.cast_sub (le_of_lt hk'), sub_zsmul, natCast_zsmul, h, zero_add]

theorem isPoint_neg {x y : Int} {T : SecpGroup} (h : IsPoint x y T) (hx : reduced x) : IsPoint x (-y) (-T) :=
  denotes_isPoint (neg_denotes secp_regular (isPoint_denotes h hx none) none).2

theorem neg_inverse {k : Nat} {w w' : Int} (hk' : k < secpN) (h : ((k : Int) * w) % (secpN : Int) = 1)
    (h' : (((secpN - k : Nat) : Int) * w') % (secpN : Int) = 1) : w' % (secpN : Int) = (-w) % (secpN : Int) := by
  refine inv_unique h' ?_
  rw [Nat.cast_sub (le_of_lt hk')]
  have : ((secpN : Int) - k) * -w = k * w - secpN * w := by ring
  rw [this, Int.sub_mul_emod_self_left, h]

/-- `s` with the opposite nonce. -/
theorem neg_s {w w' e : Int} (h : w' % (secpN : Int) = (-w) % (secpN : Int)) :
    (w' * e) % (secpN : Int) = if (w * e) % (secpN : Int) = 0 then 0 else secpN - (w * e) % (secpN : Int) := by
  have h1 : (w' * e) % (secpN : Int) = (-(w * e)) % (secpN : Int) := by
    rw [mul_comm w', mul_mod_congr h]
    congr 1
    ring
  have h2 := Int.emod_nonneg (w * e) (show (secpN : Int) ≠ 0 by decide)
  have h3 := Int.emod_lt_of_pos (w * e) secpN_pos
  rw [h1]
  split
  · next h0 => exact Int.emod_eq_zero_of_dvd (Int.dvd_neg.2 (Int.dvd_of_emod_eq_zero h0))
  · next h0 =>
    have : -(w * e) = ((secpN : Int) - (w * e) % secpN) - secpN * ((w * e) / secpN + 1) := by
      have := Int.emod_add_mul_ediv (w * e) secpN
      linear_combination this
    rw [this, Int.sub_mul_emod_self_left, Int.emod_eq_of_lt (by omega) (by omega)]

/-- C98 is false of `sign`: with the opposite nonce it makes the other signature, so it makes each with one of the two; one
has the smaller `s` and the other has not. -/
theorem C98_sign_refuted (d z : Int) (k : Nat) (r s : Int) (hk : 1 ≤ k) (hk' : k < secpN)
    (h : Ecdsa.signWith secp secpG secpN d z k = .ok (r, s)) :
    Ecdsa.signWith secp secpG secpN d z (secpN - k) = .ok (r, secpN - s) ∧ (2 * s ≤ secpN ↔ ¬ 2 * (secpN - s) ≤ secpN) := by
  have hodd : (secpN : Int) % 2 = 1 := by decide
  refine ⟨?_, by omega⟩
  obtain ⟨r1, y1, w1, hr1, _, hp1, hw1, e1⟩ := signWith_eq d z k hk hk'
  obtain ⟨r2, y2, w2, hr2, _, hp2, hw2, e2⟩ := signWith_eq d z (secpN - k) (by omega) (by omega)
  rw [neg_nonce hk'] at hp2
  obtain rfl : r2 = r1 := isPoint_x_unique hp2 (isPoint_neg hp1 hr1) hr2 hr1
  rw [e2, neg_s (neg_inverse hk' hw1 hw2)]
  rw [e1] at h
  split at h
  · cases h
  · next h0 =>
    rw [if_neg h0]
    split at h
    · cases h
    · next hs0 =>
      cases h
      have h2 := Int.emod_lt_of_pos (w1 * (z + d * r % (secpN : Int))) secpN_pos
      rw [if_neg hs0, if_neg (by omega)]

example : Ecdsa.signWith secp secpG secpN 2 5 1 = .ok (secpGx, 5 + 2 * secpGx) := by decide +kernel

theorem signDigest_eq (d : Int) (k : Nat) (hk : 1 ≤ k) (hk' : k < secpN) (m : Bytes) (hm : m.length ≤ 32) :
    ∃ x y w : Int, reduced x ∧ IsPoint x y (k • G) ∧ ((k : Int) * w) % (secpN : Int) = 1 ∧ signDigest d k m =
      if x % (secpN : Int) = 0 then .error .rsZeroError
      else if (w * (intFromBytes m + d * (x % (secpN : Int)))) % (secpN : Int) = 0 then .error .rsZeroError
      else .ok (x % (secpN : Int), (w * (intFromBytes m + d * (x % (secpN : Int)))) % (secpN : Int)) := by
  obtain ⟨x, y, o, hmul, hx, hx', _, _, hD⟩ := mul_G k (by omega) (by omega)
  rw [Int.toNat_natCast] at hD
  obtain ⟨w, hw, _, _, hkw⟩ := inverseMod_secpN (a := (k : Int))
    (by rw [Int.emod_eq_of_lt (by omega) (by omega)]; omega)
  refine ⟨x, y, w, (reduced_iff x).2 ⟨hx, hx'⟩, denotes_isPoint hD, hkw, ?_⟩
  unfold signDigest
  rw [if_neg (by omega)]
  simp only [hmul, bind, Except.bind, Point.pair, hw]

/-- C98. With the opposite nonce `PrivateKey.sign` makes the same signature, or fails in the same way. -/
theorem C98_nonce (key : PrivateKey) (k : Nat) (hk : 1 ≤ k) (hk' : k < secpN) (m : Bytes) :
    key.sign (secpN - k) m = key.sign k m := by
  have hodd : (secpN : Int) % 2 = 1 := by decide
  have hN := secpN_pos
  suffices h : key.signPair (secpN - k) m = key.signPair k m by
    unfold PrivateKey.sign
    rw [h]
  unfold PrivateKey.signPair
  by_cases hm : m.length ≤ 32
  · obtain ⟨x1, y1, w1, hr1, hp1, hw1, e1⟩ := signDigest_eq key.secret k hk hk' m hm
    obtain ⟨x2, y2, w2, hr2, hp2, hw2, e2⟩ := signDigest_eq key.secret (secpN - k) (by omega) (by omega) m hm
    rw [neg_nonce hk'] at hp2
    obtain rfl : x2 = x1 := isPoint_x_unique hp2 (isPoint_neg hp1 hr1) hr2 hr1
    rw [e1, e2, neg_s (neg_inverse hk' hw1 hw2)]
    by_cases h0 : x2 % (secpN : Int) = 0
    · rw [if_pos h0, if_pos h0]
    · rw [if_neg h0, if_neg h0]
      generalize he : (w1 * ((intFromBytes m : Int) + key.secret * (x2 % (secpN : Int)))) % (secpN : Int) = s
      by_cases hs : s = 0
      · rw [if_pos hs, if_pos hs, if_pos rfl]
      · have h2 := Int.emod_lt_of_pos (w1 * ((intFromBytes m : Int) + key.secret * (x2 % (secpN : Int)))) hN
        have h3 := Int.emod_nonneg (w1 * ((intFromBytes m : Int) + key.secret * (x2 % (secpN : Int))))
          (show (secpN : Int) ≠ 0 by omega)
        rw [he] at h2 h3
        rw [if_neg hs, if_neg hs, if_neg (by omega)]
        simp only [bind, Except.bind, canonize]
        by_cases hc : s > (secpN : Int) / 2
        · rw [if_pos hc, if_neg (by omega)]
        · rw [if_neg hc, if_pos (by omega), sub_sub_cancel]
  · unfold signDigest
    rw [if_pos (by omega), if_pos (by omega)]

/-! ## C99 -/

/-- C99. Who sees two signatures made with one nonce, of values that differ modulo the order, can compute the key. -/
theorem C99_reveals (d z z' : Int) (k : Nat) (r s r' s' : Int) (hk : 1 ≤ k) (hk' : k < secpN)
    (h : Ecdsa.signWith secp secpG secpN d z k = .ok (r, s)) (h' : Ecdsa.signWith secp secpG secpN d z' k = .ok (r', s'))
    (hz : z % (secpN : Int) ≠ z' % (secpN : Int)) (hr : r % (secpN : Int) ≠ 0) :
    r' = r ∧ ∃ v : Int, (r * (s - s') * v) % (secpN : Int) = 1 ∧
      d % (secpN : Int) = ((s' * z - s * z') * v) % (secpN : Int) := by
  obtain ⟨a1, _, ⟨y, _, a2⟩, a3, a4, a5⟩ := signWith_ok hk hk' h
  obtain ⟨b1, _, ⟨y', _, b2⟩, b3, b4, b5⟩ := signWith_ok hk hk' h'
  obtain rfl : r' = r := isPoint_x_unique b2 a2 b1 a1
  refine ⟨rfl, ?_⟩
  have hp := Nat.prime_iff_prime_int.1 prime_secpN
  have c1 : (secpN : Int) ∣ s * k - (z + d * r') := Int.dvd_of_emod_eq_zero (Int.emod_eq_emod_iff_emod_sub_eq_zero.1 a5)
  have c2 : (secpN : Int) ∣ s' * k - (z' + d * r') := Int.dvd_of_emod_eq_zero (Int.emod_eq_emod_iff_emod_sub_eq_zero.1 b5)
  have hne : (r' * (s - s')) % (secpN : Int) ≠ 0 := by
    intro h0
    rcases hp.dvd_or_dvd (Int.dvd_of_emod_eq_zero h0) with h1 | h1
    · exact hr (Int.emod_eq_zero_of_dvd h1)
    · apply hz
      rw [Int.emod_eq_emod_iff_emod_sub_eq_zero]
      apply Int.emod_eq_zero_of_dvd
      have e : z - z' = (s' * k - (z' + d * r')) - (s * k - (z + d * r')) + (s - s') * k := by ring
      rw [e]
      exact dvd_add (dvd_sub c2 c1) (h1.mul_right _)
  obtain ⟨v, _, _, _, hv⟩ := inverseMod_secpN hne
  refine ⟨v, hv, ?_⟩
  rw [Int.emod_eq_emod_iff_emod_sub_eq_zero]
  apply Int.emod_eq_zero_of_dvd
  have c3 : (secpN : Int) ∣ r' * (s - s') * v - 1 := by
    have : (r' * (s - s') * v - 1) % (secpN : Int) = 0 := by rw [Int.sub_emod, hv]; decide
    exact Int.dvd_of_emod_eq_zero this
  have e : d - (s' * z - s * z') * v =
      (s' * (s * k - (z + d * r')) - s * (s' * k - (z' + d * r'))) * v - d * (r' * (s - s') * v - 1) := by ring
  rw [e]
  exact dvd_sub ((dvd_sub (c1.mul_left _) (c2.mul_left _)).mul_right _) (c3.mul_left _)

example : Ecdsa.signWith secp secpG secpN 2 5 1 = .ok (secpGx, 5 + 2 * secpGx) ∧
    Ecdsa.signWith secp secpG secpN 2 7 1 = .ok (secpGx, 7 + 2 * secpGx) ∧ (5 : Int) % secpN ≠ 7 % secpN ∧
    (secpGx : Int) % secpN ≠ 0 := by decide +kernel

theorem intToBytesLoop_add (l : Nat) (v c : Int) : intToBytesLoop l (v + 256 ^ l * c) = intToBytesLoop l v := by
  induction l generalizing v with
  | zero => rfl
  | succ l ih =>
    have e1 : (v + 256 ^ (l + 1) * c) % 256 = v % 256 := by
      rw [show (v + 256 ^ (l + 1) * c : Int) = v + 256 * (256 ^ l * c) by ring, Int.add_mul_emod_self_left]
    have e2 : (v + 256 ^ (l + 1) * c) / 256 = v / 256 + 256 ^ l * c := by
      rw [show (v + 256 ^ (l + 1) * c : Int) = v + 256 * (256 ^ l * c) by ring,
        Int.add_mul_ediv_left _ _ (by decide : (256 : Int) ≠ 0)]
    unfold intToBytesLoop
    rw [e1, e2, ih]

theorem generateK_congr (H : Hashes) (fuel : Nat) (d z z' : Int)
    (h : intToBytes (if z > secpN then z - secpN else z) 32 = intToBytes (if z' > secpN then z' - secpN else z') 32) :
    Ecdsa.generateK H fuel secpN d z = Ecdsa.generateK H fuel secpN d z' := by
  have e : bitLength secpN = 256 := by decide +kernel
  unfold Ecdsa.generateK
  rw [e]
  simp only [show ¬ ((8 * 32 : Int) - ((256 : Nat) : Int) > 0) by decide, if_false,
    show (256 + 7) / 8 = 32 from rfl, h]

/-- C99 is false: `sign` keeps 256 bits of the value only, and takes the same nonce for two values above the order that
differ by 2^256; the two signatures reveal the key. -/
theorem C99_refuted (H : Hashes) (fuel : Nat) (d z r s r' s' : Int) (hz : secpN < z)
    (h : Ecdsa.sign H fuel secp secpG d z = .ok (r, s)) (h' : Ecdsa.sign H fuel secp secpG d (z + 2 ^ 256) = .ok (r', s'))
    (hr : r % (secpN : Int) ≠ 0) :
    r' = r ∧ ∃ v : Int, (r * (s - s') * v) % (secpN : Int) = 1 ∧
      d % (secpN : Int) = ((s' * z - s * (z + 2 ^ 256)) * v) % (secpN : Int) := by
  obtain ⟨k, h1, h2, h3, h4⟩ := sign_nonce h
  obtain ⟨k', g1, g2, g3, g4⟩ := sign_nonce h'
  have : Ecdsa.generateK H fuel secpN d z = Ecdsa.generateK H fuel secpN d (z + 2 ^ 256) := by
    apply generateK_congr
    rw [if_pos (by omega), if_pos (by omega)]
    unfold intToBytes
    have e : z + 2 ^ 256 - (secpN : Int) = z - secpN + 256 ^ 32 * 1 := by norm_num; ring
    rw [e, intToBytesLoop_add]
  rw [this, g1] at h1
  cases h1
  refine C99_reveals d z (z + 2 ^ 256) k r s r' s' h2 h3 h4 g4 ?_ hr
  intro e
  rw [Int.emod_eq_emod_iff_emod_sub_eq_zero, sub_add_cancel_left] at e
  revert e
  decide

/-- Hypotheses of `C99_refuted`, with a hash that makes the nonce one. -/
example : let H : Hashes := { Hashes.toy with hmacSha256 := fun _ _ => List.replicate 31 0 ++ [1], hmacSha256_length := fun _ _ => rfl }
    (∃ s, Ecdsa.sign H 1 secp secpG 2 (secpN + 2) = .ok (secpGx, s)) ∧
    (∃ s, Ecdsa.sign H 1 secp secpG 2 (secpN + 2 + 2 ^ 256) = .ok (secpGx, s)) ∧ (secpGx : Int) % secpN ≠ 0 := by
  intro H
  have h : ∀ e : Except Err (Int × Int), (e.toOption.map (·.1)) = some secpGx → ∃ s, e = .ok (secpGx, s) := by
    rintro (e | ⟨r, s⟩) h
    · cases h
    · exact ⟨s, by cases h; rfl⟩
  exact ⟨h _ (by decide +kernel), h _ (by decide +kernel), by decide⟩

/-- C99, part that holds: for the values that a digest of 32 bytes can have, other than the order itself, signatures of equal
residues are the same signature. -/
theorem C99_same_partial (H : Hashes) (fuel : Nat) (d z z' : Int) (h0 : 0 ≤ z) (h1 : z < 2 ^ 256) (h0' : 0 ≤ z')
    (h1' : z' < 2 ^ 256) (hn : z ≠ secpN) (hn' : z' ≠ secpN) (h : z % (secpN : Int) = z' % (secpN : Int)) :
    Ecdsa.sign H fuel secp secpG d z = Ecdsa.sign H fuel secp secpG d z' := by
  have hlit : (secpN : Int) = 115792089237316195423570985008687907852837564279074904382605163141518161494337 := rfl
  have key : ∀ z : Int, 0 ≤ z → z < 2 ^ 256 → z ≠ secpN → (if z > secpN then z - secpN else z) = z % (secpN : Int) := by
    intro z h0 h1 hn
    rw [hlit] at hn ⊢
    norm_num at h1
    split <;> omega
  have hk : Ecdsa.generateK H fuel secpN d z = Ecdsa.generateK H fuel secpN d z' := by
    apply generateK_congr
    rw [key z h0 h1 hn, key z' h0' h1' hn', h]
  unfold Ecdsa.sign
  simp only [show secpG.order = some secpN from rfl, hk, bind, Except.bind]
  cases hg : Ecdsa.generateK H fuel secpN d z' with
  | error e => rfl
  | ok k =>
    have hr := kLoop_range _ _ _ _ _ _ _ hg
    simp only []
    unfold Ecdsa.signWith
    have e : ∀ a b : Int, (a * (z + b)) % (secpN : Int) = (a * (z' + b)) % (secpN : Int) := by
      intro a b
      apply mul_mod_congr
      rw [Int.add_emod, h, ← Int.add_emod]
    simp only [e]

/-- C99, part that holds: for digests of 32 bytes with other residues, the nonces are those of other inputs to the generator
of RFC 6979. -/
theorem C99_seed_partial (m m' : Bytes) (hm : m.length = 32) (hm' : m'.length = 32) :
    Spec.Rfc6979.bits2octets secpN m = Spec.Rfc6979.bits2octets secpN m' ↔ beValue m % secpN = beValue m' % secpN := by
  have hb : ∀ m : Bytes, m.length = 32 → Spec.Rfc6979.bits2int secpN m = beValue m := by
    intro m hm
    unfold Spec.Rfc6979.bits2int
    rw [hm, ← bitLength_eq, show 8 * 32 - bitLength secpN = 0 by decide +kernel]
    simp
  have hl : Spec.Rfc6979.rlen secpN = 32 := by
    unfold Spec.Rfc6979.rlen
    rw [← bitLength_eq]
    decide +kernel
  unfold Spec.Rfc6979.bits2octets Spec.Rfc6979.int2octets
  rw [hb m hm, hb m' hm', hl]
  constructor
  · intro h
    have h := congrArg leValue (List.reverse_injective h)
    have hlt : ∀ a : Nat, a % secpN < 256 ^ 32 := fun a => lt_trans (Nat.mod_lt _ (by decide)) (by decide)
    rw [leValue_le, leValue_le, Nat.mod_eq_of_lt (hlt _), Nat.mod_eq_of_lt (hlt _)] at h
    exact h
  · intro h
    rw [h]

end Bitforge
