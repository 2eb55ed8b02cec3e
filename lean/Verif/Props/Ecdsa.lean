import Verif.KeySign
import Verif.Proofs.Ecdsa

/-! # Properties C24, C25, C62, C63: ECDSA -/

namespace Bitforge
open Spec

theorem pub_pair (d : Int) (h0 : 1 ≤ d) (h1 : d < secpN) :
    ∃ x y, Ecdsa.publicPairForSecretExponent secp secpG d = .ok (some (x, y)) ∧ reduced x ∧ reduced y ∧
      IsPoint x y (d • G) := by
  obtain ⟨x, y, o, hm, hx, hx', hy, hy', hD⟩ := mul_G d h0 h1
  refine ⟨x, y, ?_, (reduced_iff x).2 ⟨hx, hx'⟩, (reduced_iff y).2 ⟨hy, hy'⟩, ?_⟩
  · unfold Ecdsa.publicPairForSecretExponent
    simp only [hm, bind, Except.bind, Point.pair]
  · have := denotes_isPoint hD
    rwa [← natCast_zsmul, Int.toNat_of_nonneg (by omega)] at this

theorem sign_nonce {H : Hashes} {fuel : Nat} {d z r s : Int}
    (h : Ecdsa.sign H fuel secp secpG d z = .ok (r, s)) :
    ∃ k : Nat, Ecdsa.generateK H fuel secpN d z = .ok k ∧ 1 ≤ k ∧ k < secpN ∧
      Ecdsa.signWith secp secpG secpN d z k = .ok (r, s) := by
  unfold Ecdsa.sign at h
  simp only [show secpG.order = some secpN from rfl] at h
  cases hk : Ecdsa.generateK H fuel secpN d z with
  | error e => rw [hk] at h; cases h
  | ok k =>
    rw [hk] at h
    have hr := kLoop_range _ _ _ _ _ _ _ hk
    exact ⟨k, rfl, hr.1, hr.2, h⟩

/-! ## C25 -/

/-- C25. `verify` answers True exactly for the valid signatures. -/
theorem C25_iff (qx qy z r s : Int) (Q : SecpGroup) (hQ : IsPoint qx qy Q) (hx : reduced qx) :
    Ecdsa.verify secp secpG (qx, qy) z (r, s) = .ok true ↔ ValidSig Q z r s := verify_iff hQ hx

/-- C25. Out of range values are rejected whatever the public pair is, even one that is not on the curve. -/
theorem C25_range (qx qy z r s : Int) (h : ¬ (1 ≤ r ∧ r ≤ secpN - 1 ∧ 1 ≤ s ∧ s ≤ secpN - 1)) :
    Ecdsa.verify secp secpG (qx, qy) z (r, s) = .ok false := verify_out_of_range h

/-- C25. Everything else is rejected by returning False, or by a TypeError, and the latter happens exactly when
`(z/s)·G + (r/s)·Q` is the point at infinity. -/
theorem C25_reject (qx qy z r s : Int) (Q : SecpGroup) (hQ : IsPoint qx qy Q) (hx : reduced qx)
    (h : ¬ ValidSig Q z r s) :
    Ecdsa.verify secp secpG (qx, qy) z (r, s) = .ok false ∨
    (Ecdsa.verify secp secpG (qx, qy) z (r, s) = .error .typeError ∧
      (1 ≤ r ∧ r ≤ secpN - 1 ∧ 1 ≤ s ∧ s ≤ secpN - 1) ∧ z • G + r • Q = 0) := by
  by_cases hr : 1 ≤ r ∧ r ≤ secpN - 1 ∧ 1 ≤ s ∧ s ≤ secpN - 1
  · obtain ⟨w, hw, ⟨h0, he⟩ | ⟨x, y, _, _, he⟩⟩ := verify_eq (z := z) hQ hx hr.1 hr.2.1 hr.2.2.1 hr.2.2.2
    · right
      refine ⟨he, hr, ?_⟩
      have h1 : s • ((z * w) • G + (r * w) • Q) = z • G + r • Q := by
        rw [zsmul_add, ← mul_zsmul', ← mul_zsmul']
        have e : ∀ a : Int, (a * w * s) % (secpN : Int) = a % (secpN : Int) := by
          intro a
          have : a * w * s = a * (s * w) := by ring
          rw [this, Int.mul_emod, hw, mul_one, Int.emod_emod_of_dvd _ dvd_rfl]
        rw [zsmul_congr (e z), zsmul_congr (e r)]
      rw [← h1, h0, zsmul_zero]
    · left
      rw [he]
      by_cases hb : (x % (secpN : Int) == r) = true
      · rw [hb] at he; exact absurd ((verify_iff hQ hx).1 he) h
      · rw [Bool.not_eq_true] at hb; rw [hb]
  · exact .inl (verify_out_of_range hr)

example : IsPoint secpGx secpGy G ∧ reduced secpGx ∧
    Ecdsa.verify secp secpG (secpGx, secpGy) 0 (secpGx, secpGx) = .ok true ∧
    Ecdsa.verify secp secpG (secpGx, secpGy) 1 (secpGx, secpGx) = .ok false :=
  ⟨⟨G_nonsingular, rfl⟩, by unfold reduced; decide, by decide +kernel, by decide +kernel⟩

/-! ## C24 -/

/-- C24. A signature made with any nonce in `[1, n-1]` is accepted by the signer's public key exactly when
`r < n`; missing from the full claim: `r = x(kG)` is not reduced modulo `n`, see `C24_refuted`. -/
theorem C24_partial (d z : Int) (k : Nat) (r s : Int) (hd : 1 ≤ d) (hd' : d < secpN) (hk : 1 ≤ k) (hk' : k < secpN)
    (h : Ecdsa.signWith secp secpG secpN d z k = .ok (r, s)) :
    ∃ pair, Ecdsa.publicPairForSecretExponent secp secpG d = .ok (some pair) ∧
      Ecdsa.verify secp secpG pair z (r, s) = .ok (decide (r < secpN)) := by
  obtain ⟨x, y, hp, hx, _, hQ⟩ := pub_pair d hd hd'
  obtain ⟨hr, hr0, ⟨y', _, hP⟩, hs, hs', he⟩ := signWith_ok hk hk' h
  refine ⟨(x, y), hp, ?_⟩
  have hrn := hr.1
  by_cases hlt : r < secpN
  · rw [decide_eq_true hlt, verify_iff hQ hx]
    obtain ⟨w, _, _, _, hsw⟩ := inverseMod_secpN (a := s) (by rw [Int.emod_eq_of_lt (by omega) (by omega)]; omega)
    exact ⟨by omega, by omega, hs, hs', w, r, hsw, by rw [honest_sum hsw he]; exact ⟨hr, y', hP⟩, rfl⟩
  · rw [decide_eq_false hlt]
    exact verify_out_of_range (by omega)

/-- C24. The same for `sign` with its deterministic nonce, whatever the hash function does. -/
theorem C24_sign_partial (H : Hashes) (fuel : Nat) (d z r s : Int) (hd : 1 ≤ d) (hd' : d < secpN)
    (h : Ecdsa.sign H fuel secp secpG d z = .ok (r, s)) :
    ∃ pair, Ecdsa.publicPairForSecretExponent secp secpG d = .ok (some pair) ∧
      Ecdsa.verify secp secpG pair z (r, s) = .ok (decide (r < secpN)) := by
  obtain ⟨k, _, h1, h2, hs⟩ := sign_nonce h
  exact C24_partial d z k r s hd hd' h1 h2 hs

/-- C24. A generator without order cannot sign, and verifies nothing. -/
theorem C24_no_order (H : Hashes) (fuel : Nat) (c : CurveFp) (g : Point) (h : g.order = none) (d z : Int) (pair : Int × Int)
    (sig : Int × Int) : Ecdsa.sign H fuel c g d z = .error .attributeError ∧
      Ecdsa.verify c g pair z sig = (if sig.1 < 1 then .ok false else .error .typeError) := by
  unfold Ecdsa.sign Ecdsa.verify
  rw [h]
  exact ⟨rfl, rfl⟩

/-- Points that come out of additions have no order. -/
example : (Point.affine 1 2 none).order = none := rfl

/-- C24. `sign` fails only with RuntimeError (a zero `r` or `s`), or loops forever looking for a nonce. -/
theorem C24_sign_errors (H : Hashes) (fuel : Nat) (d z : Int) (e : Err)
    (h : Ecdsa.sign H fuel secp secpG d z = .error e) :
    e = .runtimeError ∨ (e = .diverges ∧ Ecdsa.generateK H fuel secpN d z = .error .diverges) := by
  unfold Ecdsa.sign at h
  simp only [show secpG.order = some secpN from rfl] at h
  cases hk : Ecdsa.generateK H fuel secpN d z with
  | error e' =>
    have hdiv : ∀ fuel k v e, Ecdsa.kLoop H secpN ((bitLength secpN + 7) / 8) fuel k v = .error e → e = .diverges := by
      intro fuel
      induction fuel with
      | zero => intro k v e h; cases h; rfl
      | succ fuel ih =>
        intro k v e h
        unfold Ecdsa.kLoop at h
        simp only at h
        split at h
        · cases h
        · exact ih _ _ _ h
    have := hdiv _ _ _ _ hk
    subst this
    rw [hk] at h; cases h
    exact .inr ⟨rfl, rfl⟩
  | ok k =>
    rw [hk] at h
    have hr := kLoop_range _ _ _ _ _ _ _ hk
    obtain ⟨r, y, w, _, _, _, _, he⟩ := signWith_eq d z k hr.1 hr.2
    simp only [bind, Except.bind] at h
    rw [he] at h
    left
    split at h
    · cases h; rfl
    · split at h
      · cases h; rfl
      · cases h

theorem intFromBytes_append (a b : Bytes) (v : Nat) :
    (a ++ b).foldl (fun (v : Nat) (c : Byte) => v * 256 + c.val) v =
      b.foldl (fun v c => v * 256 + c.val) (a.foldl (fun v c => v * 256 + c.val) v) := List.foldl_append ..

theorem intFromBytes_loop (l : Nat) : ∀ v : Nat,
    (intToBytesLoop l v).reverse.foldl (fun (v : Nat) (c : Byte) => v * 256 + c.val) 0 = v % 256 ^ l := by
  induction l with
  | zero => intro v; simp [intToBytesLoop, Nat.mod_one]
  | succ l ih =>
    intro v
    unfold intToBytesLoop
    rw [List.reverse_cons, intFromBytes_append]
    have e1 : ((v : Int) / 256) = ((v / 256 : Nat) : Int) := by omega
    have e2 : ((v : Int) % 256).toNat = v % 256 := by omega
    rw [e1, ih, e2]
    have hb : (byte (v % 256)).val = v % 256 := by
      unfold byte; simp [Fin.ofNat]
    simp only [List.foldl_cons, List.foldl_nil, hb]
    rw [pow_succ, mul_comm (256 ^ l), Nat.mod_mul]; ring

theorem intFromBytes_toBytes (v l : Nat) (h : v < 256 ^ l) : intFromBytes (intToBytes v l) = v := by
  unfold intFromBytes intToBytes
  rw [intFromBytes_loop, Nat.mod_eq_of_lt h]

theorem intToBytes_length (v : Int) (l : Nat) : (intToBytes v l).length = l := by
  unfold intToBytes
  rw [List.length_reverse]
  induction l generalizing v with
  | zero => rfl
  | succ l ih => simp [intToBytesLoop, ih]

/-- A hash function whose HMAC is the constant `k`. -/
def constHash (k : Nat) : Hashes :=
  { Hashes.toy with
    hmacSha256 := fun _ _ => intToBytes k 32
    hmacSha256_length := fun _ _ => intToBytes_length _ _ }

theorem generateK_const (k : Nat) (h1 : 1 ≤ k) (h2 : k < secpN) (fuel : Nat) (d z : Int) :
    Ecdsa.generateK (constHash k) (fuel + 1) secpN d z = .ok k := by
  have hfill : ∀ key v, Ecdsa.kFill (constHash k) 32 key 32 v [] = (intToBytes k 32, intToBytes k 32) := by
    intro key v
    simp [Ecdsa.kFill, constHash, intToBytes_length]
  have hloop : ∀ key v, Ecdsa.kLoop (constHash k) secpN 32 (fuel + 1) key v = .ok k := by
    intro key v
    unfold Ecdsa.kLoop
    simp only [hfill, intToBytes_length]
    rw [intFromBytes_toBytes k 32 (lt_trans h2 (by decide))]
    have : 32 * 8 - bitLength secpN = 0 := by decide +kernel
    rw [this, Nat.shiftRight_zero, if_pos ⟨h1, h2⟩]
  unfold Ecdsa.generateK
  simp only
  have : (bitLength secpN + 7) / 8 = 32 := by decide +kernel
  rw [this]
  exact hloop _ _

/-- `n + 2` is the x-coordinate of a point of the curve. -/
def bigY : Int := 24738801717713540165859037596706942650182884013760002261031960508407254471123

theorem bigX_point : ∃ T : SecpGroup, IsPoint ((secpN : Int) + 2) bigY T :=
  ⟨_, (containsPoint_iff_nonsingular secp_regular _ _).1 (by decide +kernel), rfl⟩

theorem big_signature : ∃ (H : Hashes) (r s : Int), (∀ fuel, Ecdsa.sign H (fuel + 1) secp secpG 1 0 = .ok (r, s)) ∧
    r = (secpN : Int) + 2 := by
  obtain ⟨T, hT⟩ := bigX_point
  obtain ⟨k, hk, hkT⟩ := exists_smul_G T
  have hk0 : 1 ≤ k := by
    rcases Nat.eq_zero_or_pos k with rfl | h
    · rw [zero_nsmul] at hkT; exact absurd hkT.symm (isPoint_ne_zero hT)
    · exact h
  obtain ⟨r, y, w, hr, _, hp, hkw, he⟩ := signWith_eq 1 0 k hk0 hk
  have hrT : r = (secpN : Int) + 2 := by
    rw [hkT] at hp
    exact isPoint_x_unique hp hT hr (by unfold reduced; decide)
  subst hrT
  refine ⟨constHash k, _, (w * (0 + 1 * ((secpN : Int) + 2) % (secpN : Int))) % (secpN : Int), fun fuel => ?_, rfl⟩
  · unfold Ecdsa.sign
    simp only [show secpG.order = some secpN from rfl, generateK_const k hk0 hk, bind, Except.bind]
    rw [he, if_neg (by decide), if_neg]
    intro h0
    have e : (1 * ((secpN : Int) + 2) % (secpN : Int)) = 2 := by decide
    rw [e, zero_add] at h0
    have h1 : ((k : Int) * (w * 2)) % (secpN : Int) = 0 := by rw [Int.mul_emod, h0]; simp
    have h2 : ((k : Int) * (w * 2)) = ((k : Int) * w) * 2 := by ring
    rw [h2, Int.mul_emod, hkw] at h1
    revert h1; decide

/-- C24 is false: with a nonce whose point has an x-coordinate in `[n, p)` the signature's `r` is not reduced and
verification refuses it (every public key does). -/
theorem C24_refuted : ∃ (H : Hashes) (d z r s : Int), 1 ≤ d ∧ d < secpN ∧
    (∀ fuel, Ecdsa.sign H (fuel + 1) secp secpG d z = .ok (r, s)) ∧
    ∀ pair, Ecdsa.verify secp secpG pair z (r, s) = .ok false := by
  obtain ⟨H, r, s, h, hr⟩ := big_signature
  exact ⟨H, 1, 0, r, s, by decide, by decide, h, fun _ => verify_out_of_range (by omega)⟩

example : Ecdsa.signWith secp secpG secpN 2 5 1 = .ok (secpGx, 5 + 2 * secpGx) ∧
    secpGx < secpN := by decide +kernel

/-! ## C62 -/

/-- C62. Whatever the signature, every pair returned passes verification. -/
theorem C62_sound (z r s : Int) (l : List (Int × Int))
    (h : Ecdsa.possiblePublicPairs secp secpG z (r, s) = .ok l) :
    (∀ pair ∈ l, Ecdsa.verify secp secpG pair z (r, s) = .ok true) ∧ l.Nodup := by
  have one : ∀ v e y pts l', Ecdsa.recoverOne secp secpG secpN z (r, s) v e y pts = .ok l' →
      (∀ pair ∈ pts, Ecdsa.verify secp secpG pair z (r, s) = .ok true) → pts.Nodup →
      (∀ pair ∈ l', Ecdsa.verify secp secpG pair z (r, s) = .ok true) ∧ l'.Nodup := by
    intro v e y pts l' h hp hn
    unfold Ecdsa.recoverOne at h
    simp only [bind, Except.bind] at h
    repeat' split at h
    all_goals first | cases h; done | skip
    all_goals cases h
    · exact ⟨hp, hn⟩
    · next pair _ _ ok hv hc =>
      rw [hc.1] at hv
      refine ⟨?_, ?_⟩
      · intro q hq
        rcases List.mem_append.1 hq with hq | hq
        · exact hp q hq
        · rw [List.mem_singleton.1 hq]; exact hv
      · exact List.nodup_append.2 ⟨hn, List.nodup_singleton _, by
          intro a ha b hb; rw [List.mem_singleton.1 hb]; rintro rfl; exact hc.2 ha⟩
    · exact ⟨hp, hn⟩
  unfold Ecdsa.possiblePublicPairs at h
  simp only [show secpG.order = some secpN from rfl, bind, Except.bind] at h
  repeat' split at h
  all_goals first | cases h; done | skip
  next pts hpts =>
    obtain ⟨h1, h2⟩ := one _ _ _ _ _ hpts (by simp) List.nodup_nil
    exact one _ _ _ _ _ h h1 h2

/-- C62. Recovery finds the signer's key for every signature made with a nonce in `[1, n-1]`, given `r < n` and
`2z + d·r ≢ 0 (mod n)`; missing from the full claim: those two cases, see `C62_unreduced_refuted` and
`C62_infinity_refuted`. -/
theorem C62_complete_partial (d z : Int) (k : Nat) (r s : Int) (hd : 1 ≤ d) (hd' : d < secpN)
    (hk : 1 ≤ k) (hk' : k < secpN) (h : Ecdsa.signWith secp secpG secpN d z k = .ok (r, s)) (hr : r < secpN)
    (h2 : (2 * z + d * r) % (secpN : Int) ≠ 0) :
    ∃ pair l, Ecdsa.publicPairForSecretExponent secp secpG d = .ok (some pair) ∧
      Ecdsa.possiblePublicPairs secp secpG z (r, s) = .ok l ∧ pair ∈ l := by
  obtain ⟨x, y, hp, hx, hy, hQ⟩ := pub_pair d hd hd'
  obtain ⟨hrr, hr0, ⟨y', _, hP⟩, hs, hs', he⟩ := signWith_ok hk hk' h
  have hr1 := hrr.1
  obtain ⟨v, hv, hc⟩ := recover_eq (z := z) (r := r) (s := s) (T := k • G) (by omega) (by omega) hs hs' ⟨hrr, y', hP⟩
  have hsk : s • (k • G) = (z + d * r) • G := by
    rw [← natCast_zsmul, ← mul_zsmul']
    apply zsmul_congr
    rw [mul_comm]; exact he
  have e1 : recovered v z s (k • G) = d • G := by
    unfold recovered
    rw [hsk, ← add_zsmul, ← mul_zsmul']
    apply zsmul_congr
    have : (z + d * r + -z) * v = d * (r * v) := by ring
    rw [this, Int.mul_emod, hv, mul_one, Int.emod_emod_of_dvd _ dvd_rfl]
  have e2 : recovered v z s (-(k • G)) = (-(2 * z + d * r) * v) • G := by
    unfold recovered
    rw [zsmul_neg, hsk, ← neg_zsmul, ← add_zsmul, ← mul_zsmul']
    congr 1; ring
  have hdm : d % (secpN : Int) = d := Int.emod_eq_of_lt (by omega) hd'
  have n1 : recovered v z s (k • G) ≠ 0 := by
    rw [e1, Ne, zsmul_G_eq_zero_iff]; omega
  have n2 : recovered v z s (-(k • G)) ≠ 0 := by
    rw [e2, Ne, zsmul_G_eq_zero_iff]
    intro h0
    apply h2
    have h3 : (-(2 * z + d * r) * v) * r = -((2 * z + d * r) * (r * v)) := by ring
    have h4 : ((-(2 * z + d * r) * v) * r) % (secpN : Int) = 0 := by rw [Int.mul_emod, h0]; simp
    rw [h3] at h4
    have h5 := Int.dvd_of_emod_eq_zero h4
    rw [dvd_neg] at h5
    have h6 := Int.emod_eq_zero_of_dvd h5
    rwa [Int.mul_emod, hv, mul_one, Int.emod_emod_of_dvd _ dvd_rfl] at h6
  rcases hc with ⟨hz, _⟩ | ⟨_, _, l, hl, hm⟩
  · rcases hz with hz | hz
    · exact absurd hz n1
    · exact absurd hz n2
  · exact ⟨(x, y), l, hp, hl, (hm x y).2 ⟨hx, hy, .inl (by rw [e1]; exact hQ)⟩⟩

/-- C62 is false for a signature with `r ≥ n`: no pair at all is recovered. -/
theorem C62_unreduced_refuted : ∃ (H : Hashes) (d z r s : Int), 1 ≤ d ∧ d < secpN ∧
    (∀ fuel, Ecdsa.sign H (fuel + 1) secp secpG d z = .ok (r, s)) ∧
    ∀ l, Ecdsa.possiblePublicPairs secp secpG z (r, s) = .ok l → l = [] := by
  obtain ⟨H, r, s, h, hr⟩ := big_signature
  refine ⟨H, 1, 0, r, s, by decide, by decide, h, fun l hl => ?_⟩
  rw [List.eq_nil_iff_forall_not_mem]
  intro pair hp
  have := (C62_sound _ _ _ _ hl).1 pair hp
  rw [verify_out_of_range (by omega)] at this
  cases this

/-- C62 is false when `2z + d·r ≡ 0 (mod n)`: the other candidate is the point at infinity and the call fails with a
TypeError instead of returning the signer's key. -/
theorem C62_infinity_refuted : ∃ (H : Hashes) (d z r s : Int), 1 ≤ d ∧ d < secpN ∧
    (∀ fuel, Ecdsa.sign H (fuel + 1) secp secpG d z = .ok (r, s)) ∧
    Ecdsa.possiblePublicPairs secp secpG z (r, s) = .error .typeError := by
  refine ⟨constHash 1, 2, (secpN : Int) - secpGx, secpGx, secpGx, by decide, by decide, fun fuel => ?_, ?_⟩
  · unfold Ecdsa.sign
    simp only [show secpG.order = some secpN from rfl, generateK_const 1 (by decide) (by decide), bind, Except.bind]
    decide +kernel
  · have hG : HasX G secpGx := ⟨by unfold reduced; decide, secpGy, G_nonsingular, rfl⟩
    obtain ⟨v, hv, hc⟩ := recover_eq (z := (secpN : Int) - secpGx) (r := secpGx) (s := secpGx) (by decide) (by decide)
      (by decide) (by decide) hG
    rcases hc with ⟨_, he⟩ | ⟨_, h, _⟩
    · exact he
    · exfalso
      apply h
      unfold recovered
      rw [zsmul_neg, ← neg_zsmul, ← add_zsmul]
      have : (-secpGx + -((secpN : Int) - secpGx)) % (secpN : Int) = 0 := by decide
      rw [(zsmul_G_eq_zero_iff _).2 this, zsmul_zero]

example : Ecdsa.signWith secp secpG secpN 2 5 1 = .ok (secpGx, 5 + 2 * secpGx) ∧ secpGx < secpN ∧
    (2 * 5 + 2 * secpGx) % (secpN : Int) ≠ 0 := by decide +kernel

/-! ## C63, on pairs (see `Props/KeySign.lean` for the DER texts) -/

theorem validSig_neg {Q : SecpGroup} {z r s : Int} (h : ValidSig Q z r s) : ValidSig Q z r ((secpN : Int) - s) := by
  obtain ⟨h1, h2, h3, h4, w, x, hw, ⟨hx, y, hy⟩, he⟩ := h
  refine ⟨h1, h2, by omega, by omega, -w, x, ?_, ⟨hx, -y, ?_⟩, he⟩
  · have : ((secpN : Int) - s) * -w = s * w - secpN * w := by ring
    rw [this, Int.sub_mul_emod_self_left, hw]
  · have e : (z * -w) • G + (r * -w) • Q = -((z * w) • G + (r * w) • Q) := by
      rw [mul_neg, mul_neg, neg_zsmul, neg_zsmul, neg_add]
    rw [e]
    exact denotes_isPoint (neg_denotes secp_regular (isPoint_denotes hy hx none) none).2

theorem signDigest_ok {d : Int} {k : Nat} (hk : 1 ≤ k) (hk' : k < secpN) {m : Bytes} {r s : Int}
    (h : ExtEcdsa.signDigest d k m = .ok (r, s)) : ValidSig (d • G) (intFromBytes m) r s := by
  have hN := secpN_pos
  obtain ⟨x, y, o, hm, hx, hx', _, _, hD⟩ := mul_G k (by omega) (by omega)
  rw [Int.toNat_natCast] at hD
  obtain ⟨w, hw, _, _, hkw⟩ := inverseMod_secpN (a := (k : Int))
    (by rw [Int.emod_eq_of_lt (by omega) (by omega)]; omega)
  unfold ExtEcdsa.signDigest at h
  split at h
  · cases h
  · simp only [hm, bind, Except.bind, Point.pair, hw] at h
    split at h
    · cases h
    · next hr0 =>
      split at h
      · cases h
      · next hs0 =>
        injection h with h
        injection h with h1 h2
        have a1 := Int.emod_nonneg x (show (secpN : Int) ≠ 0 by omega)
        have a2 := Int.emod_lt_of_pos x hN
        rw [h1] at a1 a2 hr0 h2 hs0
        rw [h2] at hs0
        have b1 := Int.emod_nonneg (w * ((intFromBytes m : Int) + d * r)) (show (secpN : Int) ≠ 0 by omega)
        have b2 := Int.emod_lt_of_pos (w * ((intFromBytes m : Int) + d * r)) hN
        rw [h2] at b1 b2
        obtain ⟨u, _, _, _, hu⟩ := inverseMod_secpN (a := s) (by rw [Int.emod_eq_of_lt (by omega) (by omega)]; omega)
        refine ⟨by omega, by omega, by omega, by omega, u, x, hu, ?_, ?_⟩
        · rw [honest_sum (k := k) hu]
          · exact ⟨(reduced_iff x).2 ⟨hx, hx'⟩, y, denotes_isPoint hD⟩
          · rw [← h2, Int.mul_emod, Int.emod_emod_of_dvd _ dvd_rfl, ← Int.mul_emod]
            have : w * ((intFromBytes m : Int) + d * r) * k = ((k : Int) * w) * ((intFromBytes m : Int) + d * r) := by ring
            rw [this, Int.mul_emod, hkw, one_mul, Int.emod_emod_of_dvd _ dvd_rfl]
        · rw [← h1, Int.emod_emod_of_dvd _ dvd_rfl]

theorem priv_verify (H : Hashes) (key : PrivateKey) (h0 : 1 ≤ key.secret) (h1 : key.secret < secpN) (r s : Int)
    (m : Bytes) : key.verifyPair H (r, s) m = .ok true ↔ ValidSig (key.secret • G) (intFromBytes (H.sha1 m)) r s := by
  obtain ⟨x, y, o, hm, hx, hx', _, _, hD⟩ := mul_G key.secret h0 h1
  have hp := denotes_isPoint hD
  rw [← natCast_zsmul, Int.toNat_of_nonneg (by omega)] at hp
  have hi := verify_iff (z := intFromBytes (H.sha1 m)) (r := r) (s := s) hp ((reduced_iff x).2 ⟨hx, hx'⟩)
  rw [← hi]
  unfold PrivateKey.verifyPair ExtEcdsa.verifyPair
  simp only [hm, bind, Except.bind, Point.pair]
  cases Ecdsa.verify secp secpG (x, y) (intFromBytes (H.sha1 m)) (r, s) with
  | error e => simp
  | ok b => cases b <;> simp

/-- `k.verify(k.sign(SHA1(m)), m)` is True for every key, message and nonce: `verify` hashes what it is given
and `sign` does not.  Missing from the full claim: the same `m` on both sides, see `sign_verify_pair_refuted`. -/
theorem sign_verify_pair (H : Hashes) (key : PrivateKey) (h0 : 1 ≤ key.secret) (h1 : key.secret < secpN) (nonce : Nat)
    (hk : 1 ≤ nonce) (hk' : nonce < secpN) (m : Bytes) (sig : Int × Int)
    (h : key.signPair nonce (H.sha1 m) = .ok sig) : key.verifyPair H sig m = .ok true := by
  unfold PrivateKey.signPair at h
  cases hs : ExtEcdsa.signDigest key.secret nonce (H.sha1 m) with
  | error e => rw [hs] at h; cases h
  | ok rs =>
    obtain ⟨r, s⟩ := rs
    rw [hs] at h
    have hv := signDigest_ok hk hk' hs
    simp only [bind, Except.bind] at h
    injection h with h
    subst h
    unfold ExtEcdsa.canonize
    split
    · exact (priv_verify H key h0 h1 _ _ _).2 (validSig_neg hv)
    · exact (priv_verify H key h0 h1 _ _ _).2 hv

example : ((PrivateKey.mk 2 .livenet true).signPair 1 (Hashes.toy.sha1 [9])).toBool = true := by decide +kernel

/-- The 32 bytes of the number 2^200. -/
def badMessage : Bytes := List.replicate 6 0 ++ [1] ++ List.replicate 25 0

/-- For every function of 20-byte hashes in the place of SHA-1: the signature that `PrivateKey(1)` makes
of 2^200 with nonce 1 is not accepted. -/
theorem sign_verify_pair_refuted (H : Hashes) : ∃ (key : PrivateKey) (nonce : Nat) (m : Bytes) (sig : Int × Int),
    1 ≤ key.secret ∧ key.secret < secpN ∧ 1 ≤ nonce ∧ nonce < secpN ∧ m.length = 32 ∧
    key.signPair nonce m = .ok sig ∧ key.verifyPair H sig m ≠ .ok true := by
  set s : Int := ExtEcdsa.canonize (secpGx, (2 ^ 200 + secpGx) % (secpN : Int)) |>.2 with hs
  have hsig : (PrivateKey.mk 1 .livenet true).signPair 1 badMessage = .ok (secpGx, s) := by decide +kernel
  refine ⟨⟨1, .livenet, true⟩, 1, badMessage, (secpGx, s), by decide, by decide, by decide, by decide, rfl, hsig, ?_⟩
  rw [Ne, priv_verify H _ (by decide) (by decide)]
  rintro ⟨_, _, _, _, w, x, hw, ⟨hx, y, hy⟩, he⟩
  set z' : Int := ((intFromBytes (H.sha1 badMessage) : Nat) : Int) with hz'
  have hzb : 0 ≤ z' ∧ z' < 256 ^ 20 := by
    refine ⟨by omega, ?_⟩
    have hb : ∀ (b : Bytes) (v : Nat), b.foldl (fun (v : Nat) (c : Byte) => v * 256 + c.val) v < (v + 1) * 256 ^ b.length := by
      intro b
      induction b with
      | nil => intro v; simp
      | cons c b ih =>
        intro v
        rw [List.foldl_cons, List.length_cons, pow_succ']
        calc _ < (v * 256 + c.val + 1) * 256 ^ b.length := ih _
          _ ≤ ((v + 1) * 256) * 256 ^ b.length := Nat.mul_le_mul_right _ (by have := c.isLt; omega)
          _ = _ := by ring
    have := hb (H.sha1 badMessage) 0
    rw [H.sha1_length] at this
    have e : intFromBytes (H.sha1 badMessage) < 256 ^ 20 := by simpa [intFromBytes] using this
    rw [hz']; exact_mod_cast e
  have hxG : x = secpGx := by
    have hxb := (reduced_iff x).1 hx
    have e1 : secpGx % (secpN : Int) = secpGx := by decide
    rw [e1] at he
    have hp : (secp.p : Int) < secpN + secpGx := by decide
    have hG0 : (0 : Int) ≤ secpGx ∧ secpGx < secpN := by decide
    have hd := Int.emod_add_mul_ediv x (secpN : Int)
    have hq : x / (secpN : Int) < 1 := by
      by_contra hc
      have : (secpN : Int) * 1 ≤ (secpN : Int) * (x / (secpN : Int)) :=
        Int.mul_le_mul_of_nonneg_left (by omega) (by omega)
      omega
    have hq' : 0 ≤ x / (secpN : Int) := Int.ediv_nonneg hxb.1 (by decide)
    have : x / (secpN : Int) = 0 := by omega
    rw [this] at hd
    omega
  subst hxG
  have hG : IsPoint secpGx secpGy G := ⟨G_nonsingular, rfl⟩
  have e0 : (z' * w) • G + (secpGx * w) • ((1 : Int) • G) = ((z' + secpGx) * w) • G := by
    rw [one_zsmul, ← add_zsmul]; congr 1; ring
  rw [e0] at hy
  have key : ∀ t : Int, t % (secpN : Int) ≠ 0 → ((z' + secpGx) * w - t) • G = 0 → ∀ u, s * t = u →
      (z' + secpGx - u) % (secpN : Int) = 0 := by
    intro t _ h0 u hu
    rw [zsmul_G_eq_zero_iff] at h0
    have h1 : (s * ((z' + secpGx) * w - t)) % (secpN : Int) = 0 := by rw [Int.mul_emod, h0]; simp
    have h2 : s * ((z' + secpGx) * w - t) = (z' + secpGx) * (s * w) - u := by rw [← hu]; ring
    rw [h2, Int.sub_emod, Int.mul_emod, hw, mul_one, Int.emod_emod_of_dvd _ dvd_rfl, ← Int.sub_emod] at h1
    exact h1
  have hsv : s = 2 ^ 200 + secpGx ∨ s = (secpN : Int) - (2 ^ 200 + secpGx) := by
    rw [hs]; decide +kernel
  have hfin : (z' - 2 ^ 200) % (secpN : Int) = 0 ∨ (z' + 2 * secpGx + 2 ^ 200) % (secpN : Int) = 0 := by
    rcases isPoint_pm hG hy with h | h
    · have hk := key 1 (by decide) (by rw [sub_zsmul, h, one_zsmul, add_neg_cancel]) s (by ring)
      rcases hsv with e | e
      · left; rw [e] at hk
        have q : z' + secpGx - (2 ^ 200 + secpGx) = z' - 2 ^ 200 := by ring
        exact (congrArg (· % (secpN : Int)) q).symm.trans hk
      · right; rw [e] at hk
        have q : z' + secpGx - ((secpN : Int) - (2 ^ 200 + secpGx)) = z' + 2 * secpGx + 2 ^ 200 - secpN := by ring
        exact (Int.sub_emod_right _ _).symm.trans ((congrArg (· % (secpN : Int)) q).symm.trans hk)
    · have hk := key (-1) (by decide) (by rw [sub_zsmul, h, neg_zsmul, one_zsmul, add_neg_cancel]) (-s) (by ring)
      rcases hsv with e | e
      · right; rw [e] at hk
        have q : z' + secpGx - -(2 ^ 200 + secpGx) = z' + 2 * secpGx + 2 ^ 200 := by ring
        exact (congrArg (· % (secpN : Int)) q).symm.trans hk
      · left; rw [e] at hk
        have q : z' + secpGx - -((secpN : Int) - (2 ^ 200 + secpGx)) = z' - 2 ^ 200 + secpN := by ring
        exact (Int.add_emod_right _ _).symm.trans ((congrArg (· % (secpN : Int)) q).symm.trans hk)
  have hN1 : (256 : Int) ^ 20 < 2 ^ 200 := by decide
  have hN2 : (2 : Int) ^ 200 < secpN := by decide
  have hN3 : (0 : Int) < 2 * secpGx + 2 ^ 200 := by decide
  have hN4 : (2 : Int) * secpGx + 2 ^ 200 + 256 ^ 20 < secpN := by decide
  rcases hfin with h | h
  · obtain ⟨c, hc⟩ := Int.dvd_of_emod_eq_zero h
    rcases lt_trichotomy c 0 with h0 | h0 | h0
    · have : (secpN : Int) * c ≤ (secpN : Int) * (-1) := Int.mul_le_mul_of_nonneg_left (by omega) (by decide)
      omega
    · subst h0; omega
    · have : (secpN : Int) * 1 ≤ (secpN : Int) * c := Int.mul_le_mul_of_nonneg_left (by omega) (by decide)
      omega
  · rw [Int.emod_eq_of_lt (by omega) (by omega)] at h
    omega

end Bitforge
