import Verif.RealHashes
import Verif.Spec.Rfc6979
import Verif.Proofs.HdKey
import Verif.Proofs.Tx

/-! # C78: `deterministic_generate_k` and RFC 6979 -/

namespace Bitforge
open Spec Rfc6979

theorem bitLength_eq (n : Nat) : bitLength n = qlen n := by
  unfold bitLength qlen
  split
  · next h => subst h; rfl
  · next h =>
    apply le_antisymm
    · rw [Nat.succ_le_iff, Nat.lt_size]
      exact Nat.log2_self_le h
    · rw [Nat.size_le]
      exact Nat.lt_log2_self

theorem intToBytes_octets (v : Nat) (l : Nat) : intToBytes v l = (le l v).reverse := by
  unfold intToBytes
  congr 1
  induction l generalizing v with
  | zero => rfl
  | succ l ih =>
    simp only [intToBytesLoop, le]
    have e : ((v : Int) / 256) = ((v / 256 : Nat) : Int) := by norm_cast
    rw [e, ih]
    congr 1
    apply Fin.ext
    have e : ((v : Int) % 256).toNat = v % 256 := by omega
    rw [e]
    simp [byte]

theorem kFill_blocks (H : Hashes) (sz : Nat) (k : Bytes) : ∀ (m fuel : Nat) (v t : Bytes), m ≤ fuel →
    sz ≤ t.length + 32 * m → (∀ j < m, t.length + 32 * j < sz) →
    Ecdsa.kFill H sz k fuel v t = ((blocks H.hmacSha256 k m v).2, t ++ (blocks H.hmacSha256 k m v).1)
  | 0, fuel, v, t, _, h, _ => by
    cases fuel with
    | zero => simp [Ecdsa.kFill, blocks]
    | succ fuel => simp only [Ecdsa.kFill, blocks]; rw [if_neg (by omega)]; simp
  | m + 1, 0, v, t, hf, _, _ => by omega
  | m + 1, fuel + 1, v, t, hf, h, hj => by
    have := hj 0 (by omega)
    simp only [Ecdsa.kFill, blocks]
    rw [if_pos (by omega), kFill_blocks H sz k m fuel _ _ (by omega)]
    · simp
    · rw [List.length_append, H.hmacSha256_length]; omega
    · intro j hj'
      have := hj (j + 1) (by omega)
      rw [List.length_append, H.hmacSha256_length]; omega

theorem kFill_rounds (H : Hashes) (n : Nat) (k v : Bytes) :
    Ecdsa.kFill H (rlen n) k (rlen n) v [] =
      ((blocks H.hmacSha256 k (rounds n) v).2, (blocks H.hmacSha256 k (rounds n) v).1) := by
  rw [kFill_blocks H (rlen n) k (rounds n)]
  · simp
  all_goals simp only [rlen, rounds, List.length_nil]
  · omega
  · omega
  · intro j hj; omega

theorem kLoop_iff (H : Hashes) (n x : Nat) (h1 : Bytes) (r : Nat) : ∀ (fuel i : Nat),
    Ecdsa.kLoop H n (rlen n) fuel (state H.hmacSha256 n x h1 i).1 (state H.hmacSha256 n x h1 i).2 = .ok r ↔
      ∃ j < fuel, r = candidate H.hmacSha256 n x h1 (i + j) ∧ 1 ≤ r ∧ r < n ∧
        ∀ l < j, ¬ (1 ≤ candidate H.hmacSha256 n x h1 (i + l) ∧ candidate H.hmacSha256 n x h1 (i + l) < n)
  | 0, i => by simp [Ecdsa.kLoop]
  | fuel + 1, i => by
    unfold Ecdsa.kLoop
    rw [kFill_rounds]
    simp only []
    have hc : intFromBytes (blocks H.hmacSha256 (state H.hmacSha256 n x h1 i).1 (rounds n) (state H.hmacSha256 n x h1 i).2).1 >>>
        ((blocks H.hmacSha256 (state H.hmacSha256 n x h1 i).1 (rounds n) (state H.hmacSha256 n x h1 i).2).1.length * 8 -
          bitLength n) = candidate H.hmacSha256 n x h1 i := by
      rw [Nat.shiftRight_eq_div_pow, intFromBytes_eq, bitLength_eq, mul_comm _ 8]
      rfl
    rw [hc]
    by_cases h : 1 ≤ candidate H.hmacSha256 n x h1 i ∧ candidate H.hmacSha256 n x h1 i < n
    · rw [if_pos h]
      constructor
      · intro e
        cases e
        exact ⟨0, by omega, rfl, h.1, h.2, by simp⟩
      · rintro ⟨j, hj, hr, _, _, hl⟩
        cases j with
        | zero => rw [hr]; rfl
        | succ j => exact absurd h (hl 0 (by omega))
    · rw [if_neg h]
      have ih := kLoop_iff H n x h1 r fuel (i + 1)
      refine Iff.trans ih ?_
      constructor
      · rintro ⟨j, hj, hr, h2, h3, hl⟩
        refine ⟨j + 1, by omega, by rw [hr]; congr 1; omega, h2, h3, ?_⟩
        intro l hl'
        cases l with
        | zero => exact h
        | succ l => rw [show i + (l + 1) = i + 1 + l by omega]; exact hl l (by omega)
      · rintro ⟨j, hj, hr, h2, h3, hl⟩
        cases j with
        | zero => exact absurd ⟨hr ▸ h2, hr ▸ h3⟩ h
        | succ j =>
          refine ⟨j, by omega, by rw [hr]; congr 1; omega, h2, h3, ?_⟩
          intro l hl'
          rw [show i + 1 + l = i + (l + 1) by omega]
          exact hl (l + 1) (by omega)

/-- C78, part that holds: `deterministic_generate_k` returns the nonce of RFC 6979, the first candidate in range (within
the first `fuel` candidates, for any `fuel`), for every order, private key and digest, unless the leftmost bits of the
digest are exactly the order.  Missing: that digest (see the refutation). -/
theorem C78_nonce_partial (H : Hashes) (fuel q x : Nat) (hq : 0 < q) (m : Bytes) (hm : m.length = 32)
    (hne : bits2int q m ≠ q) (k : Nat) :
    Ecdsa.generateK H fuel q x (beValue m) = .ok k ↔ ∃ i < fuel, Nonce H.hmacSha256 q x m i k := by
  have hsh : (if (8 * 32 - (bitLength q : Int)) > 0 then (beValue m : Int) >>> (8 * 32 - (bitLength q : Int)).toNat
      else (beValue m : Int)) = (bits2int q m : Nat) := by
    rw [bitLength_eq]
    unfold bits2int
    rw [hm]
    split
    · next h =>
      rw [Int.shiftRight_eq_div_pow]
      have e : (8 * 32 - (qlen q : Int)).toNat = 8 * 32 - qlen q := by omega
      rw [e]
      norm_cast
    · next h =>
      rw [show 8 * 32 - qlen q = 0 by omega]
      simp
  have hlt : bits2int q m < 2 * q := by
    have hs : 0 < qlen q := Nat.size_pos.2 hq
    have h1 : 2 ^ (qlen q - 1) ≤ q := Nat.lt_size.1 (by unfold qlen at hs ⊢; omega)
    have h2 : 2 ^ qlen q ≤ 2 * q := by
      obtain ⟨l, hl⟩ : ∃ l, qlen q = l + 1 := ⟨qlen q - 1, by omega⟩
      rw [hl] at h1 ⊢
      rw [Nat.add_sub_cancel] at h1
      rw [pow_succ]
      omega
    refine lt_of_lt_of_le ?_ h2
    unfold bits2int
    rw [hm, Nat.div_lt_iff_lt_mul (by positivity), ← pow_add]
    have hb := beValue_lt m
    rw [hm, show (256 : Nat) ^ 32 = 2 ^ 256 by norm_num] at hb
    exact lt_of_lt_of_le hb (Nat.pow_le_pow_right (by omega) (by omega))
  have hmod : (if ((bits2int q m : Nat) : Int) > (q : Int) then ((bits2int q m : Nat) : Int) - q else (bits2int q m : Nat)) =
      ((bits2int q m % q : Nat) : Int) := by
    split
    · next h =>
      rw [Nat.mod_eq_sub_mod (by omega), Nat.mod_eq_of_lt (by omega)]
      omega
    · rw [Nat.mod_eq_of_lt (by omega)]
  unfold Ecdsa.generateK
  simp only [hsh, hmod]
  rw [intToBytes_octets, intToBytes_octets, show (bitLength q + 7) / 8 = rlen q by rw [bitLength_eq]; rfl]
  have := kLoop_iff H q x m k fuel 0
  simp only [zero_add] at this
  exact this

/-- C78. The nonce of RFC 6979 is unique. -/
theorem C78_unique (hmac : Bytes → Bytes → Bytes) (q x : Nat) (m : Bytes) (i j k l : Nat) (h : Nonce hmac q x m i k)
    (h' : Nonce hmac q x m j l) : i = j ∧ k = l := by
  obtain ⟨e, h1, h2, h3⟩ := h
  obtain ⟨e', h1', h2', h3'⟩ := h'
  have : i = j := by
    rcases Nat.lt_trichotomy i j with hij | rfl | hij
    · exact absurd ⟨e ▸ h1, e ▸ h2⟩ (h3' i hij)
    · rfl
    · exact absurd ⟨e' ▸ h1', e' ▸ h2'⟩ (h3 j hij)
  subst this
  exact ⟨rfl, e.trans e'.symm⟩

/-- C78, for secp256k1: `sign` uses the nonce of RFC 6979, unless the digest is the order of the curve. -/
theorem C78_sign_partial (H : Hashes) (fuel x : Nat) (m : Bytes) (hm : m.length = 32) (hne : beValue m ≠ secpN) (r s : Int)
    (h : Ecdsa.sign H fuel secp secpG x (beValue m) = .ok (r, s)) :
    ∃ i k, Nonce H.hmacSha256 secpN x m i k ∧ Ecdsa.signWith secp secpG secpN x (beValue m) k = .ok (r, s) := by
  unfold Ecdsa.sign at h
  simp only [show secpG.order = some secpN from rfl, bind, Except.bind] at h
  split at h
  · cases h
  · next k hk =>
    have hb : bits2int secpN m = beValue m := by
      unfold bits2int
      rw [hm, ← bitLength_eq, show 8 * 32 - bitLength secpN = 0 by decide +kernel]
      simp
    obtain ⟨i, _, hi⟩ := (C78_nonce_partial H fuel secpN x (by decide) m hm (by rw [hb]; exact hne) k).1 hk
    exact ⟨i, k, hi, h⟩

/-- C78 is false of the code: for the digest that is the order of the curve the nonce is another (`val > n` is tested,
where RFC 6979 reduces modulo `n`).  This is with the real HMAC-SHA256. -/
theorem C78_order_refuted : ∃ (m : Bytes) (k l : Nat), m.length = 32 ∧ beValue m = secpN ∧
    Ecdsa.generateK .real 1 secpN 5 (beValue m) = .ok k ∧ Nonce Hashes.real.hmacSha256 secpN 5 m 0 l ∧
    ∀ i, ¬ Nonce Hashes.real.hmacSha256 secpN 5 m i k := by
  have hn : Nonce Hashes.real.hmacSha256 secpN 5 (intToBytes secpN 32) 0 24408793808444642816601372681386487955667956609887973696494441965125551841202 := by
    refine ⟨?_, by decide, by decide, by simp⟩
    decide +kernel
  refine ⟨intToBytes secpN 32, 12169991679839387670166474351586660376248211113400864851032294408408494358414, 24408793808444642816601372681386487955667956609887973696494441965125551841202, by decide +kernel, by decide +kernel, by decide +kernel, hn, ?_⟩
  intro i hi
  have := (C78_unique _ _ _ _ _ _ _ _ hi hn).2
  revert this
  decide

/-- A digest for which the hypotheses hold, and the nonce is returned. -/
example : bits2int secpN (List.replicate 32 7) ≠ secpN ∧
    (Ecdsa.generateK .real 1 secpN 5 (beValue (List.replicate 32 7))).toBool = true := by decide +kernel

end Bitforge
