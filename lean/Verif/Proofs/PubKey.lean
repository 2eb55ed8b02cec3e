import Verif.PubKey
import Verif.Proofs.Secp
import Verif.Proofs.Keys
import Verif.Spec.Sec

/-! # Lemmas about SEC encoding and public keys -/

namespace Bitforge
open Spec WeierstrassCurve.Affine

theorem fromLong_rev (v : Nat) : fromLong v 0 256 byte = (leDigits v).reverse := by
  rw [fromLong_eq _ _ _ (by omega), leDigits_eq]; simp

theorem toBytes32_ok (v : Int) (h0 : 0 ≤ v) (h : v < 256 ^ 32) :
    toBytes32 v = .ok (encodeInt v true (some 32)) := by
  unfold toBytes32
  have hl : (leDigits v.toNat).length ≤ 32 := leDigits_length_le (by omega)
  simp only [fromLong_rev, List.length_reverse]
  rw [if_neg (by omega)]
  congr 1
  apply beValue_inj
  · rw [encodeInt_length, List.length_drop]; simp only [List.length_append, List.length_replicate, List.length_reverse]; omega
  · rw [beValue_encodeInt, Nat.mod_eq_of_lt (by omega)]
    rw [List.length_append, List.length_replicate, List.length_reverse, List.drop_append,
      List.drop_replicate, List.length_replicate]
    have : 32 + (leDigits v.toNat).length - 32 - 32 = 0 := by omega
    rw [this, List.drop_zero]
    unfold beValue
    rw [List.reverse_append, List.reverse_reverse, leValue_append, List.reverse_replicate,
      leValue_replicate_zero, leValue_leDigits]; simp

theorem toBytes32_large (v : Int) (h : 256 ^ 32 ≤ v) : toBytes32 v = .error .valueError := by
  unfold toBytes32
  simp only [fromLong_rev, List.length_reverse]
  rw [if_pos]
  by_contra hc
  have := leValue_lt (leDigits v.toNat)
  rw [leValue_leDigits] at this
  have h2 : 256 ^ (leDigits v.toNat).length ≤ 256 ^ 32 := Nat.pow_le_pow_right (by omega) (by omega)
  omega

theorem fromBytes32_str (b : Bytes) : fromBytes32 ⟨.str, b⟩ =
    if b.length = 32 then .ok (beValue b) else .error .valueError := by
  unfold fromBytes32
  by_cases h : b.length = 32
  · simp [h, toLong_bytes]
  · simp [h]

theorem fromBytes32_bytearray (b : Bytes) : fromBytes32 ⟨.bytearray, b⟩ =
    if b.length = 32 then .error (if b.all (·.val < 128) then .encodingError else .unicodeDecodeError)
    else .error .valueError := by
  unfold fromBytes32
  by_cases h : b.length = 32 <;> simp [h]

theorem alpha_cast (x : Int) :
    ((((powMod x 3 secp.p : Int) + secp.a * x + secp.b) % (secp.p : Int) : Int) : ZMod secp.p)
      = (x : ZMod secp.p) ^ 3 + 7 := by
  have h0 : (secp.a : ZMod secp.p) = 0 := Int.cast_zero
  have h7 : (secp.b : ZMod secp.p) = 7 := Int.cast_ofNat 7
  have hpos : 0 < secp.p := by decide
  have hm : ∀ z : Int, ((z % (secp.p : Int) : Int) : ZMod secp.p) = (z : ZMod secp.p) := by
    intro z
    rw [ZMod.intCast_eq_intCast_iff', Int.emod_emod_of_dvd _ dvd_rfl]
  rw [hm]
  push_cast
  rw [h0, h7, powMod_cast _ _ _ hpos]
  ring

theorem secp_contains_iff (x y : Int) : secp.containsPoint x y = true ↔
    (y : ZMod secp.p) ^ 2 = (x : ZMod secp.p) ^ 3 + 7 := by
  have h0 : (secp.a : ZMod secp.p) = 0 := Int.cast_zero
  have h7 : (secp.b : ZMod secp.p) = 7 := Int.cast_ofNat 7
  rw [containsPoint_iff, equation_iff]
  simp only [curve]
  rw [h0, h7]
  constructor <;> intro h <;> linear_combination h

theorem secp_y_ne_zero {x y : Int} (h : secp.containsPoint x y = true) : (y : ZMod secp.p) ≠ 0 := by
  rw [secp_contains_iff] at h
  intro e
  rw [e] at h
  exact neg_seven_not_cube _ (by rw [← h]; ring)

theorem publicPairForX_spec (x : Int) (e : Bool) : ∃ y : Int,
    Ecdsa.publicPairForX secp x e = .ok (x, y) ∧ 0 ≤ y ∧ y ≤ secp.p ∧
    (secp.containsPoint x y = true → 0 < y ∧ y < secp.p ∧ y % 2 = if e then 0 else 1) ∧
    (∀ y', secp.containsPoint x y' = true → secp.containsPoint x y = true) := by
  have hodd : (secp.p : Int) % 2 = 1 := by decide
  have hp2 : secp.p ≠ 2 := by decide
  set alpha : Int := ((powMod x 3 secp.p : Int) + secp.a * x + secp.b) % (secp.p : Int) with ha
  have hac : (alpha : ZMod secp.p) = (x : ZMod secp.p) ^ 3 + 7 := alpha_cast x
  have hodd' : ∀ b : Nat, (b &&& 1 != 0) = (b % 2 == 1) := by
    intro b; rw [Nat.and_one_is_mod]; rcases Nat.mod_two_eq_zero_or_one b with h | h <;> simp [h]
  by_cases hs : IsSquare (alpha : ZMod secp.p)
  · have h0 : (alpha : ZMod secp.p) ≠ 0 := by rw [hac]; exact neg_seven_not_cube _
    obtain ⟨b, hb, hlt, hsq⟩ := modularSqrt_square hp2 alpha h0 hs
    have hb0 : b ≠ 0 := by rintro rfl; apply h0; rw [← hsq]; simp
    have hmake : Ecdsa.publicPairForX secp x e =
        if e = (b &&& 1 != 0) then .ok (x, (secp.p : Int) - b) else .ok (x, (b : Int)) := by
      unfold Ecdsa.publicPairForX
      rw [← ha]; simp only [hb]; rfl
    rw [hmake, hodd']
    have c1 : secp.containsPoint x (b : Int) = true := by
      rw [secp_contains_iff, ← hac, ← hsq]; push_cast; rfl
    have c2 : secp.containsPoint x ((secp.p : Int) - b) = true := by
      rw [secp_contains_iff, ← hac, ← hsq]; push_cast; rw [CharP.cast_eq_zero]; ring
    have hb2 := Nat.mod_two_eq_zero_or_one b
    have hev : e = (b % 2 == 1) → ((secp.p : Int) - b) % 2 = if e then 0 else 1 := by
      rintro rfl
      rcases hb2 with h | h
      · simp only [h]; simp only [Nat.reduceBEq, Bool.false_eq_true, if_false]; omega
      · simp only [h]; simp only [Nat.reduceBEq, if_true]; omega
    have hev' : e ≠ (b % 2 == 1) → ((b : Int)) % 2 = if e then 0 else 1 := by
      intro hne
      rcases hb2 with h | h <;> cases e <;> simp_all <;> omega
    split
    · next hc => exact ⟨_, rfl, by omega, by omega, fun _ => ⟨by omega, by omega, hev hc⟩, fun _ _ => c2⟩
    · next hc => exact ⟨_, rfl, by omega, by omega, fun _ => ⟨by omega, by omega, hev' hc⟩, fun _ _ => c1⟩
  · have hb := modularSqrt_nonsquare hp2 alpha (Or.inr hs)
    have hno : ∀ y, secp.containsPoint x y ≠ true := by
      intro y hy
      rw [secp_contains_iff, ← hac] at hy
      exact hs ⟨_, by rw [← hy, sq]⟩
    have hmake : Ecdsa.publicPairForX secp x e =
        if e = false then .ok (x, (secp.p : Int) - (0 : Nat)) else .ok (x, ((0 : Nat) : Int)) := by
      unfold Ecdsa.publicPairForX
      rw [← ha]; simp only [hb]; rfl
    rw [hmake]
    split
    · exact ⟨_, rfl, by omega, by omega, fun h => absurd h (hno _), fun y' h => absurd h (hno y')⟩
    · exact ⟨_, rfl, by omega, by omega, fun h => absurd h (hno _), fun y' h => absurd h (hno y')⟩

theorem y_unique {x y y' : Int} (h : secp.containsPoint x y = true) (h' : secp.containsPoint x y' = true)
    (hy : 0 ≤ y ∧ y < secp.p) (hy' : 0 ≤ y' ∧ y' < secp.p) (hpar : y % 2 = y' % 2) : y = y' := by
  have hodd : (secp.p : Int) % 2 = 1 := by decide
  have hy0 := secp_y_ne_zero h
  rw [secp_contains_iff] at h h'
  rcases sq_eq_sq_iff_eq_or_eq_neg.1 (h.trans h'.symm) with e | e
  · exact reduced_inj (c := secp) hy.1 hy.2 hy'.1 hy'.2 e
  · exfalso
    have e2 : ((y + y' : Int) : ZMod secp.p) = 0 := by push_cast; rw [e]; ring
    rw [ZMod.intCast_zmod_eq_zero_iff_dvd] at e2
    obtain ⟨q, hq⟩ := e2
    have hyne : y ≠ 0 := by rintro rfl; simp at hy0
    have hq1 : q = 1 := by
      have : (0 : Int) < secp.p := by decide
      have h1 : q < 2 := by
        by_contra hc
        have : (secp.p : Int) * 2 ≤ secp.p * q := Int.mul_le_mul_of_nonneg_left (by omega) (by omega)
        omega
      have h2 : 0 < q := by
        by_contra hc
        have : (secp.p : Int) * q ≤ secp.p * 0 := Int.mul_le_mul_of_nonneg_left (by omega) (by omega)
        omega
      omega
    rw [hq1] at hq; omega

theorem pub_findNetwork (n : Network) : PublicKey.findNetwork (.network n) = .ok n := rfl

theorem pub_new_ok_iff (pair : Int × Int) (v : NetValue) (c : Bool) (k : PublicKey) :
    PublicKey.new pair v c = .ok k ↔ ∃ n, PublicKey.findNetwork v = .ok n ∧
      secp.containsPoint pair.1 pair.2 = true ∧ k = ⟨pair, n, c⟩ := by
  unfold PublicKey.new Ecdsa.isPublicPairValid
  cases h : PublicKey.findNetwork v with
  | error e => simp
  | ok n =>
    by_cases hc : secp.containsPoint pair.1 pair.2 = true
    · simp [hc, eq_comm]
    · simp [hc]

theorem secp_p_lt : (secp.p : Int) < 256 ^ 32 := by decide

theorem reduced_iff (v : Int) : reduced v ↔ 0 ≤ v ∧ v < secp.p := by
  have hp : (2 ^ 256 - 2 ^ 32 - 977 : Int) = (secp.p : Int) := by decide
  unfold reduced; rw [hp]

theorem denotes_isPoint {x y : Int} {o : Option Nat} {P : SecpGroup} (h : Denotes secp (.affine x y o) P) :
    IsPoint x y P := by
  cases h with
  | affine _ _ _ _ _ hn => exact ⟨hn, rfl⟩

end Bitforge
