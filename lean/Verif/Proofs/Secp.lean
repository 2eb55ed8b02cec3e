import Verif.Proofs.Curve
import Verif.Proofs.Pratt
import Mathlib.GroupTheory.Perm.Cycle.Type

/-! # The secp256k1 group -/

namespace Bitforge
open Spec WeierstrassCurve.Affine

instance secpPrime : Fact secp.p.Prime := ⟨prime_secpP⟩
instance secpNPrime : Fact secpN.Prime := ⟨prime_secpN⟩

theorem secp_regular : Regular secp := ⟨by decide, by decide⟩

/-- The secp256k1 group. -/
abbrev SecpGroup := (curve secp).Point

theorem neg_seven_not_cube (x : ZMod secp.p) : x ^ 3 + 7 ≠ 0 := by
  intro h
  have h7 : x ^ 3 = ((-7 : Int) : ZMod secp.p) := by push_cast; linear_combination h
  have hx : x ≠ 0 := by
    rintro rfl
    have h7' : ((7 : Nat) : ZMod secp.p) = 0 := by simpa using h
    rw [ZMod.natCast_eq_zero_iff] at h7'
    have := Nat.le_of_dvd (by norm_num) h7'
    revert this; decide
  have h1 : ((-7 : Int) : ZMod secp.p) ^ ((secpP - 1) / 3) = 1 := by
    rw [← h7, ← pow_mul]
    have : 3 * ((secpP - 1) / 3) = secp.p - 1 := by decide
    rw [this]
    exact ZMod.pow_card_sub_one_eq_one hx
  have e : ((powModAux 256 (secpP - 7) ((secpP - 1) / 3) secp.p : Nat) : ZMod secp.p) = 1 := by
    rw [powModAux_eq' secp.p 256 _ _ (by decide), ← h1]
    rw [ZMod.natCast_mod, Nat.cast_pow]
    have : ((secpP - 7 : Nat) : ZMod secp.p) = ((-7 : Int) : ZMod secp.p) := by
      rw [← Int.cast_natCast, ZMod.intCast_eq_intCast_iff']; decide
    rw [this]
  rw [← nat_eq_one_iff (by decide +kernel)] at e
  revert e
  decide +kernel

theorem secp_no_two_torsion (Q : SecpGroup) (h : Q + Q = 0) : Q = 0 := by
  match Q, h with
  | 0, _ => rfl
  | .some x y hn, h =>
    exfalso
    by_cases hy : y = (curve secp).negY x y
    · have hy0 : y = 0 := by
        simp only [negY, curve, zero_mul, sub_zero] at hy
        have h2 := two_ne_zero_of (c := secp) (by decide)
        have : 2 * y = 0 := by linear_combination hy
        exact (mul_eq_zero.1 this).resolve_left h2
      have := equation_y_sq hn.1
      rw [hy0] at this
      apply neg_seven_not_cube x
      have h0 : (secp.a : ZMod secp.p) = 0 := Int.cast_zero
      have h7 : (secp.b : ZMod secp.p) = 7 := Int.cast_ofNat 7
      rw [h0, h7] at this
      linear_combination -this
    · rw [Point.add_self_of_Y_ne hy] at h
      exact Point.some_ne_zero _ h

theorem secp_no_two_torsion' (Q : SecpGroup) (k : Nat) (h : 2 • (k • Q) = 0) : k • Q = 0 :=
  secp_no_two_torsion _ (by rw [← two_nsmul]; exact h)

/-- `double`, `+` and `*` never fail on secp256k1. -/
theorem secp_mul {P : Point} {Q : SecpGroup} (hP : Denotes secp P Q) (e : Int) (he : 0 ≤ effective P e) :
    ∃ R, Point.mul secp P e = .ok R ∧ Denotes secp R ((effective P e).toNat • Q) :=
  mul_denotes secp_regular hP (secp_no_two_torsion' Q) e he

theorem G_nonsingular : (curve secp).Nonsingular (secpGx : ZMod secp.p) (secpGy : ZMod secp.p) :=
  (containsPoint_iff_nonsingular secp_regular _ _).1 (by decide +kernel)

/-- The generator as a group element. -/
def G : SecpGroup := .some _ _ G_nonsingular

theorem denotes_G (o : Option Nat) : Denotes secp (.affine secpGx secpGy o) G :=
  .affine _ _ _ (by decide) (by decide) _

theorem G_ne_zero : G ≠ 0 := Point.some_ne_zero _

/-- Is a result the point at infinity? -/
def isInfinity : Except Err Point → Bool
  | .ok .infinity => true
  | _ => false

theorem denotes_infinity {c : CurveFp} [Fact c.p.Prime] {Q : (curve c).Point} (h : Denotes c .infinity Q) :
    Q = 0 := by
  cases h; rfl

set_option maxRecDepth 100000 in
theorem mul_secpN_infinity : isInfinity (Point.mul secp (.affine secpGx secpGy none) secpN) = true := by
  decide +kernel

theorem secpN_smul_G : secpN • G = 0 := by
  obtain ⟨R, hR, hD⟩ := secp_mul (denotes_G none) (secpN : Int) (by show (0 : Int) ≤ secpN; decide)
  have h := mul_secpN_infinity
  rw [hR] at h
  have e : (effective (.affine secpGx secpGy none) (secpN : Int)).toNat = secpN := Int.toNat_natCast _
  rw [e] at hD
  match R, h with
  | .infinity, _ => exact denotes_infinity hD

theorem addOrderOf_G : addOrderOf G = secpN := addOrderOf_eq_prime secpN_smul_G G_ne_zero

/-! ## Counting -/

/-- Parity of the canonical representative. -/
def parity (y : ZMod secp.p) : Bool := y.val % 2 == 1

theorem parity_neg {y : ZMod secp.p} (hy : y ≠ 0) : parity (-y) ≠ parity y := by
  unfold parity
  have hv : (-y).val = secp.p - y.val := by
    rw [ZMod.neg_val, if_neg hy]
  have hlt := ZMod.val_lt y
  have hodd : secp.p % 2 = 1 := by decide
  rw [hv]
  intro e
  rcases Nat.mod_two_eq_zero_or_one y.val with h | h
  · have : (secp.p - y.val) % 2 = 1 := by omega
    simp [h, this] at e
  · have : (secp.p - y.val) % 2 = 0 := by omega
    simp [h, this] at e

/-- Compressed form of a group element. -/
def compress : SecpGroup → Option (ZMod secp.p × Bool)
  | .zero => none
  | .some x y _ => some (x, parity y)

theorem eq_or_neg_of_eq_x {c : CurveFp} [Fact c.p.Prime] {x y y' : ZMod c.p}
    (h : (curve c).Equation x y) (h' : (curve c).Equation x y') : y' = y ∨ y' = -y := by
  have e := equation_y_sq h
  have e' := equation_y_sq h'
  exact sq_eq_sq_iff_eq_or_eq_neg.1 (by rw [e, e'])

theorem compress_injective : Function.Injective compress := by
  intro P Q h
  match P, Q, h with
  | .zero, .zero, _ => rfl
  | .zero, .some _ _ _, h => simp [compress] at h
  | .some _ _ _, .zero, h => simp [compress] at h
  | .some x y hn, .some x' y' hn', h =>
    simp only [compress, Option.some.injEq, Prod.mk.injEq] at h
    obtain ⟨rfl, hp⟩ := h
    have : y' = y := by
      rcases eq_or_neg_of_eq_x hn.1 hn'.1 with e | e
      · exact e
      · by_cases hy : y = 0
        · rw [e, hy, neg_zero]
        · rw [e] at hp; exact absurd hp.symm (parity_neg hy)
    subst this
    rfl

instance : NeZero secp.p := ⟨by decide⟩

instance secpFinite : Finite SecpGroup := Finite.of_injective compress compress_injective

theorem card_le : Nat.card SecpGroup ≤ 2 * secpP + 1 := by
  have := Nat.card_le_card_of_injective compress compress_injective
  have e : Nat.card (Option (ZMod secp.p × Bool)) = 2 * secpP + 1 := by
    rw [Nat.card_eq_fintype_card, Fintype.card_option, Fintype.card_prod, ZMod.card, Fintype.card_bool]
    show secpP * 2 + 1 = _
    omega
  rwa [e] at this

theorem card_secp : Nat.card SecpGroup = secpN := by
  have hdvd : secpN ∣ Nat.card SecpGroup := by rw [← addOrderOf_G]; exact addOrderOf_dvd_natCard G
  obtain ⟨k, hk⟩ := hdvd
  have hpos : 0 < Nat.card SecpGroup := Nat.card_pos
  have hle := card_le
  have hk3 : k < 3 := by
    by_contra h
    have h1 : secpN * 3 ≤ secpN * k := Nat.mul_le_mul_left _ (by omega)
    have h2 : 2 * secpP + 1 < secpN * 3 := by decide
    omega
  have hk0 : k ≠ 0 := by rintro rfl; omega
  have hk2 : k ≠ 2 := by
    rintro rfl
    have h2 : 2 ∣ Nat.card SecpGroup := ⟨secpN, by rw [hk, mul_comm]⟩
    obtain ⟨Q, hQ⟩ := exists_prime_addOrderOf_dvd_card' 2 h2
    have h0 : Q + Q = 0 := by rw [← two_nsmul, ← hQ]; exact addOrderOf_nsmul_eq_zero Q
    have := secp_no_two_torsion Q h0
    rw [this, addOrderOf_zero] at hQ
    omega
  have : k = 1 := by omega
  rw [hk, this, mul_one]

theorem exists_smul_G (Q : SecpGroup) : ∃ k : Nat, k < secpN ∧ k • G = Q := by
  have hmem : Q ∈ AddSubgroup.zmultiples G := mem_zmultiples_of_prime_card card_secp G_ne_zero
  obtain ⟨z, hz⟩ := AddSubgroup.mem_zmultiples_iff.1 hmem
  have hN : (secpN : Int) ≠ 0 := by decide
  refine ⟨(z % (secpN : Int)).toNat, ?_, ?_⟩
  · have := Int.emod_lt_of_pos z (b := (secpN : Int)) (by decide)
    have := Int.emod_nonneg z hN
    omega
  · rw [← natCast_zsmul, Int.toNat_of_nonneg (Int.emod_nonneg z hN), ← addOrderOf_G, mod_addOrderOf_zsmul, hz]

theorem smul_G_inj {k l : Nat} (hk : k < secpN) (hl : l < secpN) (h : k • G = l • G) : k = l :=
  nsmul_injOn_Iio_addOrderOf (by rw [addOrderOf_G]; exact hk) (by rw [addOrderOf_G]; exact hl) h

end Bitforge
