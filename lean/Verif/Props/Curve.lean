import Verif.Proofs.Curve
import Mathlib.Tactic.NormNum.Prime

/-! # C21–C23: modular inverse, modular square root, curve group -/

namespace Bitforge
open Spec WeierstrassCurve.Affine

/-! ## C21 modular inverse -/

/-- C21. On coprime arguments `inverse_mod` returns the inverse, in `[1, m]`. -/
theorem C21_inverse (a : Int) (m : Nat) (hm : 1 ≤ m) (h : Int.gcd a m = 1) :
    ∃ x : Int, inverseMod a m = .ok x ∧ 1 ≤ x ∧ x ≤ m ∧ (a * x) % (m : Int) = 1 % (m : Int) := by
  obtain ⟨x, hx, h1, h2, hd⟩ := (inverseMod_spec a m hm).1 h
  exact ⟨x, hx, h1, h2, Int.emod_eq_emod_iff_emod_sub_eq_zero.2 (Int.emod_eq_zero_of_dvd hd)⟩

/-- C21. Otherwise it raises AssertionError (and so terminates in every case). -/
theorem C21_fails (a : Int) (m : Nat) (hm : 1 ≤ m) (h : Int.gcd a m ≠ 1) :
    inverseMod a m = .error .assertionError := (inverseMod_spec a m hm).2 h

/-- C21. The result is the only inverse in `[1, m]`. -/
theorem C21_unique (a : Int) (m : Nat) (hm : 1 ≤ m) (x y : Int) (h : inverseMod a m = .ok x)
    (hy : 1 ≤ y) (hy' : y ≤ m) (he : (a * y) % (m : Int) = 1 % (m : Int)) : x = y := by
  have hg : Int.gcd a m = 1 := by
    by_contra hg
    rw [C21_fails a m hm hg] at h; cases h
  obtain ⟨x', hx', h1, h2, hd⟩ := (inverseMod_spec a m hm).1 hg
  rw [h] at hx'; cases hx'
  have hdy : (m : Int) ∣ a * y - 1 := Int.dvd_of_emod_eq_zero (Int.emod_eq_emod_iff_emod_sub_eq_zero.1 he)
  have hsub : (m : Int) ∣ a * (x - y) := by
    have := Int.dvd_sub hd hdy
    rwa [show a * x - 1 - (a * y - 1) = a * (x - y) by ring] at this
  have hco : Int.gcd (m : Int) a = 1 := by rw [Int.gcd_comm]; exact hg
  have hxy : (m : Int) ∣ x - y := Int.dvd_of_dvd_mul_right_of_gcd_one hsub hco
  obtain ⟨q, hq⟩ := hxy
  have hq1 : q < 1 := by by_contra hc; nlinarith
  have hq2 : -1 < q := by by_contra hc; nlinarith
  have : q = 0 := by omega
  rw [this] at hq; omega

example : ∃ x : Int, inverseMod (-7) 30 = .ok x ∧ (-7 * x) % 30 = 1 ∧ Int.gcd (-7) 30 = 1 :=
  ⟨17, by decide +kernel⟩
example : inverseMod 6 9 = .error .assertionError ∧ Int.gcd 6 9 ≠ 1 := by decide +kernel

/-! ## C22 modular square root -/

/-- C22. For an odd prime and a non-zero square, `modular_sqrt` returns a root in `[0, p)`. -/
theorem C22_square (p : Nat) (hp : p.Prime) (hp2 : p ≠ 2) (a : Int) (h0 : a % (p : Int) ≠ 0)
    (hs : ∃ y : Int, (y * y) % (p : Int) = a % (p : Int)) :
    ∃ x : Nat, modularSqrt a p = .ok x ∧ x < p ∧ ((x : Int) * x) % (p : Int) = a % (p : Int) := by
  haveI : Fact p.Prime := ⟨hp⟩
  obtain ⟨y, hy⟩ := hs
  have h0' : (a : ZMod p) ≠ 0 := by
    rw [Ne, ZMod.intCast_zmod_eq_zero_iff_dvd, Int.dvd_iff_emod_eq_zero]; exact h0
  obtain ⟨x, hx, hlt, hsq⟩ := modularSqrt_square hp2 a h0' ⟨(y : ZMod p), by
    have := (ZMod.intCast_eq_intCast_iff' (y * y) a p).2 hy
    push_cast at this; exact this.symm⟩
  refine ⟨x, hx, hlt, (ZMod.intCast_eq_intCast_iff' _ _ p).1 ?_⟩
  push_cast; rw [← hsq]; ring

/-- C22. For zero and for a non-square it returns 0. -/
theorem C22_nonsquare (p : Nat) (hp : p.Prime) (hp2 : p ≠ 2) (a : Int)
    (h : a % (p : Int) = 0 ∨ ¬ ∃ y : Int, (y * y) % (p : Int) = a % (p : Int)) :
    modularSqrt a p = .ok 0 := by
  haveI : Fact p.Prime := ⟨hp⟩
  apply modularSqrt_nonsquare hp2
  rcases h with h | h
  · left; rwa [ZMod.intCast_zmod_eq_zero_iff_dvd, Int.dvd_iff_emod_eq_zero]
  · right
    rintro ⟨y, hy⟩
    apply h
    refine ⟨(y.val : Int), (ZMod.intCast_eq_intCast_iff' _ _ p).1 ?_⟩
    push_cast; rw [ZMod.natCast_zmod_val]; exact hy.symm

/-- A prime that needs the full Tonelli–Shanks loop: 97 = 3·2⁵ + 1. -/
example : (97 : Nat).Prime ∧ modularSqrt 5 97 = .ok 0 ∧
    ∃ x, modularSqrt 50 97 = .ok x ∧ x * x % 97 = 50 := by
  refine ⟨by norm_num, by decide +kernel, 27, by decide +kernel⟩

/-! ## C23 curve group -/

/-- C23. `P + Q` never raises on points of the curve and is the group sum. -/
theorem C23_add (c : CurveFp) [Fact c.p.Prime] (h : Regular c) (P Q : Point) (P' Q' : (curve c).Point)
    (hP : Denotes c P P') (hQ : Denotes c Q Q') : ∃ R, Point.add c P Q = .ok R ∧ Denotes c R (P' + Q') :=
  add_denotes h hP hQ

/-- C23, partial: `double()` is the group doubling on every point that is not of order two. -/
theorem C23_double_partial (c : CurveFp) [Fact c.p.Prime] (h : Regular c) (P : Point) (P' : (curve c).Point)
    (hP : Denotes c P P') (h2 : P' + P' = 0 → P' = 0) :
    ∃ R, Point.double c P = .ok R ∧ Denotes c R (P' + P') := double_denotes h hP h2

/-- C23. `double()` on a point of order two raises AssertionError. -/
theorem C23_double_fails (c : CurveFp) [Fact c.p.Prime] (h : Regular c) (P : Point) (P' : (curve c).Point)
    (hP : Denotes c P P') (h2 : P' + P' = 0) (h0 : P' ≠ 0) :
    Point.double c P = .error .assertionError := double_fails h hP h2 h0

/-- The multiplier, reduced by the declared order when one (other than 0) is given. -/
def reducedMultiplier (P : Point) (e : Int) : Int :=
  match P with
  | .affine _ _ (some (n + 1)) => e % ((n : Int) + 1)
  | _ => e

theorem reducedMultiplier_eq (P : Point) (e : Int) : reducedMultiplier P e = effective P e := by
  rcases P with _ | ⟨_, _, _ | _ | n⟩ <;> rfl

/-- C23, partial: `P * e` is the integer multiple whenever it returns; it can only fail with AssertionError,
and only if some multiple of `P` has order two.  Missing: multiples of order two (see `C23_refuted`). -/
theorem C23_mul_partial (c : CurveFp) [Fact c.p.Prime] (h : Regular c) (P : Point) (P' : (curve c).Point)
    (hP : Denotes c P P') (e : Int) (he : 0 ≤ reducedMultiplier P e) :
    (∃ R, Point.mul c P e = .ok R ∧ Denotes c R (reducedMultiplier P e • P')) ∨
    (Point.mul c P e = .error .assertionError ∧ ∃ k : Nat, 2 • (k • P') = 0 ∧ k • P' ≠ 0) := by
  rw [reducedMultiplier_eq] at he ⊢
  rcases mul_result h hP e he with ⟨R, hR, hD⟩ | hE
  · left
    refine ⟨R, hR, ?_⟩
    rwa [← natCast_zsmul, Int.toNat_of_nonneg he] at hD
  · exact .inr hE

/-- C23, partial: on a point of odd order `P * e` never fails. -/
theorem C23_mul_odd_partial (c : CurveFp) [Fact c.p.Prime] (h : Regular c) (P : Point) (P' : (curve c).Point)
    (hP : Denotes c P P') (n : Nat) (hn : n % 2 = 1) (ho : n • P' = 0) (e : Int)
    (he : 0 ≤ reducedMultiplier P e) :
    ∃ R, Point.mul c P e = .ok R ∧ Denotes c R (reducedMultiplier P e • P') := by
  rcases C23_mul_partial c h P P' hP e he with hR | ⟨_, k, hk, hk0⟩
  · exact hR
  · exfalso
    apply hk0
    have h1 : n • (k • P') = 0 := by rw [← mul_nsmul, mul_comm, mul_nsmul, ho, nsmul_zero]
    have h2 : n • (k • P') = (n / 2) • (2 • (k • P')) + k • P' := by
      conv_lhs => rw [show n = 2 * (n / 2) + 1 by omega]
      rw [succ_nsmul, mul_nsmul]
    rw [h2, hk, nsmul_zero, zero_add] at h1
    exact h1

/-- The curve `y² = x³ + x` over GF(7). -/
def curve7 : CurveFp := ⟨7, 1, 0⟩

instance : Fact curve7.p.Prime := ⟨by show (7 : Nat).Prime; norm_num⟩

theorem curve7_regular : Regular curve7 := ⟨by decide, by decide⟩

/-- C23 is false of the code as stated: on the non-singular curve `y² = x³ + x` over GF(7) the point (0, 0) has
order two, and both `double()` and `* 2` raise on it although its double is the point at infinity. -/
theorem C23_refuted : ∃ (c : CurveFp) (_ : Fact c.p.Prime) (P : Point) (P' : (curve c).Point),
    Regular c ∧ 3 < c.p ∧ Denotes c P P' ∧ P' + P' = 0 ∧
    Point.double c P = .error .assertionError ∧ Point.mul c P 2 = .error .assertionError := by
  have hn : (curve curve7).Nonsingular ((0 : Int) : ZMod curve7.p) ((0 : Int) : ZMod curve7.p) :=
    (containsPoint_iff_nonsingular curve7_regular 0 0).1 (by decide)
  refine ⟨curve7, inferInstance, .affine 0 0 none, .some _ _ hn, curve7_regular, by decide,
    .affine 0 0 none (by decide) (by decide) hn, ?_, ?_, ?_⟩
  · rw [Point.add_self_of_Y_eq]
    simp only [negY, curve, Int.cast_zero, zero_mul, neg_zero, sub_zero]
  · exact double_two_torsion (by simp)
  · decide +kernel

/-- The curve `y² = x³ + 2x + 2` over GF(11), whose group has order 9. -/
def curve11 : CurveFp := ⟨11, 2, 2⟩

instance : Fact curve11.p.Prime := ⟨by show (11 : Nat).Prime; norm_num⟩

/-- The hypotheses of `C23_add`, `C23_double_partial` and `C23_mul_partial` are met by (1, 4) on this curve. -/
example : Regular curve11 ∧ (∃ P', Denotes curve11 (.affine 1 4 (some 9)) P') ∧
    Point.mul curve11 (.affine 1 4 none) 9 = .ok .infinity ∧
    Point.mul curve11 (.affine 1 4 (some 9)) 13 = .ok (.affine 5 4 none) ∧
    Point.mul curve11 (.affine 1 4 none) 4 = .ok (.affine 5 4 none) := by
  have hr : Regular curve11 := ⟨by decide, by decide⟩
  exact ⟨hr, ⟨_, .affine 1 4 _ (by decide) (by decide)
    ((containsPoint_iff_nonsingular hr 1 4).1 (by decide))⟩, by decide +kernel⟩

end Bitforge
