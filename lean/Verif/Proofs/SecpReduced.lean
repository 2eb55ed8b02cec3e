import Verif.Proofs.Secp

/-! # Coordinates computed on secp256k1 are reduced modulo `p` -/

namespace Bitforge
open Spec WeierstrassCurve.Affine

/-- The `y` coordinate is in `[0, p)`. -/
def YReduced (c : CurveFp) : Point → Prop
  | .infinity => True
  | .affine _ y _ => 0 ≤ y ∧ y < c.p

theorem make_reduced {c : CurveFp} [Fact c.p.Prime] {x y : Int} {o : Option Nat} {R : Point}
    (h : Point.make c x (y % c.p) o = .ok R) : YReduced c R := by
  unfold Point.make at h
  split at h
  · cases h; exact emod_range y
  · cases h

theorem double_reduced {c : CurveFp} [Fact c.p.Prime] {P R : Point} (h : Point.double c P = .ok R) :
    YReduced c R := by
  cases P with
  | infinity => cases h; trivial
  | affine x y o =>
    simp only [Point.double] at h
    split at h
    · cases h
    · exact make_reduced h

theorem add_reduced {c : CurveFp} [Fact c.p.Prime] {P Q R : Point} (h : Point.add c P Q = .ok R)
    (hP : YReduced c P) (hQ : P = .infinity → YReduced c Q) : YReduced c R := by
  cases P with
  | infinity => cases Q <;> cases h <;> exact hQ rfl
  | affine x1 y1 o1 =>
    cases Q with
    | infinity => cases h; exact hP
    | affine x2 y2 o2 =>
      simp only [Point.add] at h
      split at h
      · split at h
        · cases h; trivial
        · exact double_reduced h
      · split at h
        · cases h
        · exact make_reduced h

theorem secpN_smul (Q : SecpGroup) : secpN • Q = 0 := by
  obtain ⟨k, _, rfl⟩ := exists_smul_G Q
  rw [← mul_nsmul, mul_comm, mul_nsmul, secpN_smul_G, nsmul_zero]

theorem addOrderOf_secp {Q : SecpGroup} (hQ : Q ≠ 0) : addOrderOf Q = secpN :=
  addOrderOf_eq_prime (secpN_smul Q) hQ

theorem smul_ne_zero_secp {Q : SecpGroup} (hQ : Q ≠ 0) {k : Nat} (h0 : 0 < k) (h1 : k < secpN) : k • Q ≠ 0 := by
  intro h
  have := addOrderOf_dvd_of_nsmul_eq_zero h
  rw [addOrderOf_secp hQ] at this
  have := Nat.le_of_dvd h0 this
  omega

theorem mulLoop_reduced {P N : Point} {Q : SecpGroup} (hQ : Q ≠ 0) (hP : Denotes secp P Q)
    (hN : Denotes secp N (-Q)) (hPr : YReduced secp P) (e : Nat) (hen : e < secpN) :
    ∀ j fuel R, j ≤ fuel → Denotes secp R ((3 * e / 2 ^ (j + 1) - e / 2 ^ (j + 1)) • Q) → YReduced secp R →
      ∃ R', Point.mulLoop secp P N e (3 * e) fuel (2 ^ j) R = .ok R' ∧ YReduced secp R' := by
  intro j
  induction j with
  | zero =>
    intro fuel R _ hR hr
    refine ⟨R, ?_, hr⟩
    cases fuel <;> simp [Point.mulLoop]
  | succ j ih =>
    intro fuel R hf hR hr
    obtain ⟨fuel, rfl⟩ : ∃ f, fuel = f + 1 := ⟨fuel - 1, by omega⟩
    have hi1 : 2 ^ (j + 1) > 1 := Nat.one_lt_two_pow (by omega)
    have hi2 : 2 ^ (j + 1) / 2 = 2 ^ j := by rw [pow_succ]; omega
    have d3 : 3 * e / 2 ^ (j + 1 + 1) = 3 * e / 2 ^ (j + 1) / 2 := by
      rw [pow_succ, Nat.div_div_eq_div_mul]
    have d1 : e / 2 ^ (j + 1 + 1) = e / 2 ^ (j + 1) / 2 := by
      rw [pow_succ, Nat.div_div_eq_div_mul]
    rw [d3, d1] at hR
    have hle : e / 2 ^ (j + 1) ≤ 3 * e / 2 ^ (j + 1) := Nat.div_le_div_right (by omega)
    have hbound : 3 * e / 2 ^ (j + 1) - e / 2 ^ (j + 1) ≤ e := by
      have h2 : 2 ≤ 2 ^ (j + 1) := hi1
      have a1 := Nat.div_mul_le_self (3 * e) (2 ^ (j + 1))
      have a2 := Nat.lt_div_mul_add (a := e) (b := 2 ^ (j + 1)) (by omega)
      by_contra hc
      have : (e + 1 + e / 2 ^ (j + 1)) * 2 ^ (j + 1) ≤ 3 * e / 2 ^ (j + 1) * 2 ^ (j + 1) :=
        Nat.mul_le_mul_right _ (by omega)
      have h3 : (e + 1) * 2 ≤ (e + 1) * 2 ^ (j + 1) := Nat.mul_le_mul_left _ h2
      rw [Nat.add_mul] at this
      have h4 : (e + 1) * 2 ^ (j + 1) ≤ 2 * e + 2 ^ (j + 1) - 1 := by omega
      have h5 : (e + 1) * 2 ^ (j + 1) = e * 2 ^ (j + 1) + 2 ^ (j + 1) := by rw [Nat.add_mul, Nat.one_mul]
      have h6 : e * 2 ≤ e * 2 ^ (j + 1) := Nat.mul_le_mul_left _ h2
      omega
    set A := 3 * e / 2 ^ (j + 1) with hA
    set B := e / 2 ^ (j + 1) with hB
    obtain ⟨R1, hR1, hD1⟩ := double_denotes secp_regular hR (secp_no_two_torsion _)
    have hr1 := double_reduced hR1
    unfold Point.mulLoop
    rw [if_pos hi1, hi2, hR1]
    have b3 := and_pow_ne_zero_iff (3 * e) (j + 1)
    have b1 := and_pow_ne_zero_iff e (j + 1)
    rw [← hA] at b3
    rw [← hB] at b1
    rw [← two_nsmul, ← mul_nsmul] at hD1
    simp only [bind, Except.bind]
    by_cases a3 : A % 2 = 1 <;> by_cases a1 : B % 2 = 1
    · have c3 := b3.2 a3
      have c1 := b1.2 a1
      simp only [c3, c1, not_true_eq_false, ne_eq, not_false_eq_true, and_true, and_false, if_false]
      refine ih fuel R1 (by omega) ?_ hr1
      have : (A / 2 - B / 2) * 2 = A - B := by omega
      rw [this] at hD1; exact hD1
    · have c3 := b3.2 a3
      have c1 : e &&& 2 ^ (j + 1) = 0 := by by_contra hc; exact a1 (b1.1 hc)
      obtain ⟨R2, hR2, hD2⟩ := add_denotes secp_regular hD1 hP
      simp only [c3, c1, not_true_eq_false, ne_eq, not_false_eq_true, and_true, if_true, hR2,
        and_false, if_false]
      refine ih fuel R2 (by omega) ?_ (add_reduced hR2 hr1 fun _ => hPr)
      have : (A - B) • Q = ((A / 2 - B / 2) * 2) • Q + Q := by
        rw [← succ_nsmul]; congr 1; omega
      rw [this]; exact hD2
    · have c3 : 3 * e &&& 2 ^ (j + 1) = 0 := by by_contra hc; exact a3 (b3.1 hc)
      have c1 := b1.2 a1
      obtain ⟨R2, hR2, hD2⟩ := add_denotes secp_regular hD1 hN
      simp only [c3, c1, not_true_eq_false, ne_eq, not_false_eq_true, and_true, and_false, if_true, if_false, hR2]
      refine ih fuel R2 (by omega) ?_ (add_reduced hR2 hr1 ?_)
      · have : (A - B) • Q = ((A / 2 - B / 2) * 2) • Q + -Q := by
          have : (A / 2 - B / 2) * 2 = (A - B) + 1 := by omega
          rw [this, succ_nsmul]; abel
        rw [this]; exact hD2
      · rintro rfl
        exfalso
        have hodd : secpN % 2 = 1 := by decide
        exact smul_ne_zero_secp hQ (k := (A / 2 - B / 2) * 2) (by omega) (by omega) (denotes_infinity hD1)
    · have c3 : 3 * e &&& 2 ^ (j + 1) = 0 := by by_contra hc; exact a3 (b3.1 hc)
      have c1 : e &&& 2 ^ (j + 1) = 0 := by by_contra hc; exact a1 (b1.1 hc)
      simp only [c3, c1, not_true_eq_false, ne_eq, and_false, if_false, false_and]
      refine ih fuel R1 (by omega) ?_ hr1
      have : (A / 2 - B / 2) * 2 = A - B := by omega
      rw [this] at hD1; exact hD1

/-- On secp256k1, the product of a point with reduced coordinates by `0 ≤ e < n` has reduced coordinates. -/
theorem secp_mul_reduced {P R : Point} {Q : SecpGroup} (hP : Denotes secp P Q) (hr : YReduced secp P) (e : Int)
    (he : 0 ≤ effective P e) (hen : effective P e < secpN) (h : Point.mul secp P e = .ok R) : YReduced secp R := by
  have hmul : Point.mul secp P e =
      if effective P e = 0 then .ok .infinity
      else match P with
        | .infinity => .ok .infinity
        | .affine x y o =>
          if effective P e > 0 then
            match Point.make secp x (-y) o with
            | .error err => .error err
            | .ok negSelf =>
              Point.mulLoop secp P negSelf (effective P e).toNat (3 * (effective P e).toNat)
                (Point.leftmostBit (3 * (effective P e).toNat) / 2)
                (Point.leftmostBit (3 * (effective P e).toNat) / 2) P
          else .error .assertionError := by
    cases P <;> rfl
  rw [hmul] at h
  by_cases h0 : effective P e = 0
  · rw [if_pos h0] at h; cases h; trivial
  · rw [if_neg h0] at h
    cases P with
    | infinity => cases h; trivial
    | affine x y o =>
      simp only at h
      have hQ : Q ≠ 0 := by cases hP; exact Point.some_ne_zero _
      rw [if_pos (by omega)] at h
      obtain ⟨hm, hN⟩ := neg_denotes secp_regular hP o
      rw [hm] at h
      simp only at h
      generalize hE : (effective (.affine x y o) e).toNat = E at h
      have hE0 : 0 < E := by omega
      rw [leftmostBit_eq _ (by omega)] at h
      have hlog : 1 ≤ Nat.log 2 (3 * E) := Nat.log_pos (by norm_num) (by omega)
      obtain ⟨j, hj⟩ : ∃ j, Nat.log 2 (3 * E) = j + 1 := ⟨Nat.log 2 (3 * E) - 1, by omega⟩
      have hi2 : 2 ^ (j + 1) / 2 = 2 ^ j := by rw [pow_succ]; omega
      rw [hj, hi2] at h
      have l1 : 2 ^ (j + 1) ≤ 3 * E := by rw [← hj]; exact Nat.pow_log_le_self 2 (by omega)
      have l2 : 3 * E < 2 ^ (j + 1) * 2 := by
        rw [← hj, ← pow_succ]; exact Nat.lt_pow_succ_log_self (by norm_num) _
      have d3 : 3 * E / 2 ^ (j + 1) = 1 := by
        apply Nat.div_eq_of_lt_le <;> omega
      have d1 : E / 2 ^ (j + 1) = 0 := Nat.div_eq_of_lt (by omega)
      obtain ⟨R', hR', hred⟩ := mulLoop_reduced hQ hP hN hr E (by omega) j _ _ (Nat.lt_two_pow_self).le
        (by rw [d3, d1]; simpa using hP) hr
      rw [hR'] at h
      cases h
      exact hred

theorem effective_secpG (e : Int) : effective secpG e = e % (secpN : Int) := by
  rfl

theorem G_reduced (o : Option Nat) : YReduced secp (.affine secpGx secpGy o) := ⟨by decide, by decide⟩

/-- `d·G` for `1 ≤ d < n`: computed without failure, with reduced coordinates. -/
theorem mul_G (d : Int) (h1 : 1 ≤ d) (h2 : d < secpN) : ∃ x y o, Point.mul secp secpG d = .ok (.affine x y o) ∧
    0 ≤ x ∧ x < secp.p ∧ 0 ≤ y ∧ y < secp.p ∧ Denotes secp (.affine x y o) (d.toNat • G) := by
  have he : effective secpG d = d := by rw [effective_secpG, Int.emod_eq_of_lt (by omega) h2]
  obtain ⟨R, hR, hD⟩ := secp_mul (denotes_G (some secpN)) d (by
    show 0 ≤ effective secpG d; rw [he]; omega)
  change Denotes secp R ((effective secpG d).toNat • G) at hD
  change Point.mul secp secpG d = .ok R at hR
  rw [he] at hD
  have hne : d.toNat • G ≠ 0 := by
    intro h
    have := addOrderOf_dvd_of_nsmul_eq_zero h
    rw [addOrderOf_G] at this
    have := Nat.le_of_dvd (by omega) this
    omega
  cases R with
  | infinity => exact absurd (denotes_infinity hD) hne
  | affine x y o =>
    have hx : 0 ≤ x ∧ x < secp.p := by
      generalize d.toNat • G = T at hD
      cases hD; constructor <;> assumption
    refine ⟨x, y, o, hR, hx.1, hx.2, ?_⟩
    suffices h : YReduced secp (.affine x y o) from ⟨h.1, h.2, hD⟩
    exact secp_mul_reduced (denotes_G (some secpN)) (G_reduced _) d (by
      show 0 ≤ effective secpG d; rw [he]; omega) (by show effective secpG d < _; rw [he]; omega) hR

end Bitforge
