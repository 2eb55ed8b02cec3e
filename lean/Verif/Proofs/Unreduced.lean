import Verif.Proofs.Ecdsa

/-! # Points of secp256k1 whose abscissa is not in `[0, p)`

`Point` accepts any integers that satisfy the equation modulo `p`.  Its operations compare abscissas as integers, so a
point given with another representative of its abscissa behaves like the usual one except where it meets itself. -/

namespace Bitforge.Unreduced
open Spec WeierstrassCurve.Affine

/-- The representative of a residue in `[0, p)`. -/
def red (x : Int) : Int := x % (secp.p : Int)

theorem red_cast (x : Int) : ((red x : Int) : ZMod secp.p) = (x : ZMod secp.p) := ZMod.intCast_mod x secp.p

theorem red_reduced (x : Int) : reduced (red x) := by
  rw [reduced_iff]
  exact ⟨Int.emod_nonneg _ (by decide), Int.emod_lt_of_pos _ (by decide)⟩

theorem red_eq {x : Int} (h : reduced x) : red x = x := by
  rw [reduced_iff] at h
  exact Int.emod_eq_of_lt h.1 h.2

theorem isPoint_red {x y : Int} {Q : SecpGroup} : IsPoint (red x) y Q ↔ IsPoint x y Q := by
  unfold IsPoint
  rw [red_cast]

theorem emod_congr {a b : Int} (h : (a : ZMod secp.p) = (b : ZMod secp.p)) : a % (secp.p : Int) = b % (secp.p : Int) :=
  (ZMod.intCast_eq_intCast_iff' a b secp.p).1 h

/-- Doubling depends on the abscissa modulo `p` only. -/
theorem double_red (x y : Int) (o o' : Option Nat) :
    Point.double secp (.affine x y o) = Point.double secp (.affine (red x) y o') := by
  simp only [Point.double]
  cases inverseMod (2 * y) secp.p with
  | error e => rfl
  | ok inv =>
    simp only
    have h1 : ((3 * x * x + secp.a) * inv) % (secp.p : Int) = ((3 * red x * red x + secp.a) * inv) % (secp.p : Int) :=
      emod_congr (by push_cast [red_cast]; ring)
    rw [h1]
    generalize ((3 * red x * red x + secp.a) * inv) % (secp.p : Int) = l
    have h2 : (l * l - 2 * x) % (secp.p : Int) = (l * l - 2 * red x) % (secp.p : Int) :=
      emod_congr (by push_cast [red_cast]; ring)
    rw [h2]
    generalize (l * l - 2 * red x) % (secp.p : Int) = x3
    have h3 : (l * (x - x3) - y) % (secp.p : Int) = (l * (red x - x3) - y) % (secp.p : Int) :=
      emod_congr (by push_cast [red_cast]; ring)
    rw [h3]

theorem inverseMod_red {a b : Int} (h : (a : ZMod secp.p) = (b : ZMod secp.p)) : inverseMod a secp.p = inverseMod b secp.p := by
  by_cases h0 : (a : ZMod secp.p) = 0
  · rw [inverseMod_zero a h0, inverseMod_zero b (h ▸ h0)]
  · have hp : 0 < secp.p := by decide
    obtain ⟨x, hx, x1, x2, -⟩ := (inverseMod_spec a secp.p hp).1 ((gcd_eq_one_iff a).2 h0)
    obtain ⟨y, hy, y1, y2, -⟩ := (inverseMod_spec b secp.p hp).1 ((gcd_eq_one_iff b).2 (h ▸ h0))
    obtain ⟨x', hx', ex⟩ := inverseMod_field (c := secp) a h0
    obtain ⟨y', hy', ey⟩ := inverseMod_field (c := secp) b (h ▸ h0)
    rw [hx] at hx'; cases hx'
    rw [hy] at hy'; cases hy'
    have e : (x : ZMod secp.p) = (y : ZMod secp.p) := by rw [ex, ey, h]
    have nz : ∀ v : Int, 1 ≤ v → v ≤ secp.p → (v : ZMod secp.p) ≠ 0 → v < secp.p := by
      intro v h1 h2 h3
      rcases lt_or_eq_of_le h2 with h | h
      · exact h
      · rw [h] at h3; simp at h3
    have ne : ((a : ZMod secp.p))⁻¹ ≠ 0 := inv_ne_zero h0
    rw [hx, hy, reduced_inj (c := secp) (by omega) (nz x x1 x2 (ex ▸ ne)) (by omega)
      (nz y y1 y2 (by rw [ey, ← h]; exact ne)) e]

/-- Adding a point given with another representative of its abscissa: AssertionError if it meets itself or its
opposite, else as usual. -/
theorem add_red {R : Point} {T Q : SecpGroup} {x y : Int} {o o' : Option Nat} (hR : Denotes secp R T) (hT : T ≠ 0)
    (hx : ¬ reduced x) (hQ : IsPoint x y Q) :
    ((T = Q ∨ T = -Q) → Point.add secp R (.affine x y o) = .error .assertionError) ∧
    (¬ (T = Q ∨ T = -Q) → Point.add secp R (.affine x y o) = Point.add secp R (.affine (red x) y o')) := by
  rcases denotes_cases hR with ⟨-, h0⟩ | ⟨x1, y1, o1, rfl, hx1, hp⟩
  · exact absurd h0 hT
  have hne : x1 ≠ x := by rintro rfl; exact hx hx1
  have key : (T = Q ∨ T = -Q) ↔ x1 = red x := by
    constructor
    · intro h
      have hr := isPoint_red.2 hQ
      rcases h with rfl | rfl
      · exact isPoint_x_unique hp hr hx1 (red_reduced x)
      · obtain ⟨_, hD⟩ := neg_denotes secp_regular (isPoint_denotes hr (red_reduced x) none) none
        exact isPoint_x_unique hp (denotes_isPoint hD) hx1 (red_reduced x)
    · rintro rfl
      exact isPoint_pm (isPoint_red.2 hQ) hp
  rw [key]
  constructor
  · intro h
    have h0 : ((x - x1 : Int) : ZMod secp.p) = 0 := by push_cast; rw [h, red_cast, sub_self]
    simp only [Point.add]
    rw [if_neg hne, inverseMod_zero _ h0]
  · intro h
    simp only [Point.add]
    rw [if_neg hne, if_neg h, inverseMod_red (a := x - x1) (b := red x - x1) (by push_cast [red_cast]; ring)]
    cases inverseMod (red x - x1) secp.p with
    | error e => rfl
    | ok inv =>
      simp only
      generalize ((y - y1) * inv) % (secp.p : Int) = l
      have h2 : (l * l - x1 - x) % (secp.p : Int) = (l * l - x1 - red x) % (secp.p : Int) :=
        emod_congr (by push_cast [red_cast]; ring)
      rw [h2]

/-- The same with the point on the left. -/
theorem red_add {R : Point} {T Q : SecpGroup} {x y : Int} {o o' : Option Nat} (hR : Denotes secp R T) (hT : T ≠ 0)
    (hx : ¬ reduced x) (hQ : IsPoint x y Q) :
    ((T = Q ∨ T = -Q) → Point.add secp (.affine x y o) R = .error .assertionError) ∧
    (¬ (T = Q ∨ T = -Q) → Point.add secp (.affine x y o) R = Point.add secp (.affine (red x) y o') R) := by
  rcases denotes_cases hR with ⟨-, h0⟩ | ⟨x1, y1, o1, rfl, hx1, hp⟩
  · exact absurd h0 hT
  have hne : x ≠ x1 := by rintro rfl; exact hx hx1
  have key : (T = Q ∨ T = -Q) ↔ x1 = red x := by
    constructor
    · intro h
      have hr := isPoint_red.2 hQ
      rcases h with rfl | rfl
      · exact isPoint_x_unique hp hr hx1 (red_reduced x)
      · obtain ⟨_, hD⟩ := neg_denotes secp_regular (isPoint_denotes hr (red_reduced x) none) none
        exact isPoint_x_unique hp (denotes_isPoint hD) hx1 (red_reduced x)
    · rintro rfl
      exact isPoint_pm (isPoint_red.2 hQ) hp
  rw [key]
  constructor
  · intro h
    have h0 : ((x1 - x : Int) : ZMod secp.p) = 0 := by push_cast; rw [h, red_cast, sub_self]
    simp only [Point.add]
    rw [if_neg hne, inverseMod_zero _ h0]
  · intro h
    simp only [Point.add]
    rw [if_neg hne, if_neg (Ne.symm h), inverseMod_red (a := x1 - x) (b := x1 - red x) (by push_cast [red_cast]; ring)]
    cases inverseMod (x1 - red x) secp.p with
    | error e => rfl
    | ok inv =>
      simp only
      generalize ((y1 - y) * inv) % (secp.p : Int) = l
      have h2 : (l * l - x - x1) % (secp.p : Int) = (l * l - red x - x1) % (secp.p : Int) :=
        emod_congr (by push_cast [red_cast]; ring)
      rw [h2]
      generalize (l * l - red x - x1) % (secp.p : Int) = x3
      have h3 : (l * (x - x3) - y) % (secp.p : Int) = (l * (red x - x3) - y) % (secp.p : Int) :=
        emod_congr (by push_cast [red_cast]; ring)
      rw [h3]

/-- Multiples that meet the point or its opposite. -/
theorem smul_pm {Q : SecpGroup} (hQ : Q ≠ 0) {m : Nat} : (m • Q = Q ∨ m • Q = -Q) ↔ secpN ∣ m + 1 ∨ (secpN : Int) ∣ (m : Int) - 1 := by
  have e1 : m • Q = -Q ↔ secpN ∣ m + 1 := by
    rw [eq_neg_iff_add_eq_zero, ← succ_nsmul, ← addOrderOf_dvd_iff_nsmul_eq_zero, addOrderOf_secp hQ]
  have e2 : m • Q = Q ↔ (secpN : Int) ∣ (m : Int) - 1 := by
    rw [← addOrderOf_secp hQ, addOrderOf_dvd_iff_zsmul_eq_zero, sub_zsmul, one_zsmul, natCast_zsmul,
      ← sub_eq_add_neg, sub_eq_zero]
  rw [e1, e2, or_comm]

theorem half_bound (e j : Nat) : 3 * e / 2 ^ (j + 1 + 1) - e / 2 ^ (j + 1 + 1) ≤ e / 2 + 1 := by
  have h4 : 4 ≤ 2 ^ (j + 1 + 1) := by
    have := Nat.pow_le_pow_right (n := 2) (by norm_num) (show 2 ≤ j + 1 + 1 by omega)
    omega
  generalize 2 ^ (j + 1 + 1) = q at h4
  have a1 := Nat.div_mul_le_self (3 * e) q
  have a2 := Nat.lt_div_mul_add (a := e) (b := q) (by omega)
  by_contra hc
  have : (e / 2 + 2 + e / q) * q ≤ 3 * e / q * q := Nat.mul_le_mul_right _ (by omega)
  have h3 : (e / 2 + 1) * 4 ≤ (e / 2 + 1) * q := Nat.mul_le_mul_left _ h4
  have h5 : (e / 2 + 2 + e / q) * q = (e / 2 + 1) * q + q + e / q * q := by ring
  omega

theorem dvd_small {m : Nat} (h : secpN ∣ m) (h1 : m < 2 * secpN) : m = 0 ∨ m = secpN := by
  obtain ⟨k, rfl⟩ := h
  have : k < 2 := by
    by_contra hc
    have := Nat.mul_le_mul_left secpN (show 2 ≤ k by omega)
    omega
  interval_cases k
  · left; simp
  · right; simp

theorem mulLoop_red {x y : Int} {o : Option Nat} {Q : SecpGroup} (hx : ¬ reduced x) (hQ : IsPoint x y Q)
    (hQ' : IsPoint x (-y) (-Q)) (e : Nat) (he0 : 0 < e) (hen : e < secpN) :
    ∀ j fuel R, j ≤ fuel → 0 < 3 * e / 2 ^ (j + 1) - e / 2 ^ (j + 1) →
      Denotes secp R ((3 * e / 2 ^ (j + 1) - e / 2 ^ (j + 1)) • Q) →
      Point.mulLoop secp (.affine x y o) (.affine x (-y) o) e (3 * e) fuel (2 ^ j) R =
        if e = secpN - 2 ∧ 1 ≤ j then .error .assertionError
        else Point.mulLoop secp (.affine (red x) y o) (.affine (red x) (-y) o) e (3 * e) fuel (2 ^ j) R := by
  have hQ0 := isPoint_ne_zero hQ
  have hP := isPoint_denotes (isPoint_red.2 hQ) (red_reduced x) o
  have hN := isPoint_denotes (isPoint_red.2 hQ') (red_reduced x) o
  have hodd : secpN % 2 = 1 := by decide
  have hbig : 1000 < secpN := by decide
  intro j
  induction j with
  | zero =>
    intro fuel R _ _ hR
    rw [if_neg (by omega)]
    cases fuel <;> simp [Point.mulLoop]
  | succ j ih =>
    intro fuel R hf hpos hR
    obtain ⟨fuel, rfl⟩ : ∃ f, fuel = f + 1 := ⟨fuel - 1, by omega⟩
    have hi1 : 2 ^ (j + 1) > 1 := Nat.one_lt_two_pow (by omega)
    have hi2 : 2 ^ (j + 1) / 2 = 2 ^ j := by rw [pow_succ]; omega
    have d3 : 3 * e / 2 ^ (j + 1 + 1) = 3 * e / 2 ^ (j + 1) / 2 := by
      rw [pow_succ, Nat.div_div_eq_div_mul]
    have d1 : e / 2 ^ (j + 1 + 1) = e / 2 ^ (j + 1) / 2 := by
      rw [pow_succ, Nat.div_div_eq_div_mul]
    rw [d3, d1] at hR hpos
    have hle : e / 2 ^ (j + 1) ≤ 3 * e / 2 ^ (j + 1) := Nat.div_le_div_right (by omega)
    have hD0 : j = 0 → 3 * e / 2 ^ (j + 1) - e / 2 ^ (j + 1) = e := by
      rintro rfl; rw [zero_add, pow_one]; omega
    have hD1 : j ≠ 0 → 3 * e / 2 ^ (j + 1) - e / 2 ^ (j + 1) ≤ e / 2 + 1 := by
      intro h
      obtain ⟨i, rfl⟩ := Nat.exists_eq_succ_of_ne_zero h
      exact half_bound e i
    have hcond : j = 0 → (e = secpN - 2 → 3 * e / 2 ^ (j + 1) % 2 = 0 ∧ e / 2 ^ (j + 1) % 2 = 1) := by
      rintro rfl rfl; decide
    set A := 3 * e / 2 ^ (j + 1) with hA
    set B := e / 2 ^ (j + 1) with hB
    obtain ⟨R1, hR1, hD⟩ := double_denotes secp_regular hR (secp_no_two_torsion _)
    unfold Point.mulLoop
    rw [if_pos hi1, if_pos hi1, hi2, hR1]
    have b3 := and_pow_ne_zero_iff (3 * e) (j + 1)
    have b1 := and_pow_ne_zero_iff e (j + 1)
    rw [← hA] at b3
    rw [← hB] at b1
    rw [← two_nsmul, ← mul_nsmul] at hD
    simp only [bind, Except.bind]
    have next : ∀ R2, Denotes secp R2 ((A - B) • Q) → ¬ (e = secpN - 2 ∧ j = 0) →
        Point.mulLoop secp (.affine x y o) (.affine x (-y) o) e (3 * e) fuel (2 ^ j) R2 =
        if e = secpN - 2 ∧ 1 ≤ j + 1 then .error .assertionError
        else Point.mulLoop secp (.affine (red x) y o) (.affine (red x) (-y) o) e (3 * e) fuel (2 ^ j) R2 := by
      intro R2 h2 hne
      rw [ih fuel R2 (by omega) (by omega) h2]
      by_cases h : e = secpN - 2
      · rw [if_pos ⟨h, by omega⟩, if_pos ⟨h, by omega⟩]
      · rw [if_neg (fun c => h c.1), if_neg (fun c => h c.1)]
    by_cases a3 : A % 2 = 1 <;> by_cases a1 : B % 2 = 1
    · have c3 := b3.2 a3
      have c1 := b1.2 a1
      simp only [c3, c1, ne_eq, not_false_eq_true, and_true, and_false, if_false]
      refine next R1 ?_ ?_
      · have : (A / 2 - B / 2) * 2 = A - B := by omega
        rw [this] at hD; exact hD
      · rintro ⟨h, hj⟩
        have := hcond hj h; omega
    · have c3 := b3.2 a3
      have c1 : e &&& 2 ^ (j + 1) = 0 := by by_contra hc; exact a1 (b1.1 hc)
      have hne : ¬ (e = secpN - 2 ∧ j = 0) := by
        rintro ⟨h, hj⟩
        have := hcond hj h; omega
      · have hz' : ((A / 2 - B / 2) * 2) • Q ≠ 0 := by
          refine smul_ne_zero_secp hQ0 (by omega) ?_
          by_cases hj : j = 0
          · have := hD0 hj; omega
          · have := hD1 hj; omega
        obtain ⟨R2, hR2, hD2⟩ := add_denotes secp_regular hD hP
        have hadd := (add_red (o := o) (o' := o) hD hz' hx hQ).2 (by
          rw [smul_pm hQ0]
          rintro (h | h)
          · have : (A / 2 - B / 2) * 2 + 1 = A - B := by omega
            rw [this] at h
            rcases dvd_small h (by by_cases hj : j = 0 <;> [have := hD0 hj; have := hD1 hj] <;> omega) with h | h
            · omega
            · by_cases hj : j = 0 <;> [have := hD0 hj; have := hD1 hj] <;> omega
          · have h' : secpN ∣ (A / 2 - B / 2) * 2 - 1 := by
              rw [← Int.natCast_dvd_natCast]
              rwa [Nat.cast_sub (by omega), Nat.cast_one]
            rcases dvd_small h' (by by_cases hj : j = 0 <;> [have := hD0 hj; have := hD1 hj] <;> omega) with h | h
            · omega
            · by_cases hj : j = 0 <;> [have := hD0 hj; have := hD1 hj] <;> omega)
        rw [hR2] at hadd
        simp only [c3, c1, not_true_eq_false, ne_eq, not_false_eq_true, and_true, if_true, hR2, hadd,
          and_false, if_false]
        refine next R2 ?_ hne
        have : (A - B) • Q = ((A / 2 - B / 2) * 2) • Q + Q := by
          rw [← succ_nsmul]; congr 1; omega
        rw [this]; exact hD2
    · have c3 : 3 * e &&& 2 ^ (j + 1) = 0 := by by_contra hc; exact a3 (b3.1 hc)
      have c1 := b1.2 a1
      have hm : (A / 2 - B / 2) * 2 = (A - B) + 1 := by omega
      have hz' : ((A / 2 - B / 2) * 2) • Q ≠ 0 := by
        refine smul_ne_zero_secp hQ0 (by omega) ?_
        by_cases hj : j = 0
        · have := hD0 hj; omega
        · have := hD1 hj; omega
      obtain ⟨R2, hR2, hD2⟩ := add_denotes secp_regular hD hN
      have hadd := add_red (o := o) (o' := o) hD hz' hx hQ'
      have hpm : (((A / 2 - B / 2) * 2) • Q = -Q ∨ ((A / 2 - B / 2) * 2) • Q = - -Q) ↔ (e = secpN - 2 ∧ j = 0) := by
        rw [neg_neg, or_comm, smul_pm hQ0, hm]
        constructor
        · rintro (h | h)
          · rcases dvd_small h (by by_cases hj : j = 0 <;> [have := hD0 hj; have := hD1 hj] <;> omega) with h | h
            · omega
            · by_cases hj : j = 0
              · have := hD0 hj; exact ⟨by omega, hj⟩
              · have := hD1 hj; omega
          · have h' : secpN ∣ A - B := by
              rw [← Int.natCast_dvd_natCast]
              have : ((A - B + 1 : Nat) : Int) - 1 = ((A - B : Nat) : Int) := by push_cast; ring
              rwa [this] at h
            rcases dvd_small h' (by by_cases hj : j = 0 <;> [have := hD0 hj; have := hD1 hj] <;> omega) with h | h
            · by_cases hj : j = 0
              · have := hD0 hj; omega
              · omega
            · by_cases hj : j = 0 <;> [have := hD0 hj; have := hD1 hj] <;> omega
        · rintro ⟨h, hj⟩
          left
          have := hD0 hj
          rw [this, h]
          exact ⟨1, by omega⟩
      by_cases hc : e = secpN - 2 ∧ j = 0
      · have := hadd.1 (hpm.2 hc)
        simp only [c3, c1, not_true_eq_false, ne_eq, not_false_eq_true, and_true, and_false, if_true, if_false, this]
        rw [if_pos ⟨hc.1, by omega⟩]
      · have := hadd.2 (fun h => hc (hpm.1 h))
        rw [hR2] at this
        simp only [c3, c1, not_true_eq_false, ne_eq, not_false_eq_true, and_true, and_false, if_true, if_false, hR2, this]
        refine next R2 ?_ hc
        have : (A - B) • Q = ((A / 2 - B / 2) * 2) • Q + -Q := by
          rw [hm, succ_nsmul]; abel
        rw [this]; exact hD2
    · have c3 : 3 * e &&& 2 ^ (j + 1) = 0 := by by_contra hc; exact a3 (b3.1 hc)
      have c1 : e &&& 2 ^ (j + 1) = 0 := by by_contra hc; exact a1 (b1.1 hc)
      simp only [c3, c1, not_true_eq_false, ne_eq, and_false, if_false, false_and]
      refine next R1 ?_ ?_
      · have : (A / 2 - B / 2) * 2 = A - B := by omega
        rw [this] at hD; exact hD
      · rintro ⟨h, hj⟩
        have := hcond hj h; omega

theorem mul_eq (x y : Int) (e : Int) : Point.mul secp (.affine x y (some secpN)) e =
    if e % (secpN : Int) = 0 then .ok .infinity
    else if e % (secpN : Int) > 0 then
      match Point.make secp x (-y) (some secpN) with
      | .error err => .error err
      | .ok negSelf =>
        Point.mulLoop secp (.affine x y (some secpN)) negSelf (e % (secpN : Int)).toNat (3 * (e % (secpN : Int)).toNat)
          (Point.leftmostBit (3 * (e % (secpN : Int)).toNat) / 2)
          (Point.leftmostBit (3 * (e % (secpN : Int)).toNat) / 2) (.affine x y (some secpN))
    else .error .assertionError := rfl

theorem isPoint_opp {x y : Int} {Q : SecpGroup} (h : IsPoint x y Q) : IsPoint x (-y) (-Q) := by
  have h := isPoint_red.2 h
  obtain ⟨_, hD⟩ := neg_denotes secp_regular (isPoint_denotes h (red_reduced x) none) none
  exact isPoint_red.1 (denotes_isPoint hD)

/-- The first round doubles, which gives the same point for every representative. -/
theorem first_round (x y : Int) (o : Option Nat) (P N : Point) (e e3 fuel i : Nat) (hi : 1 < i) (hf : 0 < fuel) :
    Point.mulLoop secp P N e e3 fuel i (.affine x y o) = Point.mulLoop secp P N e e3 fuel i (.affine (red x) y o) := by
  obtain ⟨f, rfl⟩ : ∃ f, fuel = f + 1 := ⟨fuel - 1, by omega⟩
  unfold Point.mulLoop
  rw [if_pos hi, if_pos hi, double_red x y o o]

/-- The product of a point given with another representative of its abscissa. -/
theorem mul_red {x y : Int} {Q : SecpGroup} (hx : ¬ reduced x) (hQ : IsPoint x y Q) (e : Int) :
    Point.mul secp (.affine x y (some secpN)) e =
      if e % (secpN : Int) = 1 then .ok (.affine x y (some secpN))
      else if (e + 2) % (secpN : Int) = 0 then .error .assertionError
      else Point.mul secp (.affine (red x) y (some secpN)) e := by
  have hN := secpN_pos
  have hbig : 1000 < secpN := by decide
  have r0 : 0 ≤ e % (secpN : Int) := Int.emod_nonneg _ (by omega)
  have r1 : e % (secpN : Int) < secpN := Int.emod_lt_of_pos _ hN
  have h2 : (e + 2) % (secpN : Int) = 0 ↔ e % (secpN : Int) = secpN - 2 := by
    rw [Int.add_emod]
    have : (2 : Int) % (secpN : Int) = 2 := Int.emod_eq_of_lt (by omega) (by omega)
    rw [this]
    constructor
    · intro h
      obtain ⟨k, hk⟩ := Int.dvd_of_emod_eq_zero h
      have k1 : k = 1 := by
        have : 0 < k := by by_contra hc; have := Int.mul_le_mul_of_nonneg_left (show k ≤ 0 by omega) (le_of_lt hN); omega
        have : k < 2 := by by_contra hc; have := Int.mul_le_mul_of_nonneg_left (show 2 ≤ k by omega) (le_of_lt hN); omega
        omega
      rw [k1] at hk; omega
    · intro h
      rw [h, sub_add_cancel, Int.emod_self]
  rw [mul_eq, mul_eq, isPoint_make (isPoint_opp hQ), isPoint_make (isPoint_opp (isPoint_red.2 hQ))]
  simp only [h2]
  generalize hE' : e % (secpN : Int) = E' at r0 r1
  obtain ⟨E, rfl⟩ := Int.eq_ofNat_of_zero_le r0
  by_cases hE0 : E = 0
  · subst hE0
    rw [if_pos (by simp), if_neg (by simp), if_neg (by omega), if_pos (by simp)]
  rw [if_neg (by omega), if_pos (by omega), Int.toNat_natCast]
  have rhs : (if (E : Int) = 0 then Except.ok Point.infinity
      else if (E : Int) > 0 then
        Point.mulLoop secp (.affine (red x) y (some secpN)) (.affine (red x) (-y) (some secpN)) E (3 * E)
          (Point.leftmostBit (3 * E) / 2) (Point.leftmostBit (3 * E) / 2) (.affine (red x) y (some secpN))
      else .error .assertionError) =
        Point.mulLoop secp (.affine (red x) y (some secpN)) (.affine (red x) (-y) (some secpN)) E (3 * E)
          (Point.leftmostBit (3 * E) / 2) (Point.leftmostBit (3 * E) / 2) (.affine (red x) y (some secpN)) := by
    rw [if_neg (by omega), if_pos (by omega)]
  rw [rhs, leftmostBit_eq _ (by omega)]
  have hlog : 1 ≤ Nat.log 2 (3 * E) := Nat.log_pos (by norm_num) (by omega)
  obtain ⟨j, hj⟩ : ∃ j, Nat.log 2 (3 * E) = j + 1 := ⟨Nat.log 2 (3 * E) - 1, by omega⟩
  have hi2 : 2 ^ (j + 1) / 2 = 2 ^ j := by rw [pow_succ]; omega
  rw [hj, hi2]
  have l1 : 2 ^ (j + 1) ≤ 3 * E := by rw [← hj]; exact Nat.pow_log_le_self 2 (by omega)
  have l2 : 3 * E < 2 ^ (j + 1) * 2 := by
    rw [← hj, ← pow_succ]; exact Nat.lt_pow_succ_log_self (by norm_num) _
  have d3 : 3 * E / 2 ^ (j + 1) = 1 := by
    apply Nat.div_eq_of_lt_le <;> omega
  have d1 : E / 2 ^ (j + 1) = 0 := Nat.div_eq_of_lt (by omega)
  by_cases hE1 : E = 1
  · subst hE1
    have : j = 0 := by
      by_contra hc
      have := Nat.pow_le_pow_right (n := 2) (by norm_num) (show 2 ≤ j + 1 by omega)
      omega
    subst this
    rw [if_pos (by simp)]
    simp [Point.mulLoop]
  · have hj0 : 1 ≤ j := by
      by_contra hc
      have : j = 0 := by omega
      subst this
      omega
    have hi : 1 < 2 ^ j := Nat.one_lt_two_pow (by omega)
    rw [if_neg (by omega), first_round _ _ _ _ _ _ _ _ _ hi (by omega),
      mulLoop_red hx hQ (isPoint_opp hQ) E (by omega) (by omega) j _ _ (Nat.lt_two_pow_self).le (by rw [d3, d1]; omega)
        (by rw [d3, d1, tsub_zero, one_nsmul]; exact isPoint_denotes (isPoint_red.2 hQ) (red_reduced x) _)]
    by_cases h : E = secpN - 2
    · rw [if_pos ⟨h, hj0⟩, if_pos (by omega)]
    · rw [if_neg (fun c => h c.1), if_neg (by omega)]

theorem mul_one' {x y : Int} {Q : SecpGroup} (hQ : IsPoint x y Q) (e : Int) (he : e % (secpN : Int) = 1) :
    Point.mul secp (.affine x y (some secpN)) e = .ok (.affine x y (some secpN)) := by
  rw [mul_eq, isPoint_make (isPoint_opp hQ), he, if_neg (by decide), if_pos (by decide)]
  have : Point.leftmostBit (3 * (1 : Int).toNat) / 2 = 1 := by decide
  simp only [this]
  simp [Point.mulLoop]

/-- The square root computed for any representative of an abscissa. -/
theorem sqrt_any (r : Int) :
    (∃ (b : Nat) (T : SecpGroup), modularSqrt (((powMod r 3 secp.p : Int) + secp.a * r + secp.b) % (secp.p : Int)) secp.p = .ok b ∧
      reduced b ∧ reduced ((secp.p : Int) - b) ∧ IsPoint r b T ∧ IsPoint r ((secp.p : Int) - b) (-T)) ∨
    ((∀ y, ¬ secp.containsPoint r y = true) ∧
      modularSqrt (((powMod r 3 secp.p : Int) + secp.a * r + secp.b) % (secp.p : Int)) secp.p = .ok 0) := by
  have e : ((powMod r 3 secp.p : Int) + secp.a * r + secp.b) % (secp.p : Int) =
      ((powMod (red r) 3 secp.p : Int) + secp.a * red r + secp.b) % (secp.p : Int) := by
    have h1 := alpha_cast r
    have h2 := alpha_cast (red r)
    rw [red_cast, ← h1] at h2
    have := emod_congr h2
    rwa [Int.emod_emod_of_dvd _ dvd_rfl, Int.emod_emod_of_dvd _ dvd_rfl, eq_comm] at this
  rw [e]
  rcases sqrt_alpha (red r) (red_reduced r) with ⟨b, T, h1, h2, h3, h4, h5⟩ | ⟨h1, h2⟩
  · exact .inl ⟨b, T, h1, h2, h3, isPoint_red.1 h4, isPoint_red.1 h5⟩
  · refine .inr ⟨fun y hy => h1 y ?_, h2⟩
    rw [secp_contains_iff] at hy ⊢
    rw [red_cast]; exact hy

end Bitforge.Unreduced
