import Verif.Props.Curve
import Verif.Props.CurveObj

/-! # C132: when point arithmetic fails, exactly -/

namespace Bitforge.Points
open Spec WeierstrassCurve.Affine

variable {c : CurveFp} [Fact c.p.Prime]

/-- The element has order two. -/
def OrderTwo (Q : (curve c).Point) : Prop := Q ≠ 0 ∧ 2 • Q = 0

/-- The multiple that is reached after the bits of `3 * m` and `m` from the `t`-th one up were looked at: their difference. -/
def reached (m t : Nat) : Nat := 3 * m / 2 ^ t - m / 2 ^ t

/-- A point of order two is doubled on the way to `m` times `Q`. -/
def Trips (m : Nat) (Q : (curve c).Point) : Prop := ∃ t, 2 ≤ t ∧ OrderTwo (reached m t • Q)

theorem loop_exact (h : Regular c) {P N : Point} {Q : (curve c).Point} (hP : Denotes c P Q) (hN : Denotes c N (-Q)) (e : Nat) :
    ∀ j fuel R, j ≤ fuel → Denotes c R (reached e (j + 1) • Q) →
      ((∀ t, 2 ≤ t → t ≤ j + 1 → ¬ OrderTwo (reached e t • Q)) ∧
        ∃ R', Point.mulLoop c P N e (3 * e) fuel (2 ^ j) R = .ok R' ∧ Denotes c R' (e • Q)) ∨
      ((∃ t, 2 ≤ t ∧ t ≤ j + 1 ∧ OrderTwo (reached e t • Q)) ∧
        Point.mulLoop c P N e (3 * e) fuel (2 ^ j) R = .error .assertionError) := by
  intro j
  induction j with
  | zero =>
    intro fuel R _ hR
    have : reached e (0 + 1) = e := by simp [reached]; omega
    rw [this] at hR
    refine .inl ⟨fun t h1 h2 => by omega, R, ?_, hR⟩
    cases fuel <;> simp [Point.mulLoop]
  | succ j ih =>
    intro fuel R hf hR
    obtain ⟨fuel, rfl⟩ : ∃ f, fuel = f + 1 := ⟨fuel - 1, by omega⟩
    have hi1 : 2 ^ (j + 1) > 1 := Nat.one_lt_two_pow (by omega)
    have hi2 : 2 ^ (j + 1) / 2 = 2 ^ j := by rw [pow_succ]; omega
    have d3 : 3 * e / 2 ^ (j + 1 + 1) = 3 * e / 2 ^ (j + 1) / 2 := by
      rw [pow_succ, Nat.div_div_eq_div_mul]
    have d1 : e / 2 ^ (j + 1 + 1) = e / 2 ^ (j + 1) / 2 := by
      rw [pow_succ, Nat.div_div_eq_div_mul]
    by_cases h2 : OrderTwo (reached e (j + 1 + 1) • Q)
    · right
      refine ⟨⟨_, by omega, le_rfl, h2⟩, ?_⟩
      unfold Point.mulLoop
      rw [if_pos hi1, double_fails h hR (by rw [← two_nsmul]; exact h2.2) h2.1]
      rfl
    have step : ∀ r : Except Err Point, (((∀ t, 2 ≤ t → t ≤ j + 1 → ¬ OrderTwo (reached e t • Q)) ∧
          ∃ R', r = .ok R' ∧ Denotes c R' (e • Q)) ∨
        ((∃ t, 2 ≤ t ∧ t ≤ j + 1 ∧ OrderTwo (reached e t • Q)) ∧ r = .error .assertionError)) →
        (((∀ t, 2 ≤ t → t ≤ j + 1 + 1 → ¬ OrderTwo (reached e t • Q)) ∧
          ∃ R', r = .ok R' ∧ Denotes c R' (e • Q)) ∨
        ((∃ t, 2 ≤ t ∧ t ≤ j + 1 + 1 ∧ OrderTwo (reached e t • Q)) ∧ r = .error .assertionError)) := by
      rintro r (⟨ha, hb⟩ | ⟨⟨t, h3, h4, h5⟩, hb⟩)
      · refine .inl ⟨fun t h3 h4 => ?_, hb⟩
        rcases Nat.lt_or_eq_of_le h4 with h5 | h5
        · exact ha t h3 (by omega)
        · rw [h5]; exact h2
      · exact .inr ⟨⟨t, h3, by omega, h5⟩, hb⟩
    have hne : 2 • (reached e (j + 1 + 1) • Q) = 0 → reached e (j + 1 + 1) • Q = 0 := by
      intro h3
      by_contra h4
      exact h2 ⟨h4, h3⟩
    obtain ⟨R1, hR1, hD1⟩ := double_denotes h hR (by rw [← two_nsmul]; exact hne)
    apply step
    unfold reached at hD1 ih
    rw [d3, d1] at hD1
    have hle : e / 2 ^ (j + 1) ≤ 3 * e / 2 ^ (j + 1) := Nat.div_le_div_right (by omega)
    have b3 := and_pow_ne_zero_iff (3 * e) (j + 1)
    have b1 := and_pow_ne_zero_iff e (j + 1)
    unfold Point.mulLoop
    rw [if_pos hi1, hi2, hR1]
    rw [← two_nsmul, ← mul_nsmul] at hD1
    simp only [bind, Except.bind]
    generalize hA : 3 * e / 2 ^ (j + 1) = A at *
    generalize hB : e / 2 ^ (j + 1) = B at *
    by_cases a3 : A % 2 = 1 <;> by_cases a1 : B % 2 = 1
    · have c3 := b3.2 a3
      have c1 := b1.2 a1
      simp only [c3, c1, ne_eq, not_false_eq_true, and_true, and_false, if_false]
      refine ih fuel R1 (by omega) ?_
      have : (A / 2 - B / 2) * 2 = A - B := by omega
      rw [this] at hD1; exact hD1
    · have c3 := b3.2 a3
      have c1 : e &&& 2 ^ (j + 1) = 0 := by by_contra hc; exact a1 (b1.1 hc)
      obtain ⟨R2, hR2, hD2⟩ := add_denotes h hD1 hP
      simp only [c3, c1, not_true_eq_false, ne_eq, not_false_eq_true, and_true, if_true, hR2,
        and_false, if_false]
      refine ih fuel R2 (by omega) ?_
      have : (A - B) • Q = ((A / 2 - B / 2) * 2) • Q + Q := by
        rw [← succ_nsmul]; congr 1; omega
      rw [this]; exact hD2
    · have c3 : 3 * e &&& 2 ^ (j + 1) = 0 := by by_contra hc; exact a3 (b3.1 hc)
      have c1 := b1.2 a1
      obtain ⟨R2, hR2, hD2⟩ := add_denotes h hD1 hN
      simp only [c3, c1, not_true_eq_false, ne_eq, not_false_eq_true, and_true, and_false, if_true, if_false, hR2]
      refine ih fuel R2 (by omega) ?_
      have : (A - B) • Q = ((A / 2 - B / 2) * 2) • Q + -Q := by
        have : (A / 2 - B / 2) * 2 = (A - B) + 1 := by omega
        rw [this, succ_nsmul]; abel
      rw [this]; exact hD2
    · have c3 : 3 * e &&& 2 ^ (j + 1) = 0 := by by_contra hc; exact a3 (b3.1 hc)
      have c1 : e &&& 2 ^ (j + 1) = 0 := by by_contra hc; exact a1 (b1.1 hc)
      simp only [c3, c1, not_true_eq_false, ne_eq, and_false, if_false, false_and]
      refine ih fuel R1 (by omega) ?_
      have : (A / 2 - B / 2) * 2 = A - B := by omega
      rw [this] at hD1; exact hD1

/-- C132. `P * e` for every integer: it raises AssertionError for a multiplier that is negative (after the reduction by the
declared order) unless `P` is INFINITY, and for one on the way to which a point of order two is doubled, and otherwise
returns the multiple. -/
theorem C132_mul (h : Regular c) (P : Point) (Q : (curve c).Point) (hP : Denotes c P Q) (e : Int) :
    (reducedMultiplier P e < 0 → Q ≠ 0 → P.mul c e = .error .assertionError) ∧
    (reducedMultiplier P e < 0 → Q = 0 → P.mul c e = .ok .infinity) ∧
    (0 ≤ reducedMultiplier P e → Trips (reducedMultiplier P e).toNat Q → P.mul c e = .error .assertionError) ∧
    (0 ≤ reducedMultiplier P e → ¬ Trips (reducedMultiplier P e).toNat Q →
      ∃ R, P.mul c e = .ok R ∧ Denotes c R (reducedMultiplier P e • Q)) := by
  rw [reducedMultiplier_eq]
  have hmul : Point.mul c P e =
      if effective P e = 0 then .ok .infinity
      else match P with
        | .infinity => .ok .infinity
        | .affine x y o =>
          if effective P e > 0 then
            match Point.make c x (-y) o with
            | .error err => .error err
            | .ok negSelf =>
              Point.mulLoop c P negSelf (effective P e).toNat (3 * (effective P e).toNat)
                (Point.leftmostBit (3 * (effective P e).toNat) / 2)
                (Point.leftmostBit (3 * (effective P e).toNat) / 2) P
          else .error .assertionError := by
    cases P <;> rfl
  have far : ∀ m t : Nat, 3 * m < 2 ^ t → reached m t = 0 := by
    intro m t ht
    unfold reached
    rw [Nat.div_eq_of_lt ht, Nat.zero_sub]
  rw [hmul]
  by_cases h0 : effective P e = 0
  · have hz : reached 0 = fun _ => 0 := by funext t; simp [reached]
    refine ⟨fun h => by omega, fun h => by omega, ?_, ?_⟩
    · rintro - ⟨t, -, ht, -⟩
      rw [h0] at ht
      exact absurd (by rw [show (0 : Int).toNat = 0 by rfl, hz, zero_nsmul]) ht
    · intro _ _
      rw [if_pos h0, h0]
      exact ⟨_, rfl, by rw [zero_zsmul]; exact .infinity⟩
  · rw [if_neg h0]
    cases P with
    | infinity =>
      cases hP
      refine ⟨fun _ h => absurd rfl h, fun _ _ => rfl, ?_, fun _ _ => ⟨_, rfl, by rw [zsmul_zero]; exact .infinity⟩⟩
      rintro - ⟨t, -, ht, -⟩
      exact absurd (nsmul_zero _) ht
    | affine x y o =>
      simp only
      by_cases hs : effective (.affine x y o) e > 0
      swap
      · rw [if_neg hs]
        refine ⟨fun _ _ => rfl, fun _ hz => ?_, fun h => by omega, fun h => by omega⟩
        cases hP
        exact absurd hz (Point.some_ne_zero _)
      refine ⟨fun h => by omega, fun h => by omega, ?_⟩
      rw [if_pos hs]
      obtain ⟨hm, hN⟩ := neg_denotes h hP o
      rw [hm]
      simp only
      generalize hE' : effective (.affine x y o) e = E' at *
      obtain ⟨E, rfl⟩ : ∃ E : Nat, E' = E := ⟨E'.toNat, by omega⟩
      rw [Int.toNat_natCast]
      have hE0 : 0 < E := by omega
      rw [leftmostBit_eq _ (by omega)]
      have hlog : 1 ≤ Nat.log 2 (3 * E) := Nat.log_pos (by norm_num) (by omega)
      obtain ⟨j, hj⟩ : ∃ j, Nat.log 2 (3 * E) = j + 1 := ⟨Nat.log 2 (3 * E) - 1, by omega⟩
      have hi2 : 2 ^ (j + 1) / 2 = 2 ^ j := by rw [pow_succ]; omega
      rw [hj, hi2]
      have l1 : 2 ^ (j + 1) ≤ 3 * E := by rw [← hj]; exact Nat.pow_log_le_self 2 (by omega)
      have l2 : 3 * E < 2 ^ (j + 1) * 2 := by
        rw [← hj, ← pow_succ]; exact Nat.lt_pow_succ_log_self (by norm_num) _
      have hr : reached E (j + 1) = 1 := by
        unfold reached
        have d3 : 3 * E / 2 ^ (j + 1) = 1 := by
          apply Nat.div_eq_of_lt_le <;> omega
        have d1 : E / 2 ^ (j + 1) = 0 := Nat.div_eq_of_lt (by omega)
        rw [d3, d1]
      rcases loop_exact h hP hN E j (2 ^ j) _ (Nat.lt_two_pow_self).le (by rw [hr, one_nsmul]; exact hP) with
        ⟨hno, R, hR, hD⟩ | ⟨⟨t, h1, -, h3⟩, he⟩
      · refine ⟨?_, fun _ _ => ⟨R, hR, by rw [natCast_zsmul]; exact hD⟩⟩
        rintro - ⟨t, h1, h2⟩
        rcases Nat.lt_or_ge (j + 1) t with h3 | h3
        · exfalso
          apply h2.1
          rw [far E t (lt_of_lt_of_le l2 (by rw [← pow_succ]; exact Nat.pow_le_pow_right (by norm_num) (by omega))), zero_nsmul]
        · exact absurd h2 (hno t h1 h3)
      · exact ⟨fun _ _ => he, fun _ hn => absurd ⟨t, h1, h3⟩ hn⟩

/-- C132. `double` fails exactly on the points of order two. -/
theorem C132_double (h : Regular c) (P : Point) (Q : (curve c).Point) (hP : Denotes c P Q) :
    (OrderTwo Q → P.double c = .error .assertionError) ∧
    (¬ OrderTwo Q → ∃ R, P.double c = .ok R ∧ Denotes c R (2 • Q)) := by
  constructor
  · rintro ⟨h0, h2⟩
    exact double_fails h hP (by rw [← two_nsmul]; exact h2) h0
  · intro hn
    obtain ⟨R, hR, hD⟩ := double_denotes h hP (fun h2 => by
      by_contra h0
      exact hn ⟨h0, by rw [two_nsmul]; exact h2⟩)
    exact ⟨R, hR, by rw [two_nsmul]; exact hD⟩

/-- C132. The constructor accepts exactly the coordinates of a point, whatever the order; with `0 ≤ x < p` it stands for it. -/
theorem C132_make (h : Regular c) (x y : Int) (o : Option Nat) :
    (Point.make c x y o = .ok (.affine x y o) ↔ (curve c).Nonsingular (x : ZMod c.p) (y : ZMod c.p)) ∧
    (Point.make c x y o = .error .noSuchPointError ↔ ¬ (curve c).Nonsingular (x : ZMod c.p) (y : ZMod c.p)) := by
  rw [← containsPoint_iff_nonsingular h]
  unfold Point.make
  cases c.containsPoint x y <;> simp

/-- C132. The same for `Point` objects that carry their curve: multiplication fails where that of `C132_mul` does. -/
theorem C132_objects (o : CurveObj) [Fact o.curve.p.Prime] (h : Regular o.curve) (P : PointObj) (P' : Point)
    (Q : (curve o.curve).Point) (hs : Stands o P P') (hP : Denotes o.curve P' Q) (e : Int) :
    (P.mul e = .error .assertionError ↔
      reducedMultiplier P' e < 0 ∧ Q ≠ 0 ∨ 0 ≤ reducedMultiplier P' e ∧ Trips (reducedMultiplier P' e).toNat Q) ∧
    (P.double = .error .assertionError ↔ OrderTwo Q) ∧
    (∀ err, P.mul e = .error err ∨ P.double = .error err → err = .assertionError) := by
  obtain ⟨-, hd, hm, -⟩ := C91_operations o P P P' P' hs hs e 0 0 none
  obtain ⟨m1, m2, m3, m4⟩ := C132_mul h P' Q hP e
  obtain ⟨d1, d2⟩ := C132_double h P' Q hP
  have err : ∀ {r : Except Err PointObj} {s : Except Err Point}, Matches o r s → ∀ x, r = .error x ↔ s = .error x := by
    intro r s hr x
    cases r <;> cases s <;> simp_all [Matches]
  have ok : ∀ {r : Except Err PointObj} {s : Except Err Point}, Matches o r s → ∀ R x, s = .ok R → r ≠ .error x := by
    intro r s hr R x hs hx
    rw [(err hr x).1 hx] at hs
    cases hs
  have mc : (∃ R, P'.mul o.curve e = .ok R) ∧ ¬ (reducedMultiplier P' e < 0 ∧ Q ≠ 0 ∨
        0 ≤ reducedMultiplier P' e ∧ Trips (reducedMultiplier P' e).toNat Q) ∨
      P'.mul o.curve e = .error .assertionError ∧ (reducedMultiplier P' e < 0 ∧ Q ≠ 0 ∨
        0 ≤ reducedMultiplier P' e ∧ Trips (reducedMultiplier P' e).toNat Q) := by
    by_cases hneg : reducedMultiplier P' e < 0
    · by_cases h0 : Q = 0
      · exact .inl ⟨⟨_, m2 hneg h0⟩, by rintro (⟨_, h⟩ | ⟨h, _⟩); exacts [h h0, by omega]⟩
      · exact .inr ⟨m1 hneg h0, .inl ⟨hneg, h0⟩⟩
    · have hnn : 0 ≤ reducedMultiplier P' e := not_lt.1 hneg
      by_cases ht : Trips (reducedMultiplier P' e).toNat Q
      · exact .inr ⟨m3 hnn ht, .inr ⟨hnn, ht⟩⟩
      · obtain ⟨R, hR, -⟩ := m4 hnn ht
        exact .inl ⟨⟨R, hR⟩, by rintro (⟨h, _⟩ | ⟨_, h⟩); exacts [hneg h, ht h]⟩
  have dc : (∃ R, P'.double o.curve = .ok R) ∧ ¬ OrderTwo Q ∨ P'.double o.curve = .error .assertionError ∧ OrderTwo Q := by
    by_cases ht : OrderTwo Q
    · exact .inr ⟨d1 ht, ht⟩
    · obtain ⟨R, hR, -⟩ := d2 ht
      exact .inl ⟨⟨R, hR⟩, ht⟩
  rw [err hm, err hd]
  refine ⟨?_, ?_, ?_⟩
  · rcases mc with ⟨⟨R, hR⟩, hn⟩ | ⟨he, hy⟩
    · rw [hR]; exact ⟨fun h => (nomatch h), fun h => absurd h hn⟩
    · exact ⟨fun _ => hy, fun _ => he⟩
  · rcases dc with ⟨⟨R, hR⟩, hn⟩ | ⟨he, hy⟩
    · rw [hR]; exact ⟨fun h => (nomatch h), fun h => absurd h hn⟩
    · exact ⟨fun _ => hy, fun _ => he⟩
  · rintro x (hx | hx)
    · rw [err hm] at hx
      rcases mc with ⟨⟨R, hR⟩, -⟩ | ⟨he, -⟩
      · rw [hR] at hx; cases hx
      · rw [he] at hx; cases hx; rfl
    · rw [err hd] at hx
      rcases dc with ⟨⟨R, hR⟩, -⟩ | ⟨he, -⟩
      · rw [hR] at hx; cases hx
      · rw [he] at hx; cases hx; rfl

/-- C132. Which multiples of a point of order two fail: those for which the bits that were looked at ever give an odd number
before the last one. -/
theorem C132_order_two (h : Regular c) (P : Point) (Q : (curve c).Point) (hP : Denotes c P Q) (h2 : OrderTwo Q) (e : Int)
    (he : 0 ≤ reducedMultiplier P e) :
    P.mul c e = .error .assertionError ↔ ∃ t, 2 ≤ t ∧ reached (reducedMultiplier P e).toNat t % 2 = 1 := by
  have odd : ∀ k : Nat, OrderTwo (k • Q) ↔ k % 2 = 1 := by
    intro k
    have hk : k • Q = (k % 2) • Q := by
      conv_lhs => rw [← Nat.div_add_mod k 2, add_nsmul, mul_nsmul, h2.2, nsmul_zero, zero_add]
    rw [hk]
    rcases Nat.mod_two_eq_zero_or_one k with h0 | h0
    · rw [h0, zero_nsmul]
      exact ⟨fun h => absurd rfl h.1, fun h => by omega⟩
    · rw [h0, one_nsmul]
      exact ⟨fun _ => rfl, fun _ => h2⟩
  obtain ⟨-, -, m3, m4⟩ := C132_mul h P Q hP e
  have ht : Trips (reducedMultiplier P e).toNat Q ↔ ∃ t, 2 ≤ t ∧ reached (reducedMultiplier P e).toNat t % 2 = 1 := by
    unfold Trips
    simp only [odd]
  rw [← ht]
  constructor
  · intro hx
    by_contra hn
    obtain ⟨R, hR, -⟩ := m4 he hn
    rw [hx] at hR
    cases hR
  · exact m3 he

/-! ## Examples -/

/-- (0, 0) on `y² = x³ + x` over GF(7) has order two; 2 times it fails and 1 times it does not. -/
example : Point.mul curve7 (.affine 0 0 none) 2 = .error .assertionError ∧ reached 2 2 % 2 = 1 ∧
    Point.mul curve7 (.affine 0 0 none) 1 = .ok (.affine 0 0 none) ∧
    Point.mul curve7 (.affine 0 0 none) (-1) = .error .assertionError := by decide +kernel

/-- The hypotheses of `C132_order_two` are met by it. -/
example : ∃ Q : (curve curve7).Point, Denotes curve7 (.affine 0 0 none) Q ∧ OrderTwo Q ∧ Regular curve7 := by
  have hn : (curve curve7).Nonsingular ((0 : Int) : ZMod curve7.p) ((0 : Int) : ZMod curve7.p) :=
    (containsPoint_iff_nonsingular curve7_regular 0 0).1 (by decide)
  refine ⟨.some _ _ hn, .affine 0 0 none (by decide) (by decide) hn, ⟨Point.some_ne_zero _, ?_⟩, curve7_regular⟩
  rw [two_nsmul, Point.add_self_of_Y_eq]
  simp only [negY, curve, Int.cast_zero, zero_mul, neg_zero, sub_zero]

/-- (1, 4) on `y² = x³ + 2x + 2` over GF(11) has the odd order 9. -/
example : Regular curve11 ∧ (∃ P', Denotes curve11 (.affine 1 4 (some 9)) P') := by
  have hr : Regular curve11 := ⟨by decide, by decide⟩
  exact ⟨hr, ⟨_, .affine 1 4 _ (by decide) (by decide) ((containsPoint_iff_nonsingular hr 1 4).1 (by decide))⟩⟩

end Bitforge.Points
