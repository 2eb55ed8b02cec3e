import Verif.Spec.Curve
import Verif.Proofs.NumberTheory
import Mathlib.Data.Nat.Bitwise
import Mathlib.Tactic.FieldSimp
import Mathlib.Tactic.LinearCombination

namespace Bitforge
open Spec WeierstrassCurve.Affine

variable {c : CurveFp} [hp : Fact c.p.Prime]

theorem intCast_eq_zero_iff (x : Int) : ((x : Int) : ZMod c.p) = 0 ↔ x % (c.p : Int) = 0 := by
  rw [ZMod.intCast_zmod_eq_zero_iff_dvd, Int.dvd_iff_emod_eq_zero]

theorem two_ne_zero_of (h : c.p ≠ 2) : (2 : ZMod c.p) ≠ 0 := by
  intro e
  have : ((2 : Nat) : ZMod c.p) = 0 := by exact_mod_cast e
  rw [ZMod.natCast_eq_zero_iff] at this
  have h2 := Nat.le_of_dvd (by norm_num) this
  have := hp.out.two_le
  omega

theorem disc_ne_zero (h : Regular c) : (curve c).Δ ≠ 0 := by
  have h2 := two_ne_zero_of h.odd
  have hd : (4 * (c.a : ZMod c.p) ^ 3 + 27 * (c.b : ZMod c.p) ^ 2) ≠ 0 := by
    have := h.disc
    rw [Ne, ← intCast_eq_zero_iff] at this
    push_cast at this
    exact this
  have : (curve c).Δ = -(2 ^ 4) * (4 * (c.a : ZMod c.p) ^ 3 + 27 * (c.b : ZMod c.p) ^ 2) := by
    simp only [curve, WeierstrassCurve.Δ, WeierstrassCurve.b₂, WeierstrassCurve.b₄, WeierstrassCurve.b₆,
      WeierstrassCurve.b₈]
    ring
  rw [this]
  exact mul_ne_zero (neg_ne_zero.2 (pow_ne_zero _ h2)) hd

theorem containsPoint_iff (x y : Int) :
    c.containsPoint x y = true ↔ (curve c).Equation (x : ZMod c.p) (y : ZMod c.p) := by
  unfold CurveFp.containsPoint
  rw [beq_iff_eq, ← intCast_eq_zero_iff, equation_iff]
  simp only [curve]
  push_cast
  constructor
  · intro h; linear_combination h
  · intro h; linear_combination h

theorem containsPoint_iff_nonsingular (h : Regular c) (x y : Int) :
    c.containsPoint x y = true ↔ (curve c).Nonsingular (x : ZMod c.p) (y : ZMod c.p) := by
  rw [containsPoint_iff, equation_iff_nonsingular_of_Δ_ne_zero (disc_ne_zero h)]

theorem make_ok (h : Regular c) {x y : Int} {o : Option Nat}
    (hn : (curve c).Nonsingular (x : ZMod c.p) (y : ZMod c.p)) :
    Point.make c x y o = .ok (.affine x y o) := by
  unfold Point.make
  rw [if_pos ((containsPoint_iff_nonsingular h x y).2 hn)]

theorem gcd_eq_one_iff (a : Int) : Int.gcd a c.p = 1 ↔ (a : ZMod c.p) ≠ 0 := by
  rw [Ne, ZMod.intCast_zmod_eq_zero_iff_dvd, Int.gcd_comm]
  have := Int.isCoprime_iff_gcd_eq_one (m := (c.p : Int)) (n := a)
  rw [← this]
  exact (Prime.coprime_iff_not_dvd (Nat.prime_iff_prime_int.1 hp.out))

theorem inverseMod_field (a : Int) (ha : (a : ZMod c.p) ≠ 0) :
    ∃ x : Int, inverseMod a c.p = .ok x ∧ (x : ZMod c.p) = (a : ZMod c.p)⁻¹ := by
  obtain ⟨x, hx, _, _, hd⟩ := (inverseMod_spec a c.p hp.out.pos).1 ((gcd_eq_one_iff a).2 ha)
  refine ⟨x, hx, ?_⟩
  rw [← ZMod.intCast_zmod_eq_zero_iff_dvd] at hd
  push_cast at hd
  apply eq_inv_of_mul_eq_one_left
  linear_combination hd

theorem inverseMod_zero (a : Int) (ha : (a : ZMod c.p) = 0) : inverseMod a c.p = .error .assertionError :=
  (inverseMod_spec a c.p hp.out.pos).2 (fun h => (gcd_eq_one_iff a).1 h ha)

theorem emod_range (x : Int) : 0 ≤ x % (c.p : Int) ∧ x % (c.p : Int) < c.p := by
  have := hp.out.pos
  exact ⟨Int.emod_nonneg _ (by omega), Int.emod_lt_of_pos _ (by omega)⟩

theorem double_affine (h : Regular c) {x y : Int} {o : Option Nat}
    (hx : 0 ≤ x) (hx' : x < c.p)
    (hn : (curve c).Nonsingular (x : ZMod c.p) (y : ZMod c.p)) (hy : (y : ZMod c.p) ≠ 0) :
    ∃ R, Point.double c (.affine x y o) = .ok R ∧ Denotes c R (.some _ _ hn + .some _ _ hn) := by
  have h2 := two_ne_zero_of h.odd
  have h2y : ((2 * y : Int) : ZMod c.p) ≠ 0 := by push_cast; exact mul_ne_zero h2 hy
  obtain ⟨inv, hi, hinv⟩ := inverseMod_field (2 * y) h2y
  have hyne : (y : ZMod c.p) ≠ (curve c).negY x y := by
    simp only [negY, curve, zero_mul, sub_zero]
    intro e
    apply h2y
    push_cast
    linear_combination e
  have hns := nonsingular_add hn hn (fun hxy => hyne hxy.2)
  set l := ((3 * x * x + c.a) * inv) % (c.p : Int) with hl
  have hlc : (l : ZMod c.p) = (curve c).slope (x : ZMod c.p) x y y := by
    rw [slope_of_Y_ne rfl hyne, hl, ZMod.intCast_mod]
    push_cast
    rw [hinv]
    simp only [curve, negY]
    push_cast
    rw [div_eq_mul_inv]
    congr 1
    · ring
    · congr 1; ring
  set x3 := (l * l - 2 * x) % (c.p : Int) with hx3
  have hx3c : (x3 : ZMod c.p) = (curve c).addX x x ((curve c).slope (x : ZMod c.p) x y y) := by
    rw [hx3, ZMod.intCast_mod, ← hlc]
    push_cast
    simp only [addX, curve]
    ring
  set y3 := (l * (x - x3) - y) % (c.p : Int) with hy3
  have hy3c : (y3 : ZMod c.p) = (curve c).addY x x y ((curve c).slope (x : ZMod c.p) x y y) := by
    rw [hy3, ZMod.intCast_mod]
    push_cast
    rw [addY, negAddY, ← hx3c, ← hlc]
    simp only [negY, curve]
    ring
  rw [← hx3c, ← hy3c] at hns
  refine ⟨.affine x3 y3 none, ?_, ?_⟩
  · simp only [Point.double, hi]
    exact make_ok h hns
  · have : (.some _ _ hn + .some _ _ hn : (curve c).Point) = .some _ _ hns := by
      rw [Point.add_self_of_Y_ne hyne]
      congr 1 <;> simp [hx3c, hy3c]
    rw [this]
    exact .affine _ _ _ (emod_range _).1 (emod_range _).2 _

theorem double_denotes (h : Regular c) {P : Point} {Q : (curve c).Point} (hP : Denotes c P Q)
    (hQ : Q + Q = 0 → Q = 0) : ∃ R, Point.double c P = .ok R ∧ Denotes c R (Q + Q) := by
  cases hP with
  | infinity => exact ⟨.infinity, rfl, by rw [add_zero]; exact .infinity⟩
  | affine x y o hx hx' hn =>
    apply double_affine h hx hx' hn
    intro hy
    have : (Point.some _ _ hn + Point.some _ _ hn : (curve c).Point) = 0 := by
      apply Point.add_self_of_Y_eq
      simp only [negY, curve, zero_mul, sub_zero]
      rw [hy, neg_zero]
    exact Point.some_ne_zero hn (hQ this)

theorem double_two_torsion {x y : Int} {o : Option Nat} (hy : (y : ZMod c.p) = 0) :
    Point.double c (.affine x y o) = .error .assertionError := by
  have : ((2 * y : Int) : ZMod c.p) = 0 := by push_cast; rw [hy, mul_zero]
  simp only [Point.double, inverseMod_zero _ this]

theorem equation_y_sq {x y : ZMod c.p} (h : (curve c).Equation x y) :
    y ^ 2 = x ^ 3 + (c.a : ZMod c.p) * x + (c.b : ZMod c.p) := by
  rw [equation_iff] at h
  simp only [curve] at h
  linear_combination h

theorem reduced_inj {x1 x2 : Int} (h1 : 0 ≤ x1) (h1' : x1 < c.p) (h2 : 0 ≤ x2) (h2' : x2 < c.p)
    (h : (x1 : ZMod c.p) = (x2 : ZMod c.p)) : x1 = x2 := by
  rw [ZMod.intCast_eq_intCast_iff'] at h
  rwa [Int.emod_eq_of_lt h1 h1', Int.emod_eq_of_lt h2 h2'] at h

theorem add_denotes (h : Regular c) {P1 P2 : Point} {Q1 Q2 : (curve c).Point} (h1 : Denotes c P1 Q1)
    (h2 : Denotes c P2 Q2) : ∃ R, Point.add c P1 P2 = .ok R ∧ Denotes c R (Q1 + Q2) := by
  cases h2 with
  | infinity => exact ⟨P1, by cases P1 <;> rfl, by rw [add_zero]; exact h1⟩
  | affine x2 y2 o2 hx2 hx2' hn2 =>
    cases h1 with
    | infinity => exact ⟨_, rfl, by rw [zero_add]; exact .affine _ _ _ hx2 hx2' hn2⟩
    | affine x1 y1 o1 hx1 hx1' hn1 =>
      by_cases hx : x1 = x2
      · subst hx
        by_cases hy : (y1 + y2) % (c.p : Int) = 0
        · refine ⟨.infinity, by simp [Point.add, hy], ?_⟩
          have : (Point.some _ _ hn1 + Point.some _ _ hn2 : (curve c).Point) = 0 := by
            apply Point.add_of_Y_eq rfl
            rw [← intCast_eq_zero_iff] at hy
            push_cast at hy
            simp only [negY, curve, zero_mul, sub_zero]
            linear_combination hy
          rw [this]; exact .infinity
        · have hyc : (y1 : ZMod c.p) + y2 ≠ 0 := by
            rw [← intCast_eq_zero_iff] at hy; push_cast at hy; exact hy
          have hyy : (y1 : ZMod c.p) = y2 := by
            have e1 := equation_y_sq hn1.1
            have e2 := equation_y_sq hn2.1
            have : ((y1 : ZMod c.p) - y2) * (y1 + y2) = 0 := by linear_combination e1 - e2
            rcases mul_eq_zero.1 this with h | h
            · exact sub_eq_zero.1 h
            · exact absurd h hyc
          have hy0 : (y1 : ZMod c.p) ≠ 0 := by
            intro e; apply hyc; rw [← hyy, e, add_zero]
          obtain ⟨R, hR, hD⟩ := double_affine h (o := o1) hx1 hx1' hn1 hy0
          refine ⟨R, ?_, ?_⟩
          · simp only [Point.add, if_true, hy, if_false]; exact hR
          · have : (Point.some _ _ hn2 : (curve c).Point) = Point.some _ _ hn1 := by
              congr 1; exact hyy.symm
            rw [this]; exact hD
      · have hxc : (x1 : ZMod c.p) ≠ x2 := fun e => hx (reduced_inj hx1 hx1' hx2 hx2' e)
        have hdx : ((x2 - x1 : Int) : ZMod c.p) ≠ 0 := by
          push_cast; exact sub_ne_zero.2 (Ne.symm hxc)
        obtain ⟨inv, hi, hinv⟩ := inverseMod_field (x2 - x1) hdx
        have hns := nonsingular_add hn1 hn2 (fun hxy => hxc hxy.1)
        set l := ((y2 - y1) * inv) % (c.p : Int) with hl
        have hlc : (l : ZMod c.p) = (curve c).slope (x1 : ZMod c.p) x2 y1 y2 := by
          rw [slope_of_X_ne hxc, hl, ZMod.intCast_mod]
          push_cast
          rw [hinv]
          push_cast
          rw [← div_eq_mul_inv, ← neg_sub (y1 : ZMod c.p), ← neg_sub (x1 : ZMod c.p), neg_div_neg_eq]
        set x3 := (l * l - x1 - x2) % (c.p : Int) with hx3
        have hx3c : (x3 : ZMod c.p) = (curve c).addX x1 x2 ((curve c).slope (x1 : ZMod c.p) x2 y1 y2) := by
          rw [hx3, ZMod.intCast_mod, ← hlc]
          push_cast
          simp only [addX, curve]
          ring
        set y3 := (l * (x1 - x3) - y1) % (c.p : Int) with hy3
        have hy3c : (y3 : ZMod c.p) = (curve c).addY x1 x2 y1 ((curve c).slope (x1 : ZMod c.p) x2 y1 y2) := by
          rw [hy3, ZMod.intCast_mod]
          push_cast
          rw [addY, negAddY, ← hx3c, ← hlc]
          simp only [negY, curve]
          ring
        rw [← hx3c, ← hy3c] at hns
        refine ⟨.affine x3 y3 none, ?_, ?_⟩
        · simp only [Point.add, hx, if_false, hi]
          exact make_ok h hns
        · have : (Point.some _ _ hn1 + Point.some _ _ hn2 : (curve c).Point) = .some _ _ hns := by
            rw [Point.add_of_X_ne hxc]
            congr 1 <;> simp [hx3c, hy3c]
          rw [this]
          exact .affine _ _ _ (emod_range _).1 (emod_range _).2 _

/-! ## Multiplication -/

theorem leftmostLoop_eq (x : Nat) (hx : 0 < x) : ∀ fuel k, k ≤ Nat.log 2 x + 1 → Nat.log 2 x + 1 - k ≤ fuel →
    Point.leftmostLoop fuel (2 ^ k) x = 2 ^ (Nat.log 2 x + 1) := by
  intro fuel
  induction fuel with
  | zero => intro k h1 h2; have : k = Nat.log 2 x + 1 := by omega
            subst this; rfl
  | succ fuel ih =>
    intro k h1 h2
    unfold Point.leftmostLoop
    by_cases hk : k = Nat.log 2 x + 1
    · subst hk
      rw [if_neg (by have := Nat.lt_pow_succ_log_self (b := 2) (by norm_num) x; simpa using this)]
    · rw [if_pos, ← pow_succ', ih _ (by omega) (by omega)]
      calc 2 ^ k ≤ 2 ^ Nat.log 2 x := Nat.pow_le_pow_right (by norm_num) (by omega)
        _ ≤ x := Nat.pow_log_le_self 2 (by omega)

theorem leftmostBit_eq (x : Nat) (hx : 0 < x) : Point.leftmostBit x = 2 ^ Nat.log 2 x := by
  unfold Point.leftmostBit
  have := leftmostLoop_eq x hx x 0 (by omega) (by have := Nat.log_lt_self 2 (x := x) (by omega); omega)
  rw [pow_zero] at this
  rw [this, pow_succ]
  omega

theorem and_pow_ne_zero_iff (n j : Nat) : n &&& 2 ^ j ≠ 0 ↔ n / 2 ^ j % 2 = 1 := by
  rw [Nat.and_two_pow]
  rw [Nat.testBit_eq_decide_div_mod_eq]
  by_cases h : n / 2 ^ j % 2 = 1 <;> simp [h]

theorem neg_denotes (h : Regular c) {x y : Int} {o : Option Nat} {Q : (curve c).Point}
    (hP : Denotes c (.affine x y o) Q) (o' : Option Nat) :
    Point.make c x (-y) o' = .ok (.affine x (-y) o') ∧ Denotes c (.affine x (-y) o') (-Q) := by
  cases hP with
  | affine _ _ _ hx hx' hn =>
    have hn' : (curve c).Nonsingular (x : ZMod c.p) ((-y : Int) : ZMod c.p) := by
      have := (nonsingular_neg (W' := curve c) (x : ZMod c.p) (y : ZMod c.p)).2 hn
      simpa [negY, curve] using this
    refine ⟨make_ok h hn', ?_⟩
    have : -(Point.some _ _ hn : (curve c).Point) = Point.some _ _ hn' := by
      rw [Point.neg_some]
      congr 1
      simp [negY, curve]
    rw [this]
    exact .affine _ _ _ hx hx' _

/-- `double` raises AssertionError on every point of order two. -/
theorem double_fails (h : Regular c) {P : Point} {Q : (curve c).Point} (hP : Denotes c P Q) (hQ : Q + Q = 0)
    (hQ0 : Q ≠ 0) : Point.double c P = .error .assertionError := by
  cases hP with
  | infinity => exact absurd rfl hQ0
  | affine x y o hx hx' hn =>
    apply double_two_torsion
    by_contra hy
    obtain ⟨R, hR, hD⟩ := double_affine h (o := o) hx hx' hn hy
    have hyy : (y : ZMod c.p) ≠ (curve c).negY (x : ZMod c.p) (y : ZMod c.p) := by
      intro e
      simp only [negY, curve, zero_mul, sub_zero] at e
      have : 2 * (y : ZMod c.p) = 0 := by linear_combination e
      exact hy ((mul_eq_zero.1 this).resolve_left (two_ne_zero_of h.odd))
    rw [Point.add_self_of_Y_ne hyy] at hQ
    exact Point.some_ne_zero _ hQ

/-- A computation on multiples of `Q` gives `T`, or raises AssertionError and some multiple of `Q` has order
two. -/
def Outcome (Q : (curve c).Point) (r : Except Err Point) (T : (curve c).Point) : Prop :=
  (∃ R, r = .ok R ∧ Denotes c R T) ∨
  (r = .error .assertionError ∧ ∃ k : Nat, 2 • (k • Q) = 0 ∧ k • Q ≠ 0)

theorem mulLoop_result (h : Regular c) {P N : Point} {Q : (curve c).Point} (hP : Denotes c P Q)
    (hN : Denotes c N (-Q)) (e : Nat) :
    ∀ j fuel R, j ≤ fuel → Denotes c R ((3 * e / 2 ^ (j + 1) - e / 2 ^ (j + 1)) • Q) →
      Outcome Q (Point.mulLoop c P N e (3 * e) fuel (2 ^ j) R) (e • Q) := by
  intro j
  induction j with
  | zero =>
    intro fuel R _ hR
    have : 3 * e / 2 ^ (0 + 1) - e / 2 ^ (0 + 1) = e := by simp; omega
    rw [this] at hR
    refine .inl ⟨R, ?_, hR⟩
    cases fuel <;> simp [Point.mulLoop]
  | succ j ih =>
    intro fuel R hf hR
    obtain ⟨fuel, rfl⟩ : ∃ f, fuel = f + 1 := ⟨fuel - 1, by omega⟩
    have hi1 : 2 ^ (j + 1) > 1 := Nat.one_lt_two_pow (by omega)
    have hi2 : 2 ^ (j + 1) / 2 = 2 ^ j := by rw [pow_succ]; omega
    have d3 : 3 * e / 2 ^ (j + 1 + 1) = 3 * e / 2 ^ (j + 1) / 2 := by
      rw [pow_succ, Nat.div_div_eq_div_mul]
    have d1 : e / 2 ^ (j + 1 + 1) = e / 2 ^ (j + 1) / 2 := by
      rw [pow_succ, Nat.div_div_eq_div_mul]
    rw [d3, d1] at hR
    have hle : e / 2 ^ (j + 1) ≤ 3 * e / 2 ^ (j + 1) := Nat.div_le_div_right (by omega)
    set A := 3 * e / 2 ^ (j + 1) with hA
    set B := e / 2 ^ (j + 1) with hB
    by_cases h2 : 2 • ((A / 2 - B / 2) • Q) = 0 → (A / 2 - B / 2) • Q = 0
    swap
    · right
      refine ⟨?_, _, _root_.not_imp.1 h2⟩
      unfold Point.mulLoop
      rw [if_pos hi1, double_fails h hR (by rw [← two_nsmul]; exact (_root_.not_imp.1 h2).1) (_root_.not_imp.1 h2).2]
      rfl
    obtain ⟨R1, hR1, hD1⟩ := double_denotes h hR (by rw [← two_nsmul]; exact h2)
    unfold Point.mulLoop
    rw [if_pos hi1, hi2, hR1]
    have b3 := and_pow_ne_zero_iff (3 * e) (j + 1)
    have b1 := and_pow_ne_zero_iff e (j + 1)
    rw [← hA] at b3
    rw [← hB] at b1
    rw [← two_nsmul, ← mul_nsmul] at hD1
    simp only [bind, Except.bind]
    by_cases a3 : A % 2 = 1 <;> by_cases a1 : B % 2 = 1
    · have c3 := b3.2 a3
      have c1 := b1.2 a1
      simp only [c3, c1, not_true_eq_false, ne_eq, not_false_eq_true, and_true, and_false, if_false]
      refine ih fuel R1 (by omega) ?_
      have : (A / 2 - B / 2) * 2 = A - B := by omega
      rw [this] at hD1; exact hD1
    · have c3 := b3.2 a3
      have c1 : e &&& 2 ^ (j + 1) = 0 := by by_contra hc; exact a1 (b1.1 hc)
      obtain ⟨R2, hR2, hD2⟩ := add_denotes h hD1 hP
      simp only [c3, c1, not_true_eq_false, ne_eq, not_false_eq_true, and_true, if_true, hR2,
        and_false, if_false]
      refine ih fuel R2 (by omega) ?_
      have : (A - B) • Q = ((A / 2 - B / 2) * 2) • Q + Q := by
        rw [← succ_nsmul]; congr 1; omega
      rw [this]; exact hD2
    · have c3 : 3 * e &&& 2 ^ (j + 1) = 0 := by by_contra hc; exact a3 (b3.1 hc)
      have c1 := b1.2 a1
      obtain ⟨R2, hR2, hD2⟩ := add_denotes h hD1 hN
      simp only [c3, c1, not_true_eq_false, ne_eq, not_false_eq_true, and_true, and_false, if_true, if_false, hR2]
      refine ih fuel R2 (by omega) ?_
      have : (A - B) • Q = ((A / 2 - B / 2) * 2) • Q + -Q := by
        have : (A / 2 - B / 2) * 2 = (A - B) + 1 := by omega
        rw [this, succ_nsmul]; abel
      rw [this]; exact hD2
    · have c3 : 3 * e &&& 2 ^ (j + 1) = 0 := by by_contra hc; exact a3 (b3.1 hc)
      have c1 : e &&& 2 ^ (j + 1) = 0 := by by_contra hc; exact a1 (b1.1 hc)
      simp only [c3, c1, not_true_eq_false, ne_eq, and_false, if_false, false_and]
      refine ih fuel R1 (by omega) ?_
      have : (A / 2 - B / 2) * 2 = A - B := by omega
      rw [this] at hD1; exact hD1

/-- The multiplier after reduction by the declared order. -/
def effective (P : Point) (e : Int) : Int :=
  match P.order with
  | some (n + 1) => e % ((n + 1 : Nat) : Int)
  | _ => e

theorem mul_result (h : Regular c) {P : Point} {Q : (curve c).Point} (hP : Denotes c P Q)
    (e : Int) (he : 0 ≤ effective P e) :
    Outcome Q (Point.mul c P e) ((effective P e).toNat • Q) := by
  have hmul : Point.mul c P e =
      if effective P e = 0 then .ok .infinity
      else match P with
        | .infinity => .ok .infinity
        | .affine x y o =>
          if effective P e > 0 then
            match Point.make c x (-y) o with
            | .error err => .error err
            | .ok negSelf =>
              Point.mulLoop c P negSelf (effective P e).toNat (3 * (effective P e).toNat)
                (Point.leftmostBit (3 * (effective P e).toNat) / 2)
                (Point.leftmostBit (3 * (effective P e).toNat) / 2) P
          else .error .assertionError := by
    cases P <;> rfl
  rw [hmul]
  by_cases h0 : effective P e = 0
  · rw [if_pos h0, h0]
    exact .inl ⟨.infinity, rfl, by simp; exact .infinity⟩
  · rw [if_neg h0]
    cases P with
    | infinity =>
      cases hP
      exact .inl ⟨.infinity, rfl, by rw [nsmul_zero]; exact .infinity⟩
    | affine x y o =>
      simp only
      rw [if_pos (by omega)]
      obtain ⟨hm, hN⟩ := neg_denotes h hP o
      rw [hm]
      simp only
      generalize hE : (effective (.affine x y o) e).toNat = E
      have hE0 : 0 < E := by omega
      rw [leftmostBit_eq _ (by omega)]
      have hlog : 1 ≤ Nat.log 2 (3 * E) := Nat.log_pos (by norm_num) (by omega)
      obtain ⟨j, hj⟩ : ∃ j, Nat.log 2 (3 * E) = j + 1 := ⟨Nat.log 2 (3 * E) - 1, by omega⟩
      have hi2 : 2 ^ (j + 1) / 2 = 2 ^ j := by rw [pow_succ]; omega
      rw [hj, hi2]
      refine mulLoop_result h hP hN E j _ _ (Nat.lt_two_pow_self).le ?_
      have l1 : 2 ^ (j + 1) ≤ 3 * E := by rw [← hj]; exact Nat.pow_log_le_self 2 (by omega)
      have l2 : 3 * E < 2 ^ (j + 1) * 2 := by
        rw [← hj, ← pow_succ]; exact Nat.lt_pow_succ_log_self (by norm_num) _
      have d3 : 3 * E / 2 ^ (j + 1) = 1 := by
        apply Nat.div_eq_of_lt_le <;> omega
      have d1 : E / 2 ^ (j + 1) = 0 := Nat.div_eq_of_lt (by omega)
      rw [d3, d1]
      simpa using hP

theorem mul_denotes (h : Regular c) {P : Point} {Q : (curve c).Point} (hP : Denotes c P Q)
    (h2 : ∀ k : Nat, 2 • (k • Q) = 0 → k • Q = 0) (e : Int) (he : 0 ≤ effective P e) :
    ∃ R, Point.mul c P e = .ok R ∧ Denotes c R ((effective P e).toNat • Q) := by
  rcases mul_result h hP e he with h | ⟨_, k, hk, hk'⟩
  · exact h
  · exact absurd (h2 k hk) hk'

end Bitforge
