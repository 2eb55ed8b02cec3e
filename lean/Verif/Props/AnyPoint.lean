import Verif.Props.PointOutcome

/-! # C136: point arithmetic with coordinates that are not reduced

`Point` accepts every pair of integers that satisfies the equation modulo `p`.  C23 and C132 are about abscissas in `[0, p)`;
this file says what the operations answer for all the others, on every curve. -/

namespace Bitforge.AnyPoint
open Spec WeierstrassCurve.Affine Points

variable {c : CurveFp} [Fact c.p.Prime]

/-- A Python point stands for a group element: INFINITY for 0, `(x, y)` for the point with these coordinates modulo `p`. -/
inductive Represents (c : CurveFp) [Fact c.p.Prime] : Point → (curve c).Point → Prop
  | infinity : Represents c .infinity 0
  | affine (x y : Int) (o : Option Nat) (h : (curve c).Nonsingular (x : ZMod c.p) (y : ZMod c.p)) :
      Represents c (.affine x y o) (.some _ _ h)

/-- Two points whose abscissas are different integers and the same modulo `p`. -/
inductive Twisted (c : CurveFp) : Point → Point → Prop
  | intro (x₁ y₁ x₂ y₂ : Int) (o₁ o₂ : Option Nat) (h : x₁ ≠ x₂) (h' : (c.p : Int) ∣ x₁ - x₂) :
      Twisted c (.affine x₁ y₁ o₁) (.affine x₂ y₂ o₂)

/-- The point with its abscissa reduced. -/
def canon (c : CurveFp) : Point → Point
  | .infinity => .infinity
  | .affine x y o => .affine (x % (c.p : Int)) y o

theorem canon_denotes {P : Point} {Q : (curve c).Point} (h : Represents c P Q) : Denotes c (canon c P) Q := by
  cases h with
  | infinity => exact .infinity
  | affine x y o h =>
    have e : (((x % (c.p : Int) : Int)) : ZMod c.p) = (x : ZMod c.p) := ZMod.intCast_mod x c.p
    have h' : (curve c).Nonsingular ((x % (c.p : Int) : Int) : ZMod c.p) (y : ZMod c.p) := by rw [e]; exact h
    have : (Point.some _ _ h : (curve c).Point) = .some _ _ h' := by congr 1; exact e.symm
    rw [this]
    exact .affine _ _ _ (emod_range x).1 (emod_range x).2 h'

theorem denotes_represents {P : Point} {Q : (curve c).Point} (h : Denotes c P Q) : Represents c P Q := by
  cases h with
  | infinity => exact .infinity
  | affine x y o _ _ h => exact .affine x y o h

theorem emod_congr {a b : Int} (h : (a : ZMod c.p) = (b : ZMod c.p)) : a % (c.p : Int) = b % (c.p : Int) :=
  (ZMod.intCast_eq_intCast_iff' a b c.p).1 h

theorem double_canon (P : Point) : Point.double c P = Point.double c (canon c P) := by
  cases P with
  | infinity => rfl
  | affine x y o =>
    have e : (((x % (c.p : Int) : Int)) : ZMod c.p) = (x : ZMod c.p) := ZMod.intCast_mod x c.p
    simp only [canon, Point.double]
    generalize x % (c.p : Int) = r at e
    cases inverseMod (2 * y) c.p with
    | error e => rfl
    | ok inv =>
      simp only
      have h1 : ((3 * x * x + c.a) * inv) % (c.p : Int) = ((3 * r * r + c.a) * inv) % (c.p : Int) :=
        emod_congr (by push_cast [e]; ring)
      rw [h1]
      generalize ((3 * r * r + c.a) * inv) % (c.p : Int) = l
      have h2 : (l * l - 2 * x) % (c.p : Int) = (l * l - 2 * r) % (c.p : Int) := emod_congr (by push_cast [e]; ring)
      rw [h2]
      generalize (l * l - 2 * r) % (c.p : Int) = x3
      have h3 : (l * (x - x3) - y) % (c.p : Int) = (l * (r - x3) - y) % (c.p : Int) := emod_congr (by push_cast [e]; ring)
      rw [h3]

omit [Fact c.p.Prime] in
theorem inverseMod_congr {a b : Int} (h : a % (c.p : Int) = b % (c.p : Int)) : inverseMod a c.p = inverseMod b c.p := by
  unfold inverseMod
  rw [h]

/-- C136. Doubling: AssertionError on the points of order two, else the double, with reduced coordinates. -/
theorem C136_double (h : Regular c) (P : Point) (Q : (curve c).Point) (hP : Represents c P Q) :
    (OrderTwo Q → P.double c = .error .assertionError) ∧
    (¬ OrderTwo Q → ∃ R, P.double c = .ok R ∧ Denotes c R (2 • Q)) := by
  rw [double_canon]
  exact C132_double h _ Q (canon_denotes hP)

theorem pm_of_x {x₁ y₁ x₂ y₂ : Int} {h₁ : (curve c).Nonsingular (x₁ : ZMod c.p) (y₁ : ZMod c.p)}
    {h₂ : (curve c).Nonsingular (x₂ : ZMod c.p) (y₂ : ZMod c.p)} :
    ((Point.some _ _ h₁ : (curve c).Point) = .some _ _ h₂ ∨ (Point.some _ _ h₁ : (curve c).Point) = -.some _ _ h₂) ↔
      (x₁ : ZMod c.p) = (x₂ : ZMod c.p) := by
  rw [Point.neg_some, Point.some.injEq, Point.some.injEq]
  constructor
  · rintro (h | h) <;> exact h.1
  · intro e
    have e1 := equation_y_sq h₁.1
    have e2 := equation_y_sq h₂.1
    have : ((y₁ : ZMod c.p) - y₂) * (y₁ + y₂) = 0 := by rw [e] at e1; linear_combination e1 - e2
    rcases mul_eq_zero.1 this with h | h
    · exact .inl ⟨e, sub_eq_zero.1 h⟩
    · refine .inr ⟨e, ?_⟩
      simp only [negY, curve, zero_mul, sub_zero]
      linear_combination h

/-- C136. Two points stand for the same point or for opposite ones exactly if their abscissas are the same modulo `p`. -/
theorem C136_twisted (P₁ P₂ : Point) (Q₁ Q₂ : (curve c).Point) (h₁ : Represents c P₁ Q₁) (h₂ : Represents c P₂ Q₂) :
    Twisted c P₁ P₂ ↔ Q₁ ≠ 0 ∧ (Q₁ = Q₂ ∨ Q₁ = -Q₂) ∧ P₁.pair.map Prod.fst ≠ P₂.pair.map Prod.fst := by
  cases h₁ with
  | infinity => exact ⟨fun h => (nomatch h), fun h => absurd rfl h.1⟩
  | affine x₁ y₁ o₁ n₁ =>
    cases h₂ with
    | infinity =>
      refine ⟨fun h => (nomatch h), ?_⟩
      rintro ⟨-, h | h, -⟩
      · exact absurd h (Point.some_ne_zero _)
      · rw [neg_zero] at h; exact absurd h (Point.some_ne_zero _)
    | affine x₂ y₂ o₂ n₂ =>
      have hd : (c.p : Int) ∣ x₁ - x₂ ↔ (x₁ : ZMod c.p) = (x₂ : ZMod c.p) := by
        rw [← ZMod.intCast_zmod_eq_zero_iff_dvd]
        push_cast
        exact sub_eq_zero
      rw [pm_of_x, ← hd]
      simp only [Point.pair, Option.map_some, ne_eq, Option.some.injEq]
      constructor
      · intro h
        cases h with
        | intro _ _ _ _ _ _ a b => exact ⟨Point.some_ne_zero _, b, a⟩
      · rintro ⟨-, b, a⟩
        exact .intro _ _ _ _ _ _ a b

/-- C136. Addition: AssertionError if the abscissas are the same modulo `p` and different integers, else a point that stands
for the sum. -/
theorem C136_add (h : Regular c) (P₁ P₂ : Point) (Q₁ Q₂ : (curve c).Point) (h₁ : Represents c P₁ Q₁)
    (h₂ : Represents c P₂ Q₂) :
    (Twisted c P₁ P₂ → P₁.add c P₂ = .error .assertionError) ∧
    (¬ Twisted c P₁ P₂ → ∃ R, P₁.add c P₂ = .ok R ∧ Represents c R (Q₁ + Q₂)) := by
  constructor
  · intro ht
    cases ht with
    | intro x₁ y₁ x₂ y₂ o₁ o₂ a b =>
      have h0 : ((x₂ - x₁ : Int) : ZMod c.p) = 0 := by
        rw [ZMod.intCast_zmod_eq_zero_iff_dvd, ← neg_sub]
        exact (dvd_neg).2 b
      simp only [Point.add]
      rw [if_neg a, inverseMod_zero _ h0]
  · intro ht
    obtain ⟨R, hR, hD⟩ := add_denotes h (canon_denotes h₁) (canon_denotes h₂)
    cases P₂ with
    | infinity =>
      cases h₂
      exact ⟨P₁, by cases P₁ <;> rfl, by rw [add_zero]; exact h₁⟩
    | affine x₂ y₂ o₂ =>
      cases P₁ with
      | infinity =>
        cases h₁
        exact ⟨_, rfl, by rw [zero_add]; exact h₂⟩
      | affine x₁ y₁ o₁ =>
        refine ⟨R, ?_, denotes_represents hD⟩
        rw [← hR]
        by_cases hx : x₁ = x₂
        · subst hx
          have hdc : Point.double c (.affine x₁ y₁ o₁) = Point.double c (.affine (x₁ % (c.p : Int)) y₁ o₁) := double_canon _
          simp only [Point.add, canon, if_true]
          rw [hdc]
        · have hd : ¬ (c.p : Int) ∣ x₁ - x₂ := fun hd => ht (.intro _ _ _ _ _ _ hx hd)
          have hx' : x₁ % (c.p : Int) ≠ x₂ % (c.p : Int) := fun e => hd (Int.dvd_iff_emod_eq_zero.2 (by
            rw [Int.sub_emod, e, sub_self, Int.zero_emod]))
          have e₁ : (((x₁ % (c.p : Int) : Int)) : ZMod c.p) = (x₁ : ZMod c.p) := ZMod.intCast_mod x₁ c.p
          have e₂ : (((x₂ % (c.p : Int) : Int)) : ZMod c.p) = (x₂ : ZMod c.p) := ZMod.intCast_mod x₂ c.p
          simp only [Point.add, canon]
          rw [if_neg hx, if_neg hx']
          generalize x₁ % (c.p : Int) = r₁ at e₁
          generalize x₂ % (c.p : Int) = r₂ at e₂
          rw [inverseMod_congr (a := x₂ - x₁) (b := r₂ - r₁) (emod_congr (by push_cast [e₁, e₂]; ring))]
          cases inverseMod (r₂ - r₁) c.p with
          | error e => rfl
          | ok inv =>
            simp only
            generalize ((y₂ - y₁) * inv) % (c.p : Int) = l
            have h2 : (l * l - x₁ - x₂) % (c.p : Int) = (l * l - r₁ - r₂) % (c.p : Int) :=
              emod_congr (by push_cast [e₁, e₂]; ring)
            rw [h2]
            generalize (l * l - r₁ - r₂) % (c.p : Int) = x3
            have h3 : (l * (x₁ - x3) - y₁) % (c.p : Int) = (l * (r₁ - x3) - y₁) % (c.p : Int) :=
              emod_congr (by push_cast [e₁]; ring)
            rw [h3]

/-- What goes wrong at the `t`-th bit on the way to `m` times `Q`: the point to be doubled has order two, or the double meets
`Q` or its opposite when one of the two is to be added. -/
def FailsAt (m : Nat) (Q : (curve c).Point) (t : Nat) : Prop :=
  OrderTwo (reached m (t + 1) • Q) ∨
  3 * m / 2 ^ t % 2 ≠ m / 2 ^ t % 2 ∧ ((2 * reached m (t + 1)) • Q = Q ∨ (2 * reached m (t + 1)) • Q = -Q)

theorem add_loose (h : Regular c) {R : Point} {T S : (curve c).Point} {x y : Int} {o : Option Nat} (hR : Denotes c R T)
    (hS : Represents c (.affine x y o) S) (hx : ¬ (0 ≤ x ∧ x < c.p)) :
    ((T = S ∨ T = -S) → R.add c (.affine x y o) = .error .assertionError) ∧
    (¬ (T = S ∨ T = -S) → ∃ R', R.add c (.affine x y o) = .ok R' ∧ Represents c R' (T + S)) := by
  have hS0 : S ≠ 0 := by cases hS; exact Point.some_ne_zero _
  have key : Twisted c R (.affine x y o) ↔ (T = S ∨ T = -S) := by
    rw [C136_twisted _ _ _ _ (denotes_represents hR) hS]
    constructor
    · exact fun h => h.2.1
    · intro hp
      refine ⟨?_, hp, ?_⟩
      · rintro rfl
        rcases hp with h | h
        · exact hS0 h.symm
        · exact hS0 (neg_eq_zero.1 h.symm)
      · cases hR with
        | infinity => simp [Point.pair]
        | affine x₁ y₁ o₁ a b _ =>
          simp only [Point.pair, Option.map_some, ne_eq, Option.some.injEq]
          rintro rfl
          exact hx ⟨a, b⟩
  rw [← key]
  exact C136_add h _ _ _ _ (denotes_represents hR) hS

theorem loop_loose (h : Regular c) {x y : Int} {o : Option Nat} {Q : (curve c).Point} (hP : Represents c (.affine x y o) Q)
    (hN : Represents c (.affine x (-y) o) (-Q)) (hx : ¬ (0 ≤ x ∧ x < c.p)) (e : Nat) :
    ∀ j fuel R, j ≤ fuel → Represents c R (reached e (j + 1) • Q) →
      ((∀ t, 1 ≤ t → t ≤ j → ¬ FailsAt e Q t) ∧
        ∃ R', Point.mulLoop c (.affine x y o) (.affine x (-y) o) e (3 * e) fuel (2 ^ j) R = .ok R' ∧
          Represents c R' (e • Q)) ∨
      ((∃ t, 1 ≤ t ∧ t ≤ j ∧ FailsAt e Q t) ∧
        Point.mulLoop c (.affine x y o) (.affine x (-y) o) e (3 * e) fuel (2 ^ j) R = .error .assertionError) := by
  intro j
  induction j with
  | zero =>
    intro fuel R _ hR
    have : reached e (0 + 1) = e := by simp [reached]; omega
    rw [this] at hR
    refine .inl ⟨fun t h1 h2 => by omega, R, ?_, hR⟩
    cases fuel <;> simp [Point.mulLoop]
  | succ j ih =>
    intro fuel R hf hR
    obtain ⟨fuel, rfl⟩ : ∃ f, fuel = f + 1 := ⟨fuel - 1, by omega⟩
    have hi1 : 2 ^ (j + 1) > 1 := Nat.one_lt_two_pow (by omega)
    have hi2 : 2 ^ (j + 1) / 2 = 2 ^ j := by rw [pow_succ]; omega
    have d3 : 3 * e / 2 ^ (j + 1 + 1) = 3 * e / 2 ^ (j + 1) / 2 := by
      rw [pow_succ, Nat.div_div_eq_div_mul]
    have d1 : e / 2 ^ (j + 1 + 1) = e / 2 ^ (j + 1) / 2 := by
      rw [pow_succ, Nat.div_div_eq_div_mul]
    by_cases h2 : OrderTwo (reached e (j + 1 + 1) • Q)
    · right
      refine ⟨⟨_, by omega, le_rfl, .inl h2⟩, ?_⟩
      unfold Point.mulLoop
      rw [if_pos hi1, (C136_double h R _ hR).1 h2]
      rfl
    obtain ⟨R1, hR1, hD1⟩ := (C136_double h R _ hR).2 h2
    have step : ¬ FailsAt e Q (j + 1) → ∀ r : Except Err Point,
        (((∀ t, 1 ≤ t → t ≤ j → ¬ FailsAt e Q t) ∧ ∃ R', r = .ok R' ∧ Represents c R' (e • Q)) ∨
          ((∃ t, 1 ≤ t ∧ t ≤ j ∧ FailsAt e Q t) ∧ r = .error .assertionError)) →
        (((∀ t, 1 ≤ t → t ≤ j + 1 → ¬ FailsAt e Q t) ∧ ∃ R', r = .ok R' ∧ Represents c R' (e • Q)) ∨
          ((∃ t, 1 ≤ t ∧ t ≤ j + 1 ∧ FailsAt e Q t) ∧ r = .error .assertionError)) := by
      rintro hn r (⟨ha, hb⟩ | ⟨⟨t, h3, h4, h5⟩, hb⟩)
      · refine .inl ⟨fun t h3 h4 => ?_, hb⟩
        rcases Nat.lt_or_eq_of_le h4 with h5 | h5
        · exact ha t h3 (by omega)
        · rw [h5]; exact hn
      · exact .inr ⟨⟨t, h3, by omega, h5⟩, hb⟩
    have hfail : FailsAt e Q (j + 1) ↔ 3 * e / 2 ^ (j + 1) % 2 ≠ e / 2 ^ (j + 1) % 2 ∧
        ((2 * reached e (j + 1 + 1)) • Q = Q ∨ (2 * reached e (j + 1 + 1)) • Q = -Q) := by
      unfold FailsAt
      exact ⟨fun h => h.resolve_left h2, .inr⟩
    have hD1' : Denotes c R1 ((2 * reached e (j + 1 + 1)) • Q) := by rw [mul_comm, mul_nsmul]; exact hD1
    have hle : e / 2 ^ (j + 1) ≤ 3 * e / 2 ^ (j + 1) := Nat.div_le_div_right (by omega)
    have hr : reached e (j + 1 + 1) = 3 * e / 2 ^ (j + 1) / 2 - e / 2 ^ (j + 1) / 2 := by unfold reached; rw [d3, d1]
    have hr' : reached e (j + 1) = 3 * e / 2 ^ (j + 1) - e / 2 ^ (j + 1) := rfl
    have b3 := and_pow_ne_zero_iff (3 * e) (j + 1)
    have b1 := and_pow_ne_zero_iff e (j + 1)
    unfold Point.mulLoop
    rw [if_pos hi1, hi2, hR1]
    simp only [bind, Except.bind]
    generalize hA : 3 * e / 2 ^ (j + 1) = A at *
    generalize hB : e / 2 ^ (j + 1) = B at *
    generalize reached e (j + 1 + 1) = k at *
    have hn : A % 2 = B % 2 → ¬ FailsAt e Q (j + 1) := fun he hf => (hfail.1 hf).1 he
    by_cases a3 : A % 2 = 1 <;> by_cases a1 : B % 2 = 1
    · have c3 := b3.2 a3
      have c1 := b1.2 a1
      simp only [c3, c1, ne_eq, not_false_eq_true, and_true, and_false, if_false]
      refine step (hn (by omega)) _ (ih fuel R1 (by omega) (denotes_represents ?_))
      have : 2 * k = A - B := by omega
      rw [hr', ← this]; exact hD1'
    · have c3 := b3.2 a3
      have c1 : e &&& 2 ^ (j + 1) = 0 := by by_contra hc; exact a1 (b1.1 hc)
      obtain ⟨f1, f2⟩ := add_loose h hD1' hP hx
      by_cases hm : (2 * k) • Q = Q ∨ (2 * k) • Q = -Q
      · refine .inr ⟨⟨j + 1, by omega, le_rfl, hfail.2 ⟨by omega, hm⟩⟩, ?_⟩
        simp only [c3, c1, not_true_eq_false, ne_eq, not_false_eq_true, and_true, if_true, f1 hm]
      · obtain ⟨R2, hR2, hD2⟩ := f2 hm
        simp only [c3, c1, not_true_eq_false, ne_eq, not_false_eq_true, and_true, if_true, hR2,
          and_false, if_false]
        refine step (fun hf => hm (hfail.1 hf).2) _ (ih fuel R2 (by omega) ?_)
        have : A - B = 2 * k + 1 := by omega
        rw [hr', this, succ_nsmul]; exact hD2
    · have c3 : 3 * e &&& 2 ^ (j + 1) = 0 := by by_contra hc; exact a3 (b3.1 hc)
      have c1 := b1.2 a1
      obtain ⟨f1, f2⟩ := add_loose h hD1' hN hx
      rw [neg_neg, or_comm] at f1 f2
      by_cases hm : (2 * k) • Q = Q ∨ (2 * k) • Q = -Q
      · refine .inr ⟨⟨j + 1, by omega, le_rfl, hfail.2 ⟨by omega, hm⟩⟩, ?_⟩
        simp only [c3, c1, not_true_eq_false, ne_eq, not_false_eq_true, and_true, and_false, if_true, if_false, f1 hm]
      · obtain ⟨R2, hR2, hD2⟩ := f2 hm
        simp only [c3, c1, not_true_eq_false, ne_eq, not_false_eq_true, and_true, and_false, if_true, if_false, hR2]
        refine step (fun hf => hm (hfail.1 hf).2) _ (ih fuel R2 (by omega) ?_)
        have : 2 * k = (A - B) + 1 := by omega
        rw [this, succ_nsmul, add_neg_cancel_right] at hD2
        rw [hr']; exact hD2
    · have c3 : 3 * e &&& 2 ^ (j + 1) = 0 := by by_contra hc; exact a3 (b3.1 hc)
      have c1 : e &&& 2 ^ (j + 1) = 0 := by by_contra hc; exact a1 (b1.1 hc)
      simp only [c3, c1, not_true_eq_false, ne_eq, and_false, if_false, false_and]
      refine step (hn (by omega)) _ (ih fuel R1 (by omega) (denotes_represents ?_))
      have : 2 * k = A - B := by omega
      rw [hr', ← this]; exact hD1'

/-- C136. Multiplication of a point whose abscissa is not in `[0, p)`: AssertionError if the multiplier is negative (after the
reduction by the declared order) or something goes wrong at a bit, else a point that stands for the multiple. -/
theorem C136_mul (h : Regular c) (x y : Int) (o : Option Nat) (Q : (curve c).Point) (hP : Represents c (.affine x y o) Q)
    (hx : ¬ (0 ≤ x ∧ x < c.p)) (e : Int) :
    (reducedMultiplier (.affine x y o) e < 0 → (Point.affine x y o).mul c e = .error .assertionError) ∧
    (0 ≤ reducedMultiplier (.affine x y o) e →
      (∃ t, 1 ≤ t ∧ FailsAt (reducedMultiplier (.affine x y o) e).toNat Q t) →
      (Point.affine x y o).mul c e = .error .assertionError) ∧
    (0 ≤ reducedMultiplier (.affine x y o) e →
      (∀ t, 1 ≤ t → ¬ FailsAt (reducedMultiplier (.affine x y o) e).toNat Q t) →
      ∃ R, (Point.affine x y o).mul c e = .ok R ∧ Represents c R (reducedMultiplier (.affine x y o) e • Q)) := by
  have hN : Point.make c x (-y) o = .ok (.affine x (-y) o) ∧ Represents c (.affine x (-y) o) (-Q) := by
    cases hP with
    | affine _ _ _ hn =>
      have hn' : (curve c).Nonsingular (x : ZMod c.p) ((-y : Int) : ZMod c.p) := by
        have := (nonsingular_neg (W' := curve c) (x : ZMod c.p) (y : ZMod c.p)).2 hn
        simpa [negY, curve] using this
      refine ⟨make_ok h hn', ?_⟩
      have : -(Point.some _ _ hn : (curve c).Point) = Point.some _ _ hn' := by
        rw [Point.neg_some]
        congr 1
        simp [negY, curve]
      rw [this]
      exact .affine _ _ _ _
  have hQ0 : Q ≠ 0 := by cases hP; exact Point.some_ne_zero _
  rw [reducedMultiplier_eq]
  have hmul : Point.mul c (.affine x y o) e =
      if effective (.affine x y o) e = 0 then .ok .infinity
      else if effective (.affine x y o) e > 0 then
            match Point.make c x (-y) o with
            | .error err => .error err
            | .ok negSelf =>
              Point.mulLoop c (.affine x y o) negSelf (effective (.affine x y o) e).toNat
                (3 * (effective (.affine x y o) e).toNat)
                (Point.leftmostBit (3 * (effective (.affine x y o) e).toNat) / 2)
                (Point.leftmostBit (3 * (effective (.affine x y o) e).toNat) / 2) (.affine x y o)
          else .error .assertionError := rfl
  rw [hmul, hN.1]
  simp only
  generalize effective (.affine x y o) e = E'
  rcases lt_trichotomy E' 0 with hs | rfl | hs
  · refine ⟨fun _ => by rw [if_neg (by omega), if_neg (by omega)], fun h => by omega, fun h => by omega⟩
  · refine ⟨fun h => by omega, ?_, fun _ _ => ⟨_, rfl, by rw [zero_zsmul]; exact .infinity⟩⟩
    have hz : ∀ t, reached 0 t = 0 := by intro t; simp [reached]
    rintro - ⟨t, -, ht⟩
    exfalso
    unfold FailsAt at ht
    rw [show (0 : Int).toNat = 0 by rfl, hz, zero_nsmul] at ht
    rcases ht with ht | ⟨ht, -⟩
    · exact ht.1 rfl
    · rw [Nat.mul_zero] at ht; exact ht rfl
  · rw [if_neg (by omega), if_pos hs]
    obtain ⟨E, rfl⟩ : ∃ E : Nat, E' = E := ⟨E'.toNat, by omega⟩
    rw [Int.toNat_natCast]
    have hE0 : 0 < E := by omega
    rw [leftmostBit_eq _ (by omega)]
    have hlog : 1 ≤ Nat.log 2 (3 * E) := Nat.log_pos (by norm_num) (by omega)
    obtain ⟨j, hj⟩ : ∃ j, Nat.log 2 (3 * E) = j + 1 := ⟨Nat.log 2 (3 * E) - 1, by omega⟩
    have hi2 : 2 ^ (j + 1) / 2 = 2 ^ j := by rw [pow_succ]; omega
    rw [hj, hi2]
    have l1 : 2 ^ (j + 1) ≤ 3 * E := by rw [← hj]; exact Nat.pow_log_le_self 2 (by omega)
    have l2 : 3 * E < 2 ^ (j + 1) * 2 := by
      rw [← hj, ← pow_succ]; exact Nat.lt_pow_succ_log_self (by norm_num) _
    have hr : reached E (j + 1) = 1 := by
      unfold reached
      have d3 : 3 * E / 2 ^ (j + 1) = 1 := by
        apply Nat.div_eq_of_lt_le <;> omega
      have d1 : E / 2 ^ (j + 1) = 0 := Nat.div_eq_of_lt (by omega)
      rw [d3, d1]
    have far : ∀ t, j < t → ¬ FailsAt E Q t := by
      intro t ht hf
      have h3 : 3 * E < 2 ^ (t + 1) := lt_of_lt_of_le l2 (by rw [← pow_succ]; exact Nat.pow_le_pow_right (by norm_num) (by omega))
      have hz : reached E (t + 1) = 0 := by
        unfold reached
        rw [Nat.div_eq_of_lt h3, Nat.zero_sub]
      unfold FailsAt at hf
      rw [hz, Nat.mul_zero, zero_nsmul] at hf
      rcases hf with hf | ⟨-, hf | hf⟩
      · exact hf.1 rfl
      · exact hQ0 hf.symm
      · exact hQ0 (neg_eq_zero.1 hf.symm)
    refine ⟨fun h => by omega, ?_⟩
    rcases loop_loose h hP hN.2 hx E j (2 ^ j) _ (Nat.lt_two_pow_self).le (by rw [hr, one_nsmul]; exact hP) with
      ⟨hno, R, hR, hD⟩ | ⟨⟨t, h1, -, h3⟩, he⟩
    · refine ⟨?_, fun _ _ => ⟨R, hR, by rw [natCast_zsmul]; exact hD⟩⟩
      rintro - ⟨t, h1, h2⟩
      rcases Nat.lt_or_ge j t with h3 | h3
      · exact absurd h2 (far t h3)
      · exact absurd h2 (hno t h1 h3)
    · exact ⟨fun _ _ => he, fun _ hn => absurd h3 (hn t h1)⟩

/-- C136. The answers are not a matter of the points alone: on `y² = x³ + 2x + 2` over GF(11), (1, 4) plus (1, 4) is a point, and
(12, 4), which is the same point, cannot be added to it; seven times (1, 4) is a point and seven times (12, 4) fails; (12, 4)
times 1 is not the point (1, 4), and twice it is the double. -/
theorem C136_not_alone : (∃ R, Point.add curve11 (.affine 1 4 none) (.affine 1 4 none) = .ok R) ∧
    Point.add curve11 (.affine 1 4 none) (.affine 12 4 none) = .error .assertionError ∧
    (∃ R, Point.mul curve11 (.affine 1 4 none) 7 = .ok R) ∧
    Point.mul curve11 (.affine 12 4 none) 7 = .error .assertionError ∧
    Point.mul curve11 (.affine 12 4 none) 1 = .ok (.affine 12 4 none) ∧
    Point.mul curve11 (.affine 12 4 none) 2 = Point.mul curve11 (.affine 1 4 none) 2 := by
  refine ⟨?_, by decide +kernel, ?_, by decide +kernel, by decide +kernel, by decide +kernel⟩
  · exact ⟨_, rfl⟩
  · exact ⟨_, rfl⟩

/-! ## Examples -/

/-- (12, 4) and (-10, 7) on `y² = x³ + 2x + 2` over GF(11) stand for opposite points and are twisted. -/
example : Regular curve11 ∧ (∃ Q, Represents curve11 (.affine 12 4 none) Q) ∧ (∃ Q, Represents curve11 (.affine (-10) 7 none) Q) ∧
    Twisted curve11 (.affine 12 4 none) (.affine (-10) 7 none) ∧ ¬ ((0 : Int) ≤ 12 ∧ (12 : Int) < curve11.p) := by
  have hr : Regular curve11 := ⟨by decide, by decide⟩
  exact ⟨hr, ⟨_, .affine _ _ _ ((containsPoint_iff_nonsingular hr 12 4).1 (by decide))⟩,
    ⟨_, .affine _ _ _ ((containsPoint_iff_nonsingular hr (-10) 7).1 (by decide))⟩,
    .intro _ _ _ _ _ _ (by decide) (by decide), by decide⟩

/-- Three times (12, 4) does not fail, though the abscissa is not reduced. -/
example : Point.mul curve11 (.affine 12 4 none) 3 = Point.mul curve11 (.affine 1 4 none) 3 ∧
    Point.mul curve11 (.affine 12 4 none) (-3) = .error .assertionError := by decide +kernel

end Bitforge.AnyPoint
