import Verif.CurveObj
import Verif.Props.Curve
import Verif.Proofs.SecpReduced
import Verif.Proofs.ScriptText

/-! # C91: points as objects -/

namespace Bitforge
open Spec

/-- A point object on the curve object `c`, or INFINITY, and the point it stands for in `Curve.lean`. -/
inductive Stands (c : CurveObj) : PointObj → Point → Prop
  | infinity : Stands c .infinity .infinity
  | affine (x y : Int) (o : Option Nat) : Stands c ⟨some c, some x, some y, o.map Int.ofNat⟩ (.affine x y o)

/-- Two computations give points that stand for each other, or the same exception. -/
def Matches (c : CurveObj) : Except Err PointObj → Except Err Point → Prop
  | .ok P, .ok Q => Stands c P Q
  | .error e, .error e' => e = e'
  | _, _ => False

theorem same_self (c : Option CurveObj) : CurveObj.same c c = true := by
  cases c <;> simp [CurveObj.same]

theorem eq_infinity_affine (c : CurveObj) (x y o : Option Int) :
    PointObj.eq ⟨some c, x, y, o⟩ .infinity = false := rfl

theorem bare_matches (c : CurveObj) (x y : Int) (o : Option Nat) :
    Matches c (PointObj.bare (some c) (some x) (some y) (o.map Int.ofNat)) (Point.make c.curve x y o) := by
  unfold PointObj.bare Point.make
  simp only
  split
  · exact .affine x y o
  · rfl

theorem double_matches {c : CurveObj} {P : PointObj} {Q : Point} (h : Stands c P Q) :
    Matches c P.double (Q.double c.curve) := by
  cases h with
  | infinity => exact .infinity
  | affine x y o =>
    unfold PointObj.double Point.double
    rw [eq_infinity_affine]
    simp only [Bool.false_eq_true, if_false]
    cases inverseMod (2 * y) c.curve.p with
    | error e => exact rfl
    | ok inv => exact bare_matches c _ _ none

theorem add_matches {c : CurveObj} {P P' : PointObj} {Q Q' : Point} (h : Stands c P Q) (h' : Stands c P' Q') :
    Matches c (P.add P') (Point.add c.curve Q Q') := by
  cases h' with
  | infinity =>
    have : Point.add c.curve Q .infinity = .ok Q := by cases Q <;> rfl
    rw [this]
    exact h
  | affine x' y' o' =>
    cases h with
    | infinity => exact .affine x' y' o'
    | affine x y o =>
      unfold PointObj.add Point.add
      rw [eq_infinity_affine, eq_infinity_affine]
      simp only [Bool.false_eq_true, if_false, same_self, Bool.not_true, Option.some.injEq]
      split
      · split
        · exact .infinity
        · exact double_matches (.affine x y o)
      · cases inverseMod (x' - x) c.curve.p with
        | error e => exact rfl
        | ok inv => exact bare_matches c _ _ none

theorem matches_bind {c : CurveObj} {r : Except Err PointObj} {s : Except Err Point} {f : PointObj → Except Err PointObj}
    {g : Point → Except Err Point} (h : Matches c r s) (hf : ∀ P Q, Stands c P Q → Matches c (f P) (g Q)) :
    Matches c (r >>= f) (s >>= g) := by
  cases r <;> cases s
  · exact h
  · cases h
  · cases h
  · exact hf _ _ h

theorem mulLoop_matches {c : CurveObj} {P N : PointObj} {Q M : Point} (h : Stands c P Q) (hN : Stands c N M) (e e3 : Nat) :
    ∀ fuel i R S, Stands c R S → Matches c (PointObj.mulLoop P N e e3 fuel i R) (Point.mulLoop c.curve Q M e e3 fuel i S) := by
  intro fuel
  induction fuel with
  | zero => intro i R S hR; exact hR
  | succ fuel ih =>
    intro i R S hR
    unfold PointObj.mulLoop Point.mulLoop
    by_cases hi : i > 1
    · simp only [hi, if_true]
      refine matches_bind (double_matches hR) fun R S hR => ?_
      by_cases h1 : e3 &&& i ≠ 0 ∧ e &&& i = 0 <;> by_cases h2 : e3 &&& i = 0 ∧ e &&& i ≠ 0
      · exact absurd h2.1 h1.1
      · rw [if_pos h1, if_pos h1]
        refine matches_bind (add_matches hR h) fun R S hR => ?_
        rw [if_neg h2, if_neg h2]
        exact ih _ _ _ hR
      · rw [if_neg h1, if_neg h1]
        refine matches_bind (r := .ok R) (s := .ok S) hR fun R S hR => ?_
        rw [if_pos h2, if_pos h2]
        exact matches_bind (add_matches hR hN) fun R S hR => ih _ _ _ hR
      · rw [if_neg h1, if_neg h1]
        refine matches_bind (r := .ok R) (s := .ok S) hR fun R S hR => ?_
        rw [if_neg h2, if_neg h2]
        exact ih _ _ _ hR
    · simp only [hi, if_false]
      exact hR

/-- C91. The assertion on the declared order never fails: `Point(curve, x, y, order)` only checks the coordinates. -/
theorem C91_order_check (curve : Option CurveObj) (x y order : Option Int) :
    PointObj.init curve x y order = PointObj.bare curve x y order := by
  unfold PointObj.init
  cases hb : PointObj.bare curve x y order with
  | error e => rfl
  | ok P =>
    cases order with
    | none => rfl
    | some n =>
      simp only
      by_cases h0 : n = 0
      · rw [if_pos h0]
      · rw [if_neg h0]
        have ho : P.order = some n := by
          unfold PointObj.bare at hb
          split at hb
          · cases hb; rfl
          · split at hb
            · split at hb
              · cases hb; rfl
              · cases hb
            · cases hb
        unfold PointObj.mulWith
        rw [ho]
        simp only [PointObj.exponent, h0, if_false, Int.fmod_self, if_true]
        rfl

theorem init_matches (c : CurveObj) (x y : Int) (o : Option Nat) :
    Matches c (PointObj.init (some c) (some x) (some y) (o.map Int.ofNat)) (Point.make c.curve x y o) := by
  rw [C91_order_check]
  exact bare_matches c x y o

theorem mul_matches {c : CurveObj} {P : PointObj} {Q : Point} (h : Stands c P Q) (e : Int) :
    Matches c (P.mul e) (Q.mul c.curve e) := by
  cases h with
  | infinity =>
    have h1 : PointObj.mul .infinity e = .ok .infinity := by
      unfold PointObj.mul PointObj.mulWith
      by_cases h0 : e = 0
      · simp only [PointObj.infinity, PointObj.exponent, h0, if_true]
      · simp only [PointObj.infinity, PointObj.exponent, h0, if_false]; rfl
    have h2 : Point.mul c.curve .infinity e = .ok .infinity := by
      unfold Point.mul
      by_cases h0 : e = 0
      · simp only [h0, if_true]
      · simp only [h0, if_false]
    rw [h1, h2]
    exact .infinity
  | affine x y o =>
    have he : PointObj.exponent (o.map Int.ofNat) e = effective (.affine x y o) e := by
      rcases o with _ | _ | n
      · rfl
      · rfl
      · unfold PointObj.exponent effective
        simp only [Option.map_some, Point.order]
        rw [if_neg (by simp; omega)]
        exact Int.fmod_eq_emod_of_nonneg _ (by simp; omega)
    have hmul : Point.mul c.curve (.affine x y o) e =
        if effective (.affine x y o) e = 0 then .ok .infinity
        else if effective (.affine x y o) e > 0 then
          match Point.make c.curve x (-y) o with
          | .error err => .error err
          | .ok negSelf =>
            Point.mulLoop c.curve (.affine x y o) negSelf (effective (.affine x y o) e).toNat
              (3 * (effective (.affine x y o) e).toNat) (Point.leftmostBit (3 * (effective (.affine x y o) e).toNat) / 2)
              (Point.leftmostBit (3 * (effective (.affine x y o) e).toNat) / 2) (.affine x y o)
        else .error .assertionError := rfl
    rw [hmul]
    unfold PointObj.mul PointObj.mulWith
    simp only
    rw [he, eq_infinity_affine]
    generalize effective (.affine x y o) e = E
    simp only [Bool.false_eq_true, if_false]
    by_cases h0 : E = 0
    · rw [if_pos h0, if_pos h0]; exact .infinity
    · rw [if_neg h0, if_neg h0]
      by_cases h1 : E > 0
      · rw [if_pos h1, if_pos h1]
        have hm := init_matches c x (-y) o
        cases hr : PointObj.init (some c) (some x) (some (-y)) (o.map Int.ofNat) <;> cases hs : Point.make c.curve x (-y) o <;>
          rw [hr, hs] at hm
        · exact hm
        · cases hm
        · cases hm
        · exact mulLoop_matches (.affine x y o) hm _ _ _ _ _ _ (.affine x y o)
      · rw [if_neg h1, if_neg h1]; rfl

/-! ## Equality -/

/-- Both coordinates are reduced modulo `p`. -/
def Reduced (c : CurveFp) : Point → Prop
  | .infinity => True
  | .affine x y _ => 0 ≤ x ∧ x < c.p ∧ 0 ≤ y ∧ y < c.p

/-- C91. Operations on points of one curve object are those of `Curve.lean`, about which C23 speaks. -/
theorem C91_operations (c : CurveObj) (P P' : PointObj) (Q Q' : Point) (h : Stands c P Q) (h' : Stands c P' Q') (e : Int)
    (x y : Int) (o : Option Nat) :
    Matches c (P.add P') (Q.add c.curve Q') ∧ Matches c P.double (Q.double c.curve) ∧ Matches c (P.mul e) (Q.mul c.curve e) ∧
    Matches c (PointObj.init (some c) (some x) (some y) (o.map Int.ofNat)) (Point.make c.curve x y o) :=
  ⟨add_matches h h', double_matches h, mul_matches h e, init_matches c x y o⟩

/-- C91, partial: points of one curve object with reduced coordinates are `==` exactly if they are the same point of the
group.  (Missing: other coordinates and other curve objects, see the refutations.) -/
theorem C91_eq_partial (c : CurveObj) [Fact c.curve.p.Prime] (P P' : PointObj) (Q Q' : Point) (R R' : (curve c.curve).Point)
    (h : Stands c P Q) (h' : Stands c P' Q') (hr : Reduced c.curve Q) (hr' : Reduced c.curve Q')
    (hd : Denotes c.curve Q R) (hd' : Denotes c.curve Q' R') : P.eq P' = true ↔ R = R' := by
  cases hd with
  | infinity =>
    cases h
    cases hd' with
    | infinity => cases h'; exact ⟨fun _ => rfl, fun _ => rfl⟩
    | affine x y o hx hx' hn =>
      cases h'
      exact ⟨fun h => absurd h (by simp [PointObj.eq, PointObj.infinity, CurveObj.same]),
        fun h => absurd h.symm (WeierstrassCurve.Affine.Point.some_ne_zero hn)⟩
  | affine x y o hx hx' hn =>
    cases h
    cases hd' with
    | infinity =>
      cases h'
      exact ⟨fun h => absurd h (by simp [PointObj.eq, PointObj.infinity, CurveObj.same]),
        fun h => absurd h (WeierstrassCurve.Affine.Point.some_ne_zero hn)⟩
    | affine x' y' o' hx1 hx1' hn' =>
      cases h'
      simp only [PointObj.eq, same_self, Bool.true_and, Bool.and_eq_true, beq_iff_eq, Option.some.injEq]
      constructor
      · rintro ⟨rfl, rfl⟩; rfl
      · intro h
        rw [WeierstrassCurve.Affine.Point.some.injEq] at h
        exact ⟨reduced_inj hx hx' hx1 hx1' h.1, reduced_inj hr.2.2.1 hr.2.2.2 hr'.2.2.1 hr'.2.2.2 h.2⟩

/-- C91. `==` is an equivalence, whatever the points. -/
theorem C91_equivalence (P Q R : PointObj) : P.eq P = true ∧ (P.eq Q = true → Q.eq P = true) ∧
    (P.eq Q = true → Q.eq R = true → P.eq R = true) := by
  have same_iff : ∀ a b, CurveObj.same a b = true ↔ a.map CurveObj.id = b.map CurveObj.id := by
    intro a b
    cases a <;> cases b <;> simp [CurveObj.same]
  simp only [PointObj.eq, Bool.and_eq_true, beq_iff_eq, same_iff]
  refine ⟨by simp, fun ⟨⟨a, b⟩, c⟩ => ⟨⟨a.symm, b.symm⟩, c.symm⟩,
    fun ⟨⟨a, b⟩, c⟩ ⟨⟨a', b'⟩, c'⟩ => ⟨⟨a.trans a', b.trans b'⟩, c.trans c'⟩⟩

/-- C91 is false of the code for coordinates that are not reduced: for every point `(x, y)`, `Point` also accepts
`(x + p, y)`, which is the same point of the group, but not `==`, and their sum raises AssertionError. -/
theorem C91_eq_refuted (c : CurveObj) [Fact c.curve.p.Prime] (hreg : Regular c.curve) (x y : Int)
    (h : PointObj.init (some c) (some x) (some y) none = .ok ⟨some c, some x, some y, none⟩) :
    let Q : PointObj := ⟨some c, some (x + c.curve.p), some y, none⟩
    PointObj.init (some c) (some (x + c.curve.p)) (some y) none = .ok Q ∧
    (∃ (hn : (curve c.curve).Nonsingular ((x : Int) : ZMod c.curve.p) ((y : Int) : ZMod c.curve.p))
      (hn' : (curve c.curve).Nonsingular ((x + c.curve.p : Int) : ZMod c.curve.p) ((y : Int) : ZMod c.curve.p)),
      (.some _ _ hn : (curve c.curve).Point) = .some _ _ hn') ∧
    PointObj.eq ⟨some c, some x, some y, none⟩ Q = false ∧
    PointObj.add ⟨some c, some x, some y, none⟩ Q = .error .assertionError := by
  have hp : 0 < c.curve.p := (Fact.out : c.curve.p.Prime).pos
  have hc : c.curve.containsPoint x y = true := by
    rw [C91_order_check] at h
    unfold PointObj.bare at h
    simp only at h
    split at h
    · assumption
    · cases h
  have hx : ((x + c.curve.p : Int) : ZMod c.curve.p) = (x : ZMod c.curve.p) := by push_cast; simp
  have hn := (containsPoint_iff_nonsingular hreg x y).1 hc
  have hn' : (curve c.curve).Nonsingular ((x + c.curve.p : Int) : ZMod c.curve.p) ((y : Int) : ZMod c.curve.p) := by
    rw [hx]; exact hn
  have hc' := (containsPoint_iff_nonsingular hreg _ y).2 hn'
  refine ⟨?_, ⟨hn, hn', ?_⟩, ?_, ?_⟩
  · rw [C91_order_check]
    unfold PointObj.bare
    simp only [hc', if_true]
  · rw [WeierstrassCurve.Affine.Point.some.injEq]
    exact ⟨hx.symm, rfl⟩
  · simp only [PointObj.eq, same_self, Bool.true_and, Bool.and_eq_false_iff, beq_eq_false_iff_ne, ne_eq, Option.some.injEq]
    left; omega
  · have hi : inverseMod (x + c.curve.p - x) c.curve.p = .error .assertionError := inverseMod_zero _ (by push_cast; simp)
    unfold PointObj.add
    rw [eq_infinity_affine, eq_infinity_affine]
    simp only [Bool.false_eq_true, if_false, same_self, Bool.not_true, Option.some.injEq, hi]
    rw [if_neg (by omega)]

/-- C91 is false of the code for two curve objects, even with the same parameters: no point of one equals a point of the
other, and they cannot be added. -/
theorem C91_curves_refuted (c d : CurveObj) (hid : c.id ≠ d.id) (x y x' y' o o' : Option Int) :
    PointObj.eq ⟨some c, x, y, o⟩ ⟨some d, x', y', o'⟩ = false ∧
    PointObj.add ⟨some c, x, y, o⟩ ⟨some d, x', y', o'⟩ = .error .assertionError := by
  have : CurveObj.same (some c) (some d) = false := by simp [CurveObj.same, hid]
  constructor
  · simp [PointObj.eq, this]
  · unfold PointObj.add
    rw [eq_infinity_affine, eq_infinity_affine]
    simp [this]

/-- C91. `==` with the wrong answer on computed points: on the curve `y² = x³ + 2x + 2` over GF(11) the point (1, 4) has
order 9, but `35 * P` is not `8 * P`, although `35 = 8 + 3 * 9`; its second coordinate is negative. -/
theorem C91_computed_refuted : ∃ (c : CurveObj) (P Q R : PointObj), PointObj.init (some c) (some 1) (some 4) none = .ok P ∧
    P.mul 9 = .ok .infinity ∧ P.mul 35 = .ok Q ∧ P.mul 8 = .ok R ∧ Q.eq R = false ∧ Q.y = some (-4) := by
  refine ⟨⟨0, curve11⟩, ⟨some ⟨0, curve11⟩, some 1, some 4, none⟩, ⟨some ⟨0, curve11⟩, some 1, some (-4), none⟩,
    ⟨some ⟨0, curve11⟩, some 1, some 7, none⟩, by decide +kernel, by decide +kernel, by decide +kernel, by decide +kernel,
    by decide +kernel, rfl⟩

/-- C91 is false of the code: the declared order is not checked.  Every point is accepted with every order, and with order
1 every multiple is INFINITY. -/
theorem C91_order_refuted (c : CurveObj) (x y n e : Int) (h : c.curve.containsPoint x y = true) :
    PointObj.init (some c) (some x) (some y) (some n) = .ok ⟨some c, some x, some y, some n⟩ ∧
    PointObj.mul ⟨some c, some x, some y, some 1⟩ e = .ok .infinity := by
  constructor
  · rw [C91_order_check]
    unfold PointObj.bare
    simp only [h, if_true]
  · unfold PointObj.mul PointObj.mulWith
    simp [PointObj.exponent, Int.fmod_one]

/-- C91 is false of the code: `!=` is not the negation of `==`, and equal points hash differently, so that sets and
dictionaries do not find them: both only look at the address of the object. -/
theorem C91_ne_refuted (P : PointObj) (id id' : Nat) (hid : id ≠ id') (h : Nat → Int) (hh : Function.Injective h) :
    P.eq P = true ∧ PointObj.ne id id' = true ∧ PointObj.hash h id ≠ PointObj.hash h id' :=
  ⟨(C91_equivalence P P P).1, by simp [PointObj.ne, hid], fun e => hid (hh e)⟩

/-! ## Computed points are reduced -/

theorem make_reduced_xy {c : CurveFp} (hp : 0 < c.p) {x y : Int} {R : Point} (h : Point.make c (x % c.p) (y % c.p) = .ok R) :
    Reduced c R ∧ R ≠ .infinity := by
  unfold Point.make at h
  split at h
  · cases h
    have hp' : (c.p : Int) ≠ 0 := by omega
    have h1 := Int.emod_nonneg x hp'
    have h2 := Int.emod_lt_of_pos x (b := c.p) (by omega)
    have h3 := Int.emod_nonneg y hp'
    have h4 := Int.emod_lt_of_pos y (b := c.p) (by omega)
    exact ⟨⟨h1, h2, h3, h4⟩, by simp⟩
  · cases h

theorem double_reduced_xy {c : CurveFp} (hp : 0 < c.p) {P R : Point} (h : P.double c = .ok R) : Reduced c R := by
  unfold Point.double at h
  split at h
  · cases h; trivial
  · split at h
    · cases h
    · exact (make_reduced_xy hp h).1

/-- A sum is reduced if it is not one of the summands. -/
theorem add_reduced_xy {c : CurveFp} (hp : 0 < c.p) {P Q R : Point} (hP : Reduced c P) (hQ : P ≠ .infinity ∨ Reduced c Q)
    (h : P.add c Q = .ok R) : Reduced c R := by
  unfold Point.add at h
  split at h
  · cases h; exact hP
  · cases h
    rcases hQ with h | h
    · exact absurd rfl h
    · exact h
  · split at h
    · split at h
      · cases h; trivial
      · exact double_reduced_xy hp h
    · split at h
      · cases h
      · exact (make_reduced_xy hp h).1

theorem mulLoop_reduced_xy {c : CurveFp} [Fact c.p.Prime] (h : Regular c) {P N : Point} {Q : (curve c).Point} (hP : Denotes c P Q)
    (hN : Denotes c N (-Q)) (hr : Reduced c P) (e n : Nat) (hn : n % 2 = 1) (he : e < n)
    (hord : ∀ k : Nat, 0 < k → k < n → k • Q ≠ 0) :
    ∀ j fuel R S, Reduced c R → Denotes c R ((3 * e / 2 ^ (j + 1) - e / 2 ^ (j + 1)) • Q) →
      Point.mulLoop c P N e (3 * e) fuel (2 ^ j) R = .ok S → Reduced c S := by
  have hp : 0 < c.p := (Fact.out : c.p.Prime).pos
  intro j
  induction j with
  | zero =>
    intro fuel R S hR _ hS
    cases fuel <;> simp [Point.mulLoop] at hS <;> exact hS ▸ hR
  | succ j ih =>
    intro fuel R S hR hD hS
    cases fuel with
    | zero => simp [Point.mulLoop] at hS; exact hS ▸ hR
    | succ fuel =>
      have hi1 : 2 ^ (j + 1) > 1 := Nat.one_lt_two_pow (by omega)
      have hi2 : 2 ^ (j + 1) / 2 = 2 ^ j := by rw [pow_succ]; omega
      have d3 : 3 * e / 2 ^ (j + 1 + 1) = 3 * e / 2 ^ (j + 1) / 2 := by
        rw [pow_succ, Nat.div_div_eq_div_mul]
      have d1 : e / 2 ^ (j + 1 + 1) = e / 2 ^ (j + 1) / 2 := by
        rw [pow_succ, Nat.div_div_eq_div_mul]
      rw [d3, d1] at hD
      have hle : e / 2 ^ (j + 1) ≤ 3 * e / 2 ^ (j + 1) := Nat.div_le_div_right (by omega)
      have hsum : 3 * e / 2 ^ (j + 1) - e / 2 ^ (j + 1) ≤ e := by
        have h1 := Nat.div_mul_le_self (3 * e) (2 ^ (j + 1))
        have h2 := Nat.lt_div_mul_add (a := e) (b := 2 ^ (j + 1)) (by omega)
        generalize 3 * e / 2 ^ (j + 1) = A at *
        generalize e / 2 ^ (j + 1) = B at *
        generalize 2 ^ (j + 1) = m at *
        obtain ⟨d, rfl⟩ := Nat.exists_eq_add_of_le hle
        by_contra hlt
        have : e + 1 ≤ d := by omega
        nlinarith
      set A := 3 * e / 2 ^ (j + 1) with hA
      set B := e / 2 ^ (j + 1) with hB
      have b3 := and_pow_ne_zero_iff (3 * e) (j + 1)
      have b1 := and_pow_ne_zero_iff e (j + 1)
      rw [← hA] at b3
      rw [← hB] at b1
      unfold Point.mulLoop at hS
      rw [if_pos hi1, hi2] at hS
      by_cases h2 : 2 • ((A / 2 - B / 2) • Q) = 0 → (A / 2 - B / 2) • Q = 0
      swap
      · rw [double_fails h hD (by rw [← two_nsmul]; exact (_root_.not_imp.1 h2).1) (_root_.not_imp.1 h2).2] at hS
        cases hS
      obtain ⟨R1, hR1, hD1⟩ := double_denotes h hD (by rw [← two_nsmul]; exact h2)
      have hr1 := double_reduced_xy hp hR1
      rw [hR1] at hS
      rw [← two_nsmul, ← mul_nsmul] at hD1
      simp only [bind, Except.bind] at hS
      by_cases a3 : A % 2 = 1 <;> by_cases a1 : B % 2 = 1
      · have c3 := b3.2 a3
        have c1 := b1.2 a1
        simp only [c3, c1, not_true_eq_false, ne_eq, not_false_eq_true, and_true, and_false, if_false] at hS
        refine ih fuel R1 S hr1 ?_ hS
        have : (A / 2 - B / 2) * 2 = A - B := by omega
        rw [this] at hD1; exact hD1
      · have c3 := b3.2 a3
        have c1 : e &&& 2 ^ (j + 1) = 0 := by by_contra hc; exact a1 (b1.1 hc)
        obtain ⟨R2, hR2, hD2⟩ := add_denotes h hD1 hP
        simp only [c3, c1, not_true_eq_false, ne_eq, not_false_eq_true, and_true, if_true, hR2,
          and_false, if_false] at hS
        refine ih fuel R2 S (add_reduced_xy hp hr1 (.inr hr) hR2) ?_ hS
        have : (A - B) • Q = ((A / 2 - B / 2) * 2) • Q + Q := by
          rw [← succ_nsmul]; congr 1; omega
        rw [this]; exact hD2
      · have c3 : 3 * e &&& 2 ^ (j + 1) = 0 := by by_contra hc; exact a3 (b3.1 hc)
        have c1 := b1.2 a1
        obtain ⟨R2, hR2, hD2⟩ := add_denotes h hD1 hN
        simp only [c3, c1, not_true_eq_false, ne_eq, not_false_eq_true, and_true, and_false, if_true, if_false, hR2] at hS
        have hm : (A / 2 - B / 2) * 2 = (A - B) + 1 := by omega
        have hfin : R1 ≠ .infinity := by
          rintro rfl
          generalize hT : ((A / 2 - B / 2) * 2) • Q = T at hD1
          cases hD1
          exact hord _ (by omega) (by omega) hT
        refine ih fuel R2 S (add_reduced_xy hp hr1 (.inl hfin) hR2) ?_ hS
        have : (A - B) • Q = ((A / 2 - B / 2) * 2) • Q + -Q := by
          rw [hm, succ_nsmul]; abel
        rw [this]; exact hD2
      · have c3 : 3 * e &&& 2 ^ (j + 1) = 0 := by by_contra hc; exact a3 (b3.1 hc)
        have c1 : e &&& 2 ^ (j + 1) = 0 := by by_contra hc; exact a1 (b1.1 hc)
        simp only [c3, c1, not_true_eq_false, ne_eq, and_false, if_false, false_and] at hS
        refine ih fuel R1 S hr1 ?_ hS
        have : (A / 2 - B / 2) * 2 = A - B := by omega
        rw [this] at hD1; exact hD1

/-- C91, partial: sums and doubles of reduced points are reduced, and so are the multiples of a reduced point whose
declared order is its order and odd; so `==` is right for all of these.  (Missing: multiples of points without a declared
order, see `C91_computed_refuted`.) -/
theorem C91_reduced_partial (c : CurveFp) [Fact c.p.Prime] (hreg : Regular c) (P Q R : Point) (hP : Reduced c P)
    (hQ : Reduced c Q) :
    (P.add c Q = .ok R → Reduced c R) ∧ (P.double c = .ok R → Reduced c R) ∧
    ∀ (n : Nat) (e : Int) (P' : (curve c).Point), P.order = some n → n % 2 = 1 → Denotes c P P' → n • P' = 0 →
      (∀ k : Nat, 0 < k → k < n → k • P' ≠ 0) → P.mul c e = .ok R → Reduced c R ∧ Denotes c R (e • P') := by
  have hp : 0 < c.p := (Fact.out : c.p.Prime).pos
  refine ⟨add_reduced_xy hp hP (.inr hQ), double_reduced_xy hp, ?_⟩
  intro n e P' ho hn hD h0 hord hR
  have heff : effective P e = e % (n : Int) := by
    unfold effective
    rw [ho]
    obtain ⟨m, rfl⟩ : ∃ m, n = m + 1 := ⟨n - 1, by omega⟩
    rfl
  have he0 := Int.emod_nonneg e (b := n) (by omega)
  have he1 := Int.emod_lt_of_pos e (b := n) (by omega)
  have hsm : (e % (n : Int)).toNat • P' = e • P' := by
    rw [← natCast_zsmul, Int.toNat_of_nonneg he0]
    conv_rhs => rw [← Int.emod_add_mul_ediv e n, add_zsmul, mul_comm, mul_zsmul, natCast_zsmul, h0, zsmul_zero, add_zero]
  constructor
  · have hmul : Point.mul c P e =
        if effective P e = 0 then .ok .infinity
        else match P with
          | .infinity => .ok .infinity
          | .affine x y o =>
            if effective P e > 0 then
              match Point.make c x (-y) o with
              | .error err => .error err
              | .ok negSelf =>
                Point.mulLoop c P negSelf (effective P e).toNat (3 * (effective P e).toNat)
                  (Point.leftmostBit (3 * (effective P e).toNat) / 2)
                  (Point.leftmostBit (3 * (effective P e).toNat) / 2) P
            else .error .assertionError := by
      cases P <;> rfl
    rw [hmul] at hR
    by_cases hz : effective P e = 0
    · rw [if_pos hz] at hR; cases hR; trivial
    · rw [if_neg hz] at hR
      cases P with
      | infinity => cases hR; trivial
      | affine x y o =>
        simp only at hR
        rw [if_pos (by omega)] at hR
        obtain ⟨hm, hN⟩ := neg_denotes hreg hD o
        rw [hm] at hR
        simp only at hR
        have hE : (effective (.affine x y o) e).toNat < n := by omega
        generalize hEE : (effective (.affine x y o) e).toNat = E at *
        have hE0 : 0 < E := by omega
        rw [leftmostBit_eq _ (by omega)] at hR
        have hlog : 1 ≤ Nat.log 2 (3 * E) := Nat.log_pos (by norm_num) (by omega)
        obtain ⟨j, hj⟩ : ∃ j, Nat.log 2 (3 * E) = j + 1 := ⟨Nat.log 2 (3 * E) - 1, by omega⟩
        have hi2 : 2 ^ (j + 1) / 2 = 2 ^ j := by rw [pow_succ]; omega
        rw [hj, hi2] at hR
        refine mulLoop_reduced_xy hreg hD hN hP E n hn hE hord j _ _ _ hP ?_ hR
        have l1 : 2 ^ (j + 1) ≤ 3 * E := by rw [← hj]; exact Nat.pow_log_le_self 2 (by omega)
        have l2 : 3 * E < 2 ^ (j + 1) * 2 := by
          rw [← hj, ← pow_succ]; exact Nat.lt_pow_succ_log_self (by norm_num) _
        have d3 : 3 * E / 2 ^ (j + 1) = 1 := by
          apply Nat.div_eq_of_lt_le <;> omega
        have d1 : E / 2 ^ (j + 1) = 0 := Nat.div_eq_of_lt (by omega)
        rw [d3, d1]
        simpa using hD
  · rcases mul_result hreg hD e (by rw [heff]; exact he0) with ⟨R', hR', hD'⟩ | ⟨hE, _⟩
    · rw [hR] at hR'
      cases hR'
      rwa [heff, hsm] at hD'
    · rw [hR] at hE; cases hE

/-- C91. On secp256k1, multiples of a reduced point with its declared order are reduced points, whatever the multiplier;
so equal multiples are `==`. -/
theorem C91_secp (P : Point) (P' : (curve secp).Point) (hr : Reduced secp P) (ho : P.order = some secpN)
    (hD : Denotes secp P P') (e : Int) : ∃ R, P.mul secp e = .ok R ∧ Reduced secp R ∧ Denotes secp R (e • P') := by
  have h0 : P' ≠ 0 := by
    cases hD with
    | infinity => cases ho
    | affine x y o hx hx' hn => exact WeierstrassCurve.Affine.Point.some_ne_zero hn
  have hord := addOrderOf_secp h0
  have hodd : secpN % 2 = 1 := by decide
  have hz : secpN • P' = 0 := by rw [← hord]; exact addOrderOf_nsmul_eq_zero P'
  have hlt : ∀ k : Nat, 0 < k → k < secpN → k • P' ≠ 0 := by
    intro k hk hk' h
    exact nsmul_ne_zero_of_lt_addOrderOf hk.ne' (by rw [hord]; exact hk') h
  have heff : 0 ≤ reducedMultiplier P e := by
    cases P with
    | infinity => cases ho
    | affine x y o =>
      simp only [Point.order] at ho
      subst ho
      exact Int.emod_nonneg e (by decide)
  obtain ⟨R, hR, _⟩ := C23_mul_odd_partial secp secp_regular P P' hD secpN hodd hz e heff
  exact ⟨R, hR, (C91_reduced_partial secp secp_regular P P R hr hr).2.2 secpN e P' ho hodd hD hz hlt hR⟩

/-! ## Printing -/

theorem showInt_cons (n : Int) : ∃ c t, showInt n = c :: t ∧ (c = '-' ↔ n < 0) := by
  unfold showInt
  split
  · next h => exact ⟨'-', _, rfl, by simp [h]⟩
  · next h =>
    obtain ⟨h1, h2⟩ := decText_chars n.natAbs
    match he : Opcode.decText n.natAbs with
    | [] => exact absurd he h1
    | c :: t =>
      refine ⟨c, t, rfl, ⟨fun hc => ?_, fun hn => absurd hn h⟩⟩
      have := (h2 c (by rw [he]; simp)).1
      rw [hc] at this
      exact absurd this (by decide)

theorem showInt_inj {m n : Int} (h : showInt m = showInt n) : m = n := by
  have key : (m < 0 ↔ n < 0) := by
    obtain ⟨c, t, h1, h2⟩ := showInt_cons m
    obtain ⟨d, u, h3, h4⟩ := showInt_cons n
    rw [h1, h3] at h
    cases h
    rw [← h2, ← h4]
  have dec : ∀ a b : Nat, Opcode.decText a = Opcode.decText b → a = b := by
    intro a b hab
    rw [← intOfText_decText a, hab, intOfText_decText]
  unfold showInt at h
  by_cases hm : m < 0
  · rw [if_pos hm, if_pos (key.1 hm)] at h
    have hn := key.1 hm
    have := dec _ _ (List.cons.inj h).2
    omega
  · rw [if_neg hm, if_neg (fun hn => hm (key.2 hn))] at h
    have hn : ¬ n < 0 := fun hn => hm (key.2 hn)
    have := dec _ _ h
    omega

theorem showInt_chars {n : Int} {c : Char} (h : c ∈ showInt n) : c = '-' ∨ ('0' ≤ c ∧ c ≤ '9') := by
  unfold showInt at h
  split at h
  · rcases List.mem_cons.1 h with h | h
    · exact .inl h
    · exact .inr ⟨((decText_chars _).2 c h).1, ((decText_chars _).2 c h).2.1⟩
  · exact .inr ⟨((decText_chars _).2 c h).1, ((decText_chars _).2 c h).2.1⟩

/-- Texts that end at the first character of a kind that the parts before it do not have. -/
theorem split_first {a b a' b' : Text} {s : Char} (h : a ++ s :: b = a' ++ s :: b') (ha : s ∉ a) (ha' : s ∉ a') :
    a = a' ∧ b = b' := by
  induction a generalizing a' with
  | nil =>
    cases a' with
    | nil => simpa using h
    | cons c t => simp at h; exact absurd (by rw [h.1]; simp) ha'
  | cons c t ih =>
    cases a' with
    | nil => simp at h; exact absurd (by rw [h.1]; simp) ha
    | cons d u =>
      simp only [List.cons_append, List.cons.injEq] at h
      obtain ⟨h1, h2⟩ := ih h.2 (fun hm => ha (by simp [hm])) (fun hm => ha' (by simp [hm]))
      exact ⟨by rw [h.1, h1], h2⟩

/-- C91. `str` always succeeds for points of one curve object, and tells exactly the points apart that are not `==`. -/
theorem C91_str (c : CurveObj) (P P' : PointObj) (Q Q' : Point) (h : Stands c P Q) (h' : Stands c P' Q') :
    ∃ t t', P.str = .ok t ∧ P'.str = .ok t' ∧ (t = t' ↔ P.eq P' = true) := by
  have hinf : PointObj.str .infinity = .ok "infinity".toList := rfl
  have haff : ∀ x y o, PointObj.str ⟨some c, some x, some y, o⟩ = .ok ('(' :: showInt x ++ ',' :: showInt y ++ [')']) := by
    intro x y o
    unfold PointObj.str
    rw [eq_infinity_affine]
    simp only [Bool.false_eq_true, if_false]
  have hne : ∀ t : Text, "infinity".toList ≠ '(' :: t := by
    intro t he
    have := congrArg List.head? he
    simp only [List.head?_cons] at this
    exact absurd this (by decide)
  have hcomma : ∀ n, ',' ∉ showInt n := by
    intro n hm
    rcases showInt_chars hm with h | h
    · exact absurd h (by decide)
    · exact absurd h.1 (by decide)
  cases h with
  | infinity =>
    cases h' with
    | infinity => exact ⟨_, _, hinf, hinf, ⟨fun _ => rfl, fun _ => rfl⟩⟩
    | affine x y o =>
      exact ⟨_, _, hinf, haff .., ⟨fun h => absurd h (hne _), fun h => absurd h (by simp [PointObj.eq, PointObj.infinity, CurveObj.same])⟩⟩
  | affine x y o =>
    cases h' with
    | infinity =>
      exact ⟨_, _, haff .., hinf, ⟨fun h => absurd h.symm (hne _), fun h => absurd h (by simp [PointObj.eq, PointObj.infinity, CurveObj.same])⟩⟩
    | affine x' y' o' =>
      refine ⟨_, _, haff .., haff .., ?_⟩
      simp only [PointObj.eq, same_self, Bool.true_and, Bool.and_eq_true, beq_iff_eq, Option.some.injEq]
      constructor
      · intro h
        simp only [List.cons_append, List.append_assoc, List.cons.injEq, true_and] at h
        obtain ⟨h1, h2⟩ := split_first h (hcomma x) (hcomma x')
        exact ⟨showInt_inj h1, showInt_inj (List.append_cancel_right h2)⟩
      · rintro ⟨rfl, rfl⟩; rfl

/-- C91. `str` of a curve shows its parameters. -/
theorem C91_curve_str (c d : CurveObj) : c.str = d.str ↔ c.curve = d.curve := by
  have hstar : ∀ n, '*' ∉ showInt n := by
    intro n hm
    rcases showInt_chars hm with h | h
    · exact absurd h (by decide)
    · exact absurd h.1 (by decide)
  have hspace : ∀ n, ' ' ∉ showInt n := by
    intro n hm
    rcases showInt_chars hm with h | h
    · exact absurd h (by decide)
    · exact absurd h.1 (by decide)
  constructor
  · intro h
    unfold CurveObj.str at h
    simp only [List.append_assoc] at h
    have h := List.append_cancel_left h
    obtain ⟨h1, h⟩ := split_first (s := '*') h (hstar _) (hstar _)
    have h := List.append_cancel_left (as := "x + ".toList) h
    obtain ⟨h2, h⟩ := split_first (s := ' ') h (hspace _) (hspace _)
    have h := List.append_cancel_left (as := "(mod ".toList) h
    have h3 := List.append_cancel_right h
    have e1 := showInt_inj h1
    have e2 := showInt_inj h2
    have e3 := showInt_inj h3
    obtain ⟨i, p, a, b⟩ := c
    obtain ⟨j, q, a', b'⟩ := d
    simp only at e1 e2 e3
    simp [e1, e2, Int.ofNat.inj e3]
  · intro h
    unfold CurveObj.str
    rw [h]

/-- C91. Points without a curve or without coordinates, other than INFINITY, can be made without a curve only; what is
computed with them raises. -/
theorem C91_incomplete (c : CurveObj) (x y x' y' o o' : Option Int) (e : Int) :
    (x = none ∨ y = none → PointObj.init (some c) x y o = .error .typeError) ∧
    PointObj.init none x y o = .ok ⟨none, x, y, o⟩ ∧
    (x ≠ none ∨ y ≠ none →
      PointObj.double ⟨none, x, y, o⟩ = .error .attributeError ∧
      (x' ≠ none ∨ y' ≠ none → PointObj.add ⟨none, x, y, o⟩ ⟨none, x', y', o'⟩ =
        .error (if x = x' ∧ (y = none ∨ y' = none) then .typeError else .attributeError)) ∧
      (x = none ∨ y = none → PointObj.str ⟨none, x, y, o⟩ = .error .typeError) ∧
      (0 < PointObj.exponent o e → y = none → PointObj.mul ⟨none, x, y, o⟩ e = .error .typeError) ∧
      (PointObj.exponent o e < 0 → PointObj.mul ⟨none, x, y, o⟩ e = .error .assertionError)) := by
  refine ⟨?_, ?_, fun h => ⟨?_, fun h' => ?_, ?_, ?_, ?_⟩⟩
  · intro h
    rw [C91_order_check]
    rcases h with rfl | rfl
    · rfl
    · cases x <;> rfl
  · rw [C91_order_check]; rfl
  all_goals
    have hi : ∀ o, PointObj.eq ⟨none, x, y, o⟩ .infinity = false := by
      intro o
      cases x <;> cases y <;> first | rfl | simp at h
  · unfold PointObj.double; rw [hi]; rfl
  · have hi' : ∀ o, PointObj.eq ⟨none, x', y', o⟩ .infinity = false := by
      intro o
      cases x' <;> cases y' <;> first | rfl | simp at h'
    unfold PointObj.add
    rw [hi, hi']
    simp only [Bool.false_eq_true, if_false, same_self, Bool.not_true]
    by_cases hx : x = x'
    · rw [if_pos hx]
      cases y <;> cases y' <;> simp [hx]
    · rw [if_neg hx, if_neg (fun h => hx h.1)]
  · intro h0
    unfold PointObj.str; rw [hi]
    cases x <;> cases y <;> first | rfl | simp at h0
  · rintro he rfl
    unfold PointObj.mul PointObj.mulWith
    simp only [hi, Bool.false_eq_true, if_false, he, he.ne', if_true]
  · intro he
    unfold PointObj.mul PointObj.mulWith
    simp only [hi, Bool.false_eq_true, if_false, he.ne, not_lt.2 he.le]

example : PointObj.mul ⟨none, some 1, none, none⟩ 5 = .error .typeError :=
  (((C91_incomplete ⟨5, curve11⟩ (some 1) none none none none none 5).2.2 (.inl (by simp))).2.2.2.1 (by decide) rfl)
/-- The hypotheses are met by (1, 4) on the curve over GF(11), with its order 9, and by the generator of secp256k1. -/
example : let c : CurveObj := ⟨5, curve11⟩
    let P : PointObj := ⟨some c, some 1, some 4, some 9⟩
    Stands c P (.affine 1 4 (some 9)) ∧ Reduced curve11 (.affine 1 4 (some 9)) ∧
    PointObj.init (some c) (some 1) (some 4) (some 9) = .ok P ∧
    P.mul 35 = .ok ⟨some c, some 1, some 7, none⟩ ∧ P.mul 8 = .ok ⟨some c, some 1, some 7, none⟩ ∧
    P.str = .ok "(1,4)".toList ∧ c.str = "y^2 = x^3 + 2*x + 2 (mod 11)".toList :=
  ⟨.affine 1 4 (some 9), by unfold Reduced; decide, by decide +kernel, by decide +kernel, by decide +kernel, by decide +kernel,
    by decide +kernel⟩

example : Reduced secp secpG ∧ secpG.order = some secpN ∧ ∃ P', Denotes secp secpG P' := by
  refine ⟨by unfold Reduced secpG; decide, rfl, _, .affine _ _ _ (by decide) (by decide)
    ((containsPoint_iff_nonsingular secp_regular _ _).1 (by decide +kernel))⟩

end Bitforge
