import Verif.Ecdsa
import Verif.Proofs.PubKey
import Verif.Proofs.SecpReduced
import Verif.Spec.Ecdsa

/-! # Lemmas about ECDSA -/

namespace Bitforge
open Spec WeierstrassCurve.Affine

theorem secpN_pos : (0 : Int) < secpN := by decide

theorem zsmul_mod (a : Int) (Q : SecpGroup) : (a % (secpN : Int)) • Q = a • Q := by
  conv_rhs => rw [← Int.emod_add_mul_ediv a (secpN : Int)]
  rw [add_zsmul, mul_comm (secpN : Int), mul_zsmul, natCast_zsmul, secpN_smul, zsmul_zero, add_zero]

theorem zsmul_congr {a b : Int} (h : a % (secpN : Int) = b % (secpN : Int)) (Q : SecpGroup) : a • Q = b • Q := by
  rw [← zsmul_mod a, h, zsmul_mod]

theorem zsmul_G_eq_zero_iff (a : Int) : a • G = 0 ↔ a % (secpN : Int) = 0 := by
  rw [← addOrderOf_dvd_iff_zsmul_eq_zero, addOrderOf_G, Int.dvd_iff_emod_eq_zero]

theorem gcd_secpN {a : Int} (h : a % (secpN : Int) ≠ 0) : Int.gcd a secpN = 1 := by
  rw [Int.gcd_comm, ← Int.isCoprime_iff_gcd_eq_one]
  refine (Prime.coprime_iff_not_dvd (Nat.prime_iff_prime_int.1 prime_secpN)).2 ?_
  rw [Int.dvd_iff_emod_eq_zero]; exact h

theorem inverseMod_secpN {a : Int} (h : a % (secpN : Int) ≠ 0) :
    ∃ w, inverseMod a secpN = .ok w ∧ 1 ≤ w ∧ w < secpN ∧ (a * w) % (secpN : Int) = 1 := by
  have hN := secpN_pos
  obtain ⟨w, hw, h1, h2, hd⟩ := (inverseMod_spec a secpN (by omega)).1 (gcd_secpN h)
  have e : (a * w) % (secpN : Int) = 1 := by
    have := Int.emod_eq_emod_iff_emod_sub_eq_zero.2 (Int.emod_eq_zero_of_dvd hd)
    rw [this]; decide
  refine ⟨w, hw, h1, ?_, e⟩
  rcases lt_or_eq_of_le h2 with h | h
  · exact h
  · rw [h, Int.mul_emod_left] at e; omega

/-! ## Points computed with -/

/-- A declared order that is absent or `n`. -/
def GoodOrder (P : Point) : Prop := P.order = none ∨ P.order = some secpN

/-- A point denoting `Q` with reduced coordinates and no wrong declared order. -/
structure Nice (P : Point) (Q : SecpGroup) : Prop where
  denotes : Denotes secp P Q
  red : YReduced secp P
  order : GoodOrder P

theorem make_order {x y : Int} {o : Option Nat} {R : Point} (h : Point.make secp x y o = .ok R) :
    R.order = o := by
  unfold Point.make at h
  split at h
  · cases h; rfl
  · cases h

theorem double_order {P R : Point} (h : Point.double secp P = .ok R) : R.order = none := by
  cases P with
  | infinity => cases h; rfl
  | affine x y o =>
    simp only [Point.double] at h
    split at h
    · cases h
    · exact make_order h

theorem add_order {P Q R : Point} (h : Point.add secp P Q = .ok R) (hP : GoodOrder P) (hQ : GoodOrder Q) :
    GoodOrder R := by
  cases P with
  | infinity => cases Q <;> cases h <;> assumption
  | affine x1 y1 o1 =>
    cases Q with
    | infinity => cases h; exact hP
    | affine x2 y2 o2 =>
      left
      simp only [Point.add] at h
      split at h
      · split at h
        · cases h; rfl
        · exact double_order h
      · split at h
        · cases h
        · exact make_order h

theorem mulLoop_order {P N : Point} (hP : GoodOrder P) (hN : GoodOrder N) (e e3 : Nat) :
    ∀ fuel i R R', GoodOrder R → Point.mulLoop secp P N e e3 fuel i R = .ok R' → GoodOrder R' := by
  intro fuel
  induction fuel with
  | zero => intro i R R' h hm; cases hm; exact h
  | succ fuel ih =>
    intro i R R' h hm
    unfold Point.mulLoop at hm
    split at hm
    · cases hd : Point.double secp R with
      | error err => rw [hd] at hm; cases hm
      | ok R1 =>
        rw [hd] at hm
        have h1 : GoodOrder R1 := .inl (double_order hd)
        simp only [bind, Except.bind] at hm
        by_cases c1 : e3 &&& i ≠ 0 ∧ e &&& i = 0
        · rw [if_pos c1] at hm
          cases ha : Point.add secp R1 P with
          | error err => rw [ha] at hm; cases hm
          | ok R2 =>
            rw [ha] at hm
            simp only at hm
            rw [if_neg (fun hc => c1.1 hc.1)] at hm
            exact ih _ R2 R' (add_order ha h1 hP) hm
        · rw [if_neg c1] at hm
          by_cases c2 : e3 &&& i = 0 ∧ e &&& i ≠ 0
          · rw [if_pos c2] at hm
            cases ha : Point.add secp R1 N with
            | error err => rw [ha] at hm; cases hm
            | ok R2 =>
              rw [ha] at hm
              exact ih _ R2 R' (add_order ha h1 hN) hm
          · rw [if_neg c2] at hm
            exact ih _ R1 R' h1 hm
    · cases hm; exact h

theorem mul_order {P R : Point} {e : Int} (hP : GoodOrder P) (h : Point.mul secp P e = .ok R) : GoodOrder R := by
  have hmul : Point.mul secp P e =
      if effective P e = 0 then .ok .infinity
      else match P with
        | .infinity => .ok .infinity
        | .affine x y o =>
          if effective P e > 0 then
            match Point.make secp x (-y) o with
            | .error err => .error err
            | .ok negSelf =>
              Point.mulLoop secp P negSelf (effective P e).toNat (3 * (effective P e).toNat)
                (Point.leftmostBit (3 * (effective P e).toNat) / 2)
                (Point.leftmostBit (3 * (effective P e).toNat) / 2) P
          else .error .assertionError := by
    cases P <;> rfl
  rw [hmul] at h
  by_cases h0 : effective P e = 0
  · rw [if_pos h0] at h; cases h; exact .inl rfl
  · rw [if_neg h0] at h
    cases P with
    | infinity => cases h; exact .inl rfl
    | affine x y o =>
      simp only at h
      by_cases h1 : effective (.affine x y o) e > 0
      · rw [if_pos h1] at h
        cases hm : Point.make secp x (-y) o with
        | error err => rw [hm] at h; cases h
        | ok N =>
          rw [hm] at h
          exact mulLoop_order hP (by unfold GoodOrder; rw [make_order hm]; exact hP) _ _ _ _ _ _ hP h
      · rw [if_neg h1] at h; cases h

theorem effective_good {P : Point} (hP : GoodOrder P) {e : Int} (h0 : 0 ≤ e) (h1 : e < secpN) :
    effective P e = e := by
  unfold effective
  rcases hP with h | h
  · rw [h]
  · rw [h]; exact Int.emod_eq_of_lt h0 h1

theorem nice_G : Nice secpG G := ⟨denotes_G _, G_reduced _, .inr rfl⟩

theorem nice_mul {P : Point} {Q : SecpGroup} (hP : Nice P Q) (e : Int) (h0 : 0 ≤ e) (h1 : e < secpN) :
    ∃ R, Point.mul secp P e = .ok R ∧ Nice R (e • Q) := by
  have he := effective_good hP.order h0 h1
  obtain ⟨R, hR, hD⟩ := secp_mul hP.denotes e (by omega)
  rw [he, ← natCast_zsmul, Int.toNat_of_nonneg h0] at hD
  exact ⟨R, hR, hD, secp_mul_reduced hP.denotes hP.red e (by omega) (by omega) hR, mul_order hP.order hR⟩

theorem nice_add {P P' : Point} {Q Q' : SecpGroup} (hP : Nice P Q) (hP' : Nice P' Q') :
    ∃ R, Point.add secp P P' = .ok R ∧ Nice R (Q + Q') := by
  obtain ⟨R, hR, hD⟩ := add_denotes secp_regular hP.denotes hP'.denotes
  exact ⟨R, hR, hD, add_reduced hR hP.red fun _ => hP'.red, add_order hR hP.order hP'.order⟩

theorem isPoint_ne_zero {x y : Int} {P : SecpGroup} (h : IsPoint x y P) : P ≠ 0 := by
  obtain ⟨_, rfl⟩ := h; exact Point.some_ne_zero _

theorem isPoint_denotes {x y : Int} {P : SecpGroup} (h : IsPoint x y P) (hx : reduced x) (o : Option Nat) :
    Denotes secp (.affine x y o) P := by
  obtain ⟨hn, rfl⟩ := h
  have := (reduced_iff x).1 hx
  exact .affine _ _ _ this.1 this.2 hn

theorem isPoint_make {x y : Int} {P : SecpGroup} (h : IsPoint x y P) (o : Option Nat) :
    Point.make secp x y o = .ok (.affine x y o) := by
  obtain ⟨hn, _⟩ := h
  exact make_ok secp_regular hn

/-- A point denoting a non-zero element has its coordinates. -/
theorem denotes_cases {R : Point} {T : SecpGroup} (h : Denotes secp R T) :
    (R = .infinity ∧ T = 0) ∨ ∃ x y o, R = .affine x y o ∧ reduced x ∧ IsPoint x y T := by
  cases h with
  | infinity => exact .inl ⟨rfl, rfl⟩
  | affine x y o hx hx' hn => exact .inr ⟨x, y, o, rfl, (reduced_iff x).2 ⟨hx, hx'⟩, hn, rfl⟩

theorem isPoint_x_unique {x y x' y' : Int} {T : SecpGroup} (h : IsPoint x y T) (h' : IsPoint x' y' T)
    (hx : reduced x) (hx' : reduced x') : x = x' := by
  obtain ⟨_, rfl⟩ := h
  obtain ⟨_, e⟩ := h'
  injection e with e1 e2
  rw [reduced_iff] at hx hx'
  exact reduced_inj (c := secp) hx.1 hx.2 hx'.1 hx'.2 e1

theorem isPoint_y_unique {x y x' y' : Int} {T : SecpGroup} (h : IsPoint x y T) (h' : IsPoint x' y' T)
    (hy : reduced y) (hy' : reduced y') : y = y' := by
  obtain ⟨_, rfl⟩ := h
  obtain ⟨_, e⟩ := h'
  injection e with e1 e2
  rw [reduced_iff] at hy hy'
  exact reduced_inj (c := secp) hy.1 hy.2 hy'.1 hy'.2 e2

/-! ## verify -/

theorem verify_out_of_range {qx qy z r s : Int} (h : ¬ (1 ≤ r ∧ r ≤ secpN - 1 ∧ 1 ≤ s ∧ s ≤ secpN - 1)) :
    Ecdsa.verify secp secpG (qx, qy) z (r, s) = .ok false := by
  unfold Ecdsa.verify
  simp only [show secpG.order = some secpN from rfl]
  by_cases hr : r < 1 ∨ r > (secpN : Int) - 1
  · rw [if_pos hr]
  · rw [if_neg hr, if_pos (by omega)]

theorem verify_eq {qx qy z r s : Int} {Q : SecpGroup} (hQ : IsPoint qx qy Q) (hx : reduced qx)
    (hr : 1 ≤ r) (hr' : r ≤ secpN - 1) (hs : 1 ≤ s) (hs' : s ≤ secpN - 1) :
    ∃ w, (s * w) % (secpN : Int) = 1 ∧
      (((z * w) • G + (r * w) • Q = 0 ∧ Ecdsa.verify secp secpG (qx, qy) z (r, s) = .error .typeError) ∨
       ∃ x y, reduced x ∧ IsPoint x y ((z * w) • G + (r * w) • Q) ∧
         Ecdsa.verify secp secpG (qx, qy) z (r, s) = .ok (x % (secpN : Int) == r)) := by
  have hN := secpN_pos
  obtain ⟨w, hw, _, _, hsw⟩ := inverseMod_secpN (a := s) (by rw [Int.emod_eq_of_lt (by omega) (by omega)]; omega)
  have u1r : 0 ≤ (z * w) % (secpN : Int) ∧ (z * w) % (secpN : Int) < secpN :=
    ⟨Int.emod_nonneg _ (by omega), Int.emod_lt_of_pos _ hN⟩
  have u2r : 0 ≤ (r * w) % (secpN : Int) ∧ (r * w) % (secpN : Int) < secpN :=
    ⟨Int.emod_nonneg _ (by omega), Int.emod_lt_of_pos _ hN⟩
  obtain ⟨P1, hP1, n1⟩ := nice_mul nice_G _ u1r.1 u1r.2
  rw [zsmul_mod] at n1
  have hD := isPoint_denotes hQ hx (some secpN)
  have he : effective (.affine qx qy (some secpN)) ((r * w) % (secpN : Int)) = (r * w) % (secpN : Int) :=
    effective_good (.inr rfl) u2r.1 u2r.2
  obtain ⟨P2, hP2, d2⟩ := secp_mul hD ((r * w) % (secpN : Int)) (by rw [he]; exact u2r.1)
  rw [he, ← natCast_zsmul, Int.toNat_of_nonneg u2r.1, zsmul_mod] at d2
  obtain ⟨R, hR, hDR⟩ := add_denotes secp_regular n1.denotes d2
  have hv : Ecdsa.verify secp secpG (qx, qy) z (r, s) =
      match R.pair with
      | none => .error .typeError
      | some (x, _) => .ok (x % (secpN : Int) == r) := by
    unfold Ecdsa.verify
    simp only [show secpG.order = some secpN from rfl]
    rw [if_neg (by omega), if_neg (by omega)]
    simp only [hw, hP1, isPoint_make hQ, hP2, hR, bind, Except.bind]
    cases R <;> rfl
  refine ⟨w, hsw, ?_⟩
  rcases denotes_cases hDR with ⟨rfl, h0⟩ | ⟨x, y, o, rfl, hx, hp⟩
  · exact .inl ⟨h0, hv⟩
  · exact .inr ⟨x, y, hx, hp, hv⟩

theorem inv_unique {s w w' : Int} (h : (s * w) % (secpN : Int) = 1) (h' : (s * w') % (secpN : Int) = 1) :
    w % (secpN : Int) = w' % (secpN : Int) := by
  have e1 : (w * (s * w')) % (secpN : Int) = w % (secpN : Int) := by
    rw [Int.mul_emod, h', mul_one, Int.emod_emod_of_dvd _ dvd_rfl]
  have e2 : (w' * (s * w)) % (secpN : Int) = w' % (secpN : Int) := by
    rw [Int.mul_emod, h, mul_one, Int.emod_emod_of_dvd _ dvd_rfl]
  rw [← e1, ← e2]; congr 1; ring

theorem mul_mod_congr {a w w' : Int} (h : w % (secpN : Int) = w' % (secpN : Int)) :
    (a * w) % (secpN : Int) = (a * w') % (secpN : Int) := by
  rw [Int.mul_emod, h, ← Int.mul_emod]

/-- Exact behaviour of `verify` on signatures in range. -/
theorem verify_iff {qx qy z r s : Int} {Q : SecpGroup} (hQ : IsPoint qx qy Q) (hx : reduced qx) :
    Ecdsa.verify secp secpG (qx, qy) z (r, s) = .ok true ↔ ValidSig Q z r s := by
  by_cases hrange : 1 ≤ r ∧ r ≤ secpN - 1 ∧ 1 ≤ s ∧ s ≤ secpN - 1
  · obtain ⟨h1, h2, h3, h4⟩ := hrange
    obtain ⟨w, hw, h⟩ := verify_eq (z := z) hQ hx h1 h2 h3 h4
    have hrm : r % (secpN : Int) = r := Int.emod_eq_of_lt (by omega) (by omega)
    have key : ∀ w', (s * w') % (secpN : Int) = 1 →
        (z * w') • G + (r * w') • Q = (z * w) • G + (r * w) • Q := by
      intro w' hw'
      have := inv_unique hw' hw
      rw [zsmul_congr (mul_mod_congr this (a := z)) G, zsmul_congr (mul_mod_congr this (a := r)) Q]
    constructor
    · intro hv
      refine ⟨h1, h2, h3, h4, ?_⟩
      rcases h with ⟨_, he⟩ | ⟨x, y, hxr, hp, he⟩
      · rw [he] at hv; cases hv
      · rw [he] at hv
        have hb : (x % (secpN : Int) == r) = true := by injection hv
        exact ⟨w, x, hw, ⟨hxr, y, hp⟩, by rw [hrm]; exact beq_iff_eq.1 hb⟩
    · rintro ⟨_, _, _, _, w', x', hw', ⟨hxr', y', hp'⟩, he'⟩
      rw [key w' hw'] at hp'
      rcases h with ⟨h0, _⟩ | ⟨x, y, hxr, hp, he⟩
      · exact absurd h0 (isPoint_ne_zero hp')
      · rw [he]
        rw [isPoint_x_unique hp' hp hxr' hxr, hrm] at he'
        rw [he', beq_self_eq_true]
  · rw [verify_out_of_range hrange]
    constructor
    · intro h; cases h
    · rintro ⟨h1, h2, h3, h4, _⟩; exact absurd ⟨h1, h2, h3, h4⟩ hrange

/-! ## sign -/

theorem signWith_eq (d z : Int) (k : Nat) (hk : 1 ≤ k) (hk' : k < secpN) :
    ∃ r y w : Int, reduced r ∧ reduced y ∧ IsPoint r y (k • G) ∧ ((k : Int) * w) % (secpN : Int) = 1 ∧
      Ecdsa.signWith secp secpG secpN d z k =
        if r = 0 then .error .runtimeError
        else if (w * (z + (d * r) % (secpN : Int))) % (secpN : Int) = 0 then .error .runtimeError
        else .ok (r, (w * (z + (d * r) % (secpN : Int))) % (secpN : Int)) := by
  obtain ⟨x, y, o, hm, hx, hx', hy, hy', hD⟩ := mul_G k (by omega) (by omega)
  rw [Int.toNat_natCast] at hD
  obtain ⟨w, hw, _, _, hkw⟩ := inverseMod_secpN (a := (k : Int))
    (by rw [Int.emod_eq_of_lt (by omega) (by omega)]; omega)
  refine ⟨x, y, w, (reduced_iff x).2 ⟨hx, hx'⟩, (reduced_iff y).2 ⟨hy, hy'⟩, denotes_isPoint hD, hkw, ?_⟩
  unfold Ecdsa.signWith
  simp only [hm, bind, Except.bind, Point.pair, hw]

/-- `s·k = z + d·r` modulo `n` for a signature made with nonce `k`. -/
theorem signWith_ok {d z : Int} {k : Nat} (hk : 1 ≤ k) (hk' : k < secpN) {r s : Int}
    (h : Ecdsa.signWith secp secpG secpN d z k = .ok (r, s)) :
    reduced r ∧ r ≠ 0 ∧ (∃ y, reduced y ∧ IsPoint r y (k • G)) ∧ 1 ≤ s ∧ s ≤ secpN - 1 ∧
      (s * k) % (secpN : Int) = (z + d * r) % (secpN : Int) := by
  have hN := secpN_pos
  obtain ⟨r', y, w, hr, hy, hp, hkw, he⟩ := signWith_eq d z k hk hk'
  rw [he] at h
  split at h
  · cases h
  · next hr0 =>
    split at h
    · cases h
    · next hs0 =>
      injection h with h
      injection h with h1 h2
      subst h1
      have b1 := Int.emod_nonneg (w * (z + (d * r') % (secpN : Int))) (show (secpN : Int) ≠ 0 by omega)
      have b2 := Int.emod_lt_of_pos (w * (z + (d * r') % (secpN : Int))) hN
      refine ⟨hr, hr0, ⟨y, hy, hp⟩, by omega, by omega, ?_⟩
      rw [← h2, Int.mul_emod, Int.emod_emod_of_dvd _ dvd_rfl, ← Int.mul_emod]
      have : (w * (z + d * r' % (secpN : Int)) * k) = ((k : Int) * w) * (z + d * r' % (secpN : Int)) := by ring
      rw [this, Int.mul_emod, hkw, one_mul, Int.emod_emod_of_dvd _ dvd_rfl, Int.add_emod_emod]

theorem kLoop_range (H : Hashes) (n sz : Nat) : ∀ fuel k v r, Ecdsa.kLoop H n sz fuel k v = .ok r →
    1 ≤ r ∧ r < n := by
  intro fuel
  induction fuel with
  | zero => intro k v r h; cases h
  | succ fuel ih =>
    intro k v r h
    unfold Ecdsa.kLoop at h
    simp only at h
    split at h
    · next hc => cases h; exact hc
    · exact ih _ _ _ h

/-- The verification sum of an honest signature is `k·G`. -/
theorem honest_sum {d z r s w : Int} {k : Nat} (hw : (s * w) % (secpN : Int) = 1)
    (hs : (s * k) % (secpN : Int) = (z + d * r) % (secpN : Int)) :
    (z * w) • G + (r * w) • (d • G) = k • G := by
  rw [← mul_zsmul', ← add_zsmul, ← natCast_zsmul]
  apply zsmul_congr
  have e : z * w + d * (r * w) = (z + d * r) * w := by ring
  have e' : z * w + r * w * d = (z + d * r) * w := by ring
  first
    | rw [e, Int.mul_emod, ← hs, ← Int.mul_emod]
    | rw [e', Int.mul_emod, ← hs, ← Int.mul_emod]
  have : s * k * w = k * (s * w) := by ring
  rw [this, Int.mul_emod, hw, mul_one, Int.emod_emod_of_dvd _ dvd_rfl]

/-! ## Public key recovery -/

theorem isPoint_nice {x y : Int} {T : SecpGroup} (h : IsPoint x y T) (hx : reduced x) (hy : reduced y) :
    Nice (.affine x y (some secpN)) T := by
  have := (reduced_iff y).1 hy
  exact ⟨isPoint_denotes h hx _, ⟨this.1, this.2⟩, .inr rfl⟩

theorem nice_cases {R : Point} {T : SecpGroup} (h : Nice R T) :
    (R = .infinity ∧ T = 0) ∨ ∃ x y o, R = .affine x y o ∧ reduced x ∧ reduced y ∧ IsPoint x y T := by
  rcases denotes_cases h.denotes with h0 | ⟨x, y, o, rfl, hx, hp⟩
  · exact .inl h0
  · exact .inr ⟨x, y, o, rfl, hx, (reduced_iff y).2 ⟨h.red.1, h.red.2⟩, hp⟩

/-- `Q = r⁻¹(sR - zG)`. -/
def recovered (v z s : Int) (T : SecpGroup) : SecpGroup := v • (s • T + (-z) • G)

theorem recovered_sum {v z r s w : Int} (hv : (r * v) % (secpN : Int) = 1) (hw : (s * w) % (secpN : Int) = 1)
    (T : SecpGroup) : (z * w) • G + (r * w) • recovered v z s T = T := by
  unfold recovered
  have e1 : (r * w * v * s) % (secpN : Int) = 1 % (secpN : Int) := by
    have : r * w * v * s = (r * v) * (s * w) := by ring
    rw [this, Int.mul_emod, hv, hw]; decide
  have e2 : (z * w + r * w * v * (-z)) % (secpN : Int) = 0 % (secpN : Int) := by
    have : z * w + r * w * v * (-z) = z * w * (1 - r * v) := by ring
    rw [this, Int.mul_emod, Int.sub_emod, hv]; simp
  rw [← mul_zsmul', zsmul_add, ← mul_zsmul', ← mul_zsmul']
  have f1 : s * (v * (r * w)) = r * w * v * s := by ring
  have f2 : -z * (v * (r * w)) = r * w * v * (-z) := by ring
  rw [f1, f2, add_left_comm, ← add_zsmul, zsmul_congr e1, zsmul_congr e2, one_zsmul, zero_zsmul, add_zero]

theorem recovered_valid {v z r s : Int} (hv : (r * v) % (secpN : Int) = 1) (hr : 1 ≤ r) (hr' : r ≤ secpN - 1)
    (hs : 1 ≤ s) (hs' : s ≤ secpN - 1) {T : SecpGroup} (hT : HasX T r) :
    ValidSig (recovered v z s T) z r s := by
  obtain ⟨w, _, _, _, hsw⟩ := inverseMod_secpN (a := s) (by rw [Int.emod_eq_of_lt (by omega) (by omega)]; omega)
  exact ⟨hr, hr', hs, hs', w, r, hsw, by rw [recovered_sum hv hsw]; exact hT, rfl⟩

theorem recoverOne_eq {v z r s y : Int} {T : SecpGroup} (hr : 1 ≤ r) (hr' : r ≤ secpN - 1)
    (hs : 1 ≤ s) (hs' : s ≤ secpN - 1) (hv : (r * v) % (secpN : Int) = 1) (hv0 : 0 ≤ v) (hv1 : v < secpN)
    (hx : reduced r) (hy : reduced y) (hT : IsPoint r y T) (points : List (Int × Int)) :
    (recovered v z s T = 0 ∧
      Ecdsa.recoverOne secp secpG secpN z (r, s) v ((-z) % (secpN : Int)) y points = .error .typeError) ∨
    ∃ a b, reduced a ∧ reduced b ∧ IsPoint a b (recovered v z s T) ∧
      Ecdsa.recoverOne secp secpG secpN z (r, s) v ((-z) % (secpN : Int)) y points =
        .ok (if (a, b) ∉ points then points ++ [(a, b)] else points) := by
  have hN := secpN_pos
  obtain ⟨S, hS, nS⟩ := nice_mul (isPoint_nice hT hx hy) s (by omega) (by omega)
  obtain ⟨E, hE, nE⟩ := nice_mul nice_G ((-z) % (secpN : Int)) (Int.emod_nonneg _ (by omega)) (Int.emod_lt_of_pos _ hN)
  rw [zsmul_mod] at nE
  obtain ⟨U, hU, nU⟩ := nice_add nS nE
  obtain ⟨Q, hQ, nQ⟩ := nice_mul nU v hv0 hv1
  change Nice Q (recovered v z s T) at nQ
  rcases nice_cases nQ with ⟨rfl, h0⟩ | ⟨a, b, o, rfl, ha, hb, hp⟩
  · left
    refine ⟨h0, ?_⟩
    obtain ⟨w, hw, -, -, -⟩ := inverseMod_secpN (a := s) (by rw [Int.emod_eq_of_lt (by omega) (by omega)]; omega)
    obtain ⟨V, hV, -⟩ := nice_mul nice_G ((z * w) % (secpN : Int)) (Int.emod_nonneg _ (by omega)) (Int.emod_lt_of_pos _ hN)
    unfold Ecdsa.recoverOne
    simp only [isPoint_make hT, hS, hE, hU, hQ, bind, Except.bind, Point.pair]
    rw [if_neg (by omega)]
    simp only [hw, hV]
  · right
    refine ⟨a, b, ha, hb, hp, ?_⟩
    have hver := (verify_iff hp ha).2 (recovered_valid (z := z) hv hr hr' hs hs' ⟨hx, y, hT⟩)
    unfold Ecdsa.recoverOne
    simp only [isPoint_make hT, hS, hE, hU, hQ, bind, Except.bind, Point.pair, hver, true_and]

/-- Square roots of `x³ + 7`, as the code computes them. -/
theorem sqrt_alpha (r : Int) (hx : reduced r) :
    (∃ (b : Nat) (T : SecpGroup), modularSqrt (((powMod r 3 secp.p : Int) + secp.a * r + secp.b) % (secp.p : Int)) secp.p = .ok b ∧
      reduced b ∧ reduced ((secp.p : Int) - b) ∧ IsPoint r b T ∧ IsPoint r ((secp.p : Int) - b) (-T)) ∨
    ((∀ y, ¬ secp.containsPoint r y = true) ∧
      modularSqrt (((powMod r 3 secp.p : Int) + secp.a * r + secp.b) % (secp.p : Int)) secp.p = .ok 0) := by
  have hp2 : secp.p ≠ 2 := by decide
  set alpha : Int := ((powMod r 3 secp.p : Int) + secp.a * r + secp.b) % (secp.p : Int) with ha
  have hac : (alpha : ZMod secp.p) = (r : ZMod secp.p) ^ 3 + 7 := alpha_cast r
  by_cases hs : IsSquare (alpha : ZMod secp.p)
  · left
    have h0 : (alpha : ZMod secp.p) ≠ 0 := by rw [hac]; exact neg_seven_not_cube _
    obtain ⟨b, hb, hlt, hsq⟩ := modularSqrt_square hp2 alpha h0 hs
    have hb0 : b ≠ 0 := by rintro rfl; apply h0; rw [← hsq]; simp
    have c1 : secp.containsPoint r (b : Int) = true := by
      rw [secp_contains_iff, ← hac, ← hsq]; push_cast; rfl
    have hn := (containsPoint_iff_nonsingular secp_regular _ _).1 c1
    have hI : IsPoint r b (.some _ _ hn) := ⟨hn, rfl⟩
    obtain ⟨_, hD⟩ := neg_denotes secp_regular (isPoint_denotes hI hx none) none
    have hneg := denotes_isPoint hD
    have e : ((((secp.p : Int) - b : Int)) : ZMod secp.p) = ((-(b : Int) : Int) : ZMod secp.p) := by
      push_cast; rw [CharP.cast_eq_zero]; ring
    refine ⟨b, _, hb, (reduced_iff _).2 ⟨by omega, by omega⟩, (reduced_iff _).2 ⟨by omega, by omega⟩, hI, ?_⟩
    obtain ⟨h1, h2⟩ := hneg
    rw [IsPoint, e]
    exact ⟨h1, h2⟩
  · right
    refine ⟨?_, modularSqrt_nonsquare hp2 alpha (Or.inr hs)⟩
    intro y hy
    rw [secp_contains_iff, ← hac] at hy
    exact hs ⟨_, by rw [← hy, sq]⟩

theorem isPoint_pm {r y y' : Int} {T T' : SecpGroup} (h : IsPoint r y T) (h' : IsPoint r y' T') :
    T' = T ∨ T' = -T := by
  obtain ⟨hn, rfl⟩ := h
  obtain ⟨hn', rfl⟩ := h'
  rcases Y_eq_of_X_eq hn'.1 hn.1 rfl with e | e
  · left; congr 1
  · right; rw [Point.neg_some]; congr 1

/-- Exact behaviour of recovery on signatures in range whose `r` is the x-coordinate of `T`. -/
theorem recover_eq {z r s : Int} {T : SecpGroup} (hr : 1 ≤ r) (hr' : r ≤ secpN - 1)
    (hs : 1 ≤ s) (hs' : s ≤ secpN - 1) (hT : HasX T r) :
    ∃ v, (r * v) % (secpN : Int) = 1 ∧
      (((recovered v z s T = 0 ∨ recovered v z s (-T) = 0) ∧
        Ecdsa.possiblePublicPairs secp secpG z (r, s) = .error .typeError) ∨
       (recovered v z s T ≠ 0 ∧ recovered v z s (-T) ≠ 0 ∧
        ∃ l, Ecdsa.possiblePublicPairs secp secpG z (r, s) = .ok l ∧
          ∀ a b, (a, b) ∈ l ↔ reduced a ∧ reduced b ∧
            (IsPoint a b (recovered v z s T) ∨ IsPoint a b (recovered v z s (-T))))) := by
  obtain ⟨hx, y, hy⟩ := hT
  obtain ⟨v, hv, hv1, hv2, hrv⟩ := inverseMod_secpN (a := r) (by rw [Int.emod_eq_of_lt (by omega) (by omega)]; omega)
  refine ⟨v, hrv, ?_⟩
  rcases sqrt_alpha r hx with ⟨b, S, hb, rb, rb', pS, pS'⟩ | ⟨hno, _⟩
  · have hTS := isPoint_pm hy pS
    have hP : Ecdsa.possiblePublicPairs secp secpG z (r, s) =
        match Ecdsa.recoverOne secp secpG secpN z (r, s) v ((-z) % (secpN : Int)) b [] with
        | .error e => .error e
        | .ok points => Ecdsa.recoverOne secp secpG secpN z (r, s) v ((-z) % (secpN : Int)) ((secp.p : Int) - b) points := by
      unfold Ecdsa.possiblePublicPairs
      simp only [show secpG.order = some secpN from rfl, hv, hb, bind, Except.bind]
      cases Ecdsa.recoverOne secp secpG secpN z (r, s) v ((-z) % (secpN : Int)) b [] <;> rfl
    have main : ((recovered v z s S = 0 ∨ recovered v z s (-S) = 0) ∧
        Ecdsa.possiblePublicPairs secp secpG z (r, s) = .error .typeError) ∨
       (recovered v z s S ≠ 0 ∧ recovered v z s (-S) ≠ 0 ∧
        ∃ l, Ecdsa.possiblePublicPairs secp secpG z (r, s) = .ok l ∧
          ∀ a b, (a, b) ∈ l ↔ reduced a ∧ reduced b ∧
            (IsPoint a b (recovered v z s S) ∨ IsPoint a b (recovered v z s (-S)))) := by
      rw [hP]
      rcases recoverOne_eq (z := z) hr hr' hs hs' hrv (by omega) hv2 hx rb pS [] with
        ⟨h0, he⟩ | ⟨a1, b1, ra1, rb1, p1, he⟩
      · left; rw [he]; exact ⟨.inl h0, rfl⟩
      · rw [he]
        simp only [List.not_mem_nil, not_false_eq_true, if_true, List.nil_append]
        rcases recoverOne_eq (z := z) hr hr' hs hs' hrv (by omega) hv2 hx rb' pS' [(a1, b1)] with
          ⟨h0, he'⟩ | ⟨a2, b2, ra2, rb2, p2, he'⟩
        · left; rw [he']; exact ⟨.inr h0, rfl⟩
        · right
          refine ⟨isPoint_ne_zero p1, isPoint_ne_zero p2, _, he', ?_⟩
          intro a b
          have hmem : ((a, b) ∈ if (a2, b2) ∉ [(a1, b1)] then [(a1, b1)] ++ [(a2, b2)] else [(a1, b1)]) ↔
              (a, b) = (a1, b1) ∨ (a, b) = (a2, b2) := by
            split
            · simp
            · next hc =>
              have : (a2, b2) = (a1, b1) := by simpa using hc
              simp [this]
          rw [hmem]
          constructor
          · rintro (h | h) <;> cases h
            · exact ⟨ra1, rb1, .inl p1⟩
            · exact ⟨ra2, rb2, .inr p2⟩
          · rintro ⟨ra, rb, h | h⟩
            · left; rw [isPoint_x_unique h p1 ra ra1, isPoint_y_unique h p1 rb rb1]
            · right; rw [isPoint_x_unique h p2 ra ra2, isPoint_y_unique h p2 rb rb2]
    rcases hTS with rfl | rfl
    · exact main
    · rw [neg_neg] at main
      rcases main with ⟨h, e⟩ | ⟨h1, h2, l, hl, hm⟩
      · exact .inl ⟨h.symm, e⟩
      · exact .inr ⟨h2, h1, l, hl, fun a b => by rw [hm, or_comm]⟩
  · obtain ⟨hn, _⟩ := hy
    exact absurd ((containsPoint_iff_nonsingular secp_regular _ _).2 hn) (hno y)

end Bitforge
