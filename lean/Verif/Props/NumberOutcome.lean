import Verif.NumberTheoryZ
import Verif.Props.Curve
import Verif.Props.Readers

/-! # C131: what the number theory answers for all integers -/

namespace Bitforge.Numbers
open Spec

/-! ## The outcomes -/

/-- `inverse_mod`: a negative modulus has no inverses, since the loop ends with a negative common divisor. -/
inductive Inverse (a m : Int) : Except Err Int → Prop
  | zero : m = 0 → Inverse a m (.error .zeroDivisionError)
  | negative : m < 0 → Inverse a m (.error .assertionError)
  | common {d} : 0 < m → 1 < d → d ∣ a → d ∣ m → Inverse a m (.error .assertionError)
  | inverse {x} : 0 < m → 1 ≤ x → x ≤ m → m ∣ a * x - 1 → Inverse a m (.ok x)

/-- `a` to the power of half of `p - 1`, rounded down. -/
def halfPower (a p : Int) : Int := a ^ ((p - 1) / 2).toNat

/-- `legendre_symbol`: `pow` refuses the negative exponent. -/
inductive Symbol (a p : Int) : Except Err Int → Prop
  | type : p ≤ 0 → Symbol a p (.error .typeError)
  | minus : 0 < p → p ∣ halfPower a p + 1 → Symbol a p (.ok (-1))
  | power {l} : 0 < p → ¬ p ∣ halfPower a p + 1 → 0 ≤ l → l < p → p ∣ halfPower a p - l → Symbol a p (.ok l)

/-- `modular_sqrt` for every modulus but those that are 1 modulo 4, and for primes: 0 where the symbol is not 1, the power
where the modulus is 3 modulo 4; otherwise a number with symbol -1 is looked for, for ever if there is none. -/
inductive Root (a p : Int) : Except Err Int → Prop
  | type : p ≤ 0 → Root a p (.error .typeError)
  | small : 0 < p → p ≤ 2 → Root a p (.ok 0)
  | none : 0 < p → ¬ p ∣ halfPower a p - 1 → Root a p (.ok 0)
  | three {x} : 2 < p → p % 4 = 3 → p ∣ halfPower a p - 1 → 0 ≤ x → x < p → p ∣ a ^ ((p + 1) / 4).toNat - x → Root a p (.ok x)
  | search : 2 < p → p % 4 ≠ 3 → p ∣ halfPower a p - 1 → (∀ n : Int, ¬ p ∣ halfPower n p + 1) → Root a p (.error .diverges)
  | even {n} : 2 < p → p % 2 = 0 → p ∣ halfPower a p - 1 → p ∣ halfPower n p + 1 → Root a p (.ok (a % p))

/-! ## Inverses -/

theorem loop_nat : ∀ (fuel c d : Nat) (uc vc ud vd : Int), inverseLoopZ fuel c d uc vc ud vd =
    (inverseModLoop fuel c d uc vc ud vd).map fun x => ((x.1 : Int), x.2)
  | 0, _, _, _, _, _, _ => rfl
  | fuel + 1, c, d, uc, vc, ud, vd => by
    unfold inverseLoopZ inverseModLoop
    by_cases h : c = 0
    · rw [if_pos h, if_pos (by exact_mod_cast h)]; rfl
    · rw [if_neg h, if_neg (by exact_mod_cast h), ← Int.ofNat_fmod, Int.fdiv_eq_ediv_of_nonneg _ (Int.natCast_nonneg c), ← Int.natCast_ediv]
      exact loop_nat fuel (d % c) c _ _ _ _

theorem inverse_pos (a : Int) (m : Int) (hm : 0 < m) : inverseModZ a m = inverseMod a m.toNat := by
  have hc : ((m.toNat : Nat) : Int) = m := Int.toNat_of_nonneg hm.le
  have h0 := Int.emod_nonneg a hm.ne'
  have hr : (if a < 0 ∨ m ≤ a then (if m = 0 then .error .zeroDivisionError else .ok (a.fmod m)) else .ok a : Except Err Int) =
      .ok (((a % m).toNat : Nat) : Int) := by
    rw [Int.toNat_of_nonneg h0]
    split
    · rw [if_neg hm.ne', Int.fmod_eq_emod_of_nonneg _ hm.le]
    · rw [Int.emod_eq_of_lt (by omega) (by omega)]
  unfold inverseModZ inverseMod
  rw [hr, if_neg (by omega)]
  simp only
  rw [show inverseLoopZ _ _ m 1 0 0 1 = inverseLoopZ ((((a % m).toNat : Nat) : Int).natAbs + 1) (((a % m).toNat : Nat) : Int)
    ((m.toNat : Nat) : Int) 1 0 0 1 by rw [hc], loop_nat, Int.natAbs_natCast, hc]
  cases inverseModLoop ((a % m).toNat + 1) (a % m).toNat m.toNat 1 0 0 1 with
  | none => rfl
  | some x =>
    obtain ⟨d, ud⟩ := x
    simp only [Option.map_some]
    by_cases hd : d = 1
    · rw [if_pos hd, if_pos (by exact_mod_cast hd)]
    · rw [if_neg hd, if_neg (by exact_mod_cast hd)]

theorem fmod_neg {d c : Int} (hc : c < 0) : c < d.fmod c ∧ d.fmod c ≤ 0 := by
  have h := Int.neg_fmod_neg d c
  have h1 := Int.fmod_nonneg_of_pos (-d) (b := -c) (by omega)
  have h2 := Int.fmod_lt_of_pos (-d) (b := -c) (by omega)
  rw [h] at h1 h2
  omega

theorem loop_neg : ∀ (fuel : Nat) (c d uc vc ud vd : Int), c.natAbs < fuel → c ≤ 0 → d < 0 →
    ∃ d' ud', inverseLoopZ fuel c d uc vc ud vd = some (d', ud') ∧ d' < 0
  | 0, _, _, _, _, _, _, h, _, _ => by omega
  | fuel + 1, c, d, uc, vc, ud, vd, h, hc, hd => by
    unfold inverseLoopZ
    by_cases h0 : c = 0
    · rw [if_pos h0]; exact ⟨d, ud, rfl, hd⟩
    · rw [if_neg h0]
      have := fmod_neg (d := d) (c := c) (by omega)
      exact loop_neg fuel _ _ _ _ _ _ (by omega) this.2 (by omega)

theorem inverse_neg (a m : Int) (hm : m < 0) : inverseModZ a m = .error .assertionError := by
  unfold inverseModZ
  rw [if_pos (by omega), if_neg (by omega)]
  simp only
  have := fmod_neg (d := a) hm
  obtain ⟨d, ud, h, hd⟩ := loop_neg ((a.fmod m).natAbs + 1) (a.fmod m) m 1 0 0 1 (by omega) this.2 hm
  rw [h]
  simp only
  rw [if_neg (by omega)]

/-- C131. `inverse_mod` for all integers; in particular it always ends. -/
theorem C131_inverse (a m : Int) (r : Except Err Int) : inverseModZ a m = r ↔ Inverse a m r := by
  have gcd_ne : ∀ {a m d : Int}, 1 < d → d ∣ a → d ∣ m → Int.gcd a m ≠ 1 := by
    intro a m d h1 h2 h3 h
    have := Int.dvd_coe_gcd h2 h3
    rw [h] at this
    have := Int.le_of_dvd (by norm_num) this
    omega
  refine graph (f := fun a => inverseModZ a m) (R := fun a r => Inverse a m r) ?_ ?_ a r
  · intro a r h
    cases h with
    | zero h => subst h; unfold inverseModZ; rw [if_pos (by omega), if_pos rfl]
    | negative h => exact inverse_neg a m h
    | common h h1 h2 h3 =>
      rw [inverse_pos a m h]
      refine C21_fails a m.toNat (by omega) ?_
      rw [Int.toNat_of_nonneg h.le]
      exact gcd_ne h1 h2 h3
    | @inverse x h h1 h2 h3 =>
      rw [inverse_pos a m h]
      have hc : ((m.toNat : Nat) : Int) = m := Int.toNat_of_nonneg h.le
      have hg : Int.gcd a (m.toNat : Nat) = 1 := by
        rw [hc]
        have h4 : (Int.gcd a m : Int) ∣ 1 := by
          have h5 : (Int.gcd a m : Int) ∣ a * x := Dvd.dvd.mul_right (Int.gcd_dvd_left ..) _
          have h6 : (Int.gcd a m : Int) ∣ a * x - 1 := (Int.gcd_dvd_right ..).trans h3
          have := Int.dvd_sub h5 h6
          simpa using this
        have := Int.natAbs_dvd_natAbs.2 h4
        simpa using this
      obtain ⟨y, hy, -⟩ := C21_inverse a m.toNat (by omega) hg
      rw [hy, C21_unique a m.toNat (by omega) y x hy h1 (by omega)
        (Int.emod_eq_emod_iff_emod_sub_eq_zero.2 (Int.emod_eq_zero_of_dvd (by rw [hc]; exact h3)))]
  · intro a
    rcases lt_trichotomy m 0 with h | h | h
    · exact ⟨_, .negative h⟩
    · exact ⟨_, .zero h⟩
    · have hc : ((m.toNat : Nat) : Int) = m := Int.toNat_of_nonneg h.le
      by_cases hg : Int.gcd a m = 1
      · obtain ⟨x, -, h1, h2, h3⟩ := C21_inverse a m.toNat (by omega) (by rw [hc]; exact hg)
        rw [hc] at h3 h2
        exact ⟨_, .inverse h h1 h2 (Int.dvd_of_emod_eq_zero (Int.emod_eq_emod_iff_emod_sub_eq_zero.1 h3))⟩
      · have hp : 0 < Int.gcd a m := Int.gcd_pos_of_ne_zero_right _ h.ne'
        exact ⟨_, .common (d := Int.gcd a m) h (by omega) (Int.gcd_dvd_left ..) (Int.gcd_dvd_right ..)⟩

/-! ## Symbols -/

theorem powMod_int (b : Int) (e m : Nat) (hm : 0 < m) : ((powMod b e m : Nat) : Int) = b ^ e % (m : Int) := by
  have h1 := powMod_cast b e m hm
  have h2 := powMod_lt b e m hm
  have h3 : (((powMod b e m : Nat) : Int) : ZMod m) = ((b ^ e : Int) : ZMod m) := by push_cast; exact h1
  rw [ZMod.intCast_eq_intCast_iff'] at h3
  rwa [Int.emod_eq_of_lt (by omega) (by omega)] at h3

theorem symbol_nat (a : Int) (p : Nat) (hp : 0 < p) : legendreSymbol a p =
    if (halfPower a p) % (p : Int) = (p : Int) - 1 then -1 else halfPower a p % (p : Int) := by
  have h := powMod_int a ((p - 1) / 2) p hp
  have e : (((p : Int) - 1) / 2).toNat = (p - 1) / 2 := by omega
  unfold legendreSymbol halfPower
  rw [e, ← h]
  simp only
  by_cases h1 : powMod a ((p - 1) / 2) p = p - 1
  · rw [if_pos h1, if_pos (by omega)]
  · rw [if_neg h1, if_neg (by omega)]

theorem symbol_pos (a p : Int) (hp : 0 < p) : legendreSymbolZ a p = .ok (legendreSymbol a p.toNat) := by
  have hc : ((p.toNat : Nat) : Int) = p := Int.toNat_of_nonneg hp.le
  have hf : (p - 1).fdiv 2 = (p - 1) / 2 := Int.fdiv_eq_ediv_of_nonneg _ (by norm_num)
  have hn : p.natAbs = p.toNat := by omega
  have he : ((p - 1) / 2).toNat = (p.toNat - 1) / 2 := by omega
  unfold legendreSymbolZ pow3 legendreSymbol
  rw [hf, if_neg (by omega), if_neg hp.ne', hn, he]
  simp only
  rw [if_neg (fun h => by omega : ¬ (p < 0 ∧ _))]
  by_cases h : powMod a ((p.toNat - 1) / 2) p.toNat = p.toNat - 1
  · rw [if_pos h, if_pos (by omega)]
  · rw [if_neg h, if_neg (by omega)]

theorem symbol_neg (a p : Int) (hp : p ≤ 0) : legendreSymbolZ a p = .error .typeError := by
  have hf : (p - 1).fdiv 2 = (p - 1) / 2 := Int.fdiv_eq_ediv_of_nonneg _ (by norm_num)
  unfold legendreSymbolZ pow3
  rw [hf, if_pos (by omega)]

theorem emod_iff {x p l : Int} (h0 : 0 ≤ l) (h1 : l < p) : x % p = l ↔ p ∣ x - l := by
  constructor
  · intro h; rw [← h]; exact Int.dvd_self_sub_emod
  · intro h
    rw [Int.emod_eq_emod_iff_emod_sub_eq_zero.2 (Int.emod_eq_zero_of_dvd h), Int.emod_eq_of_lt h0 h1]

theorem emod_pred {x p : Int} (h : 0 < p) : x % p = p - 1 ↔ p ∣ x + 1 := by
  rw [emod_iff (by omega) (by omega), show x - (p - 1) = x + 1 - p by ring]
  exact dvd_sub_self_right

/-- C131. `legendre_symbol` for all integers: Euler's power, and -1 for the largest residue. -/
theorem C131_symbol (a p : Int) (r : Except Err Int) : legendreSymbolZ a p = r ↔ Symbol a p r := by
  have hv : ∀ a : Int, 0 < p → legendreSymbolZ a p =
      .ok (if p ∣ halfPower a p + 1 then -1 else halfPower a p % p) := by
    intro a hp
    have hc : ((p.toNat : Nat) : Int) = p := Int.toNat_of_nonneg hp.le
    rw [symbol_pos a p hp, symbol_nat a _ (by omega), hc]
    congr 1
    exact if_congr (emod_pred hp) rfl rfl
  refine graph (f := fun a => legendreSymbolZ a p) (R := fun a r => Symbol a p r) ?_ ?_ a r
  · intro a r h
    cases h with
    | type h => exact symbol_neg a p h
    | minus h h1 => rw [hv a h, if_pos h1]
    | power h h1 h2 h3 h4 => rw [hv a h, if_neg h1, (emod_iff h2 h3).2 h4]
  · intro a
    rcases Int.lt_or_le 0 p with h | h
    · by_cases h1 : p ∣ halfPower a p + 1
      · exact ⟨_, .minus h h1⟩
      · exact ⟨_, .power (l := halfPower a p % p) h h1 (Int.emod_nonneg _ h.ne') (Int.emod_lt_of_pos _ h)
          ((emod_iff (Int.emod_nonneg _ h.ne') (Int.emod_lt_of_pos _ h)).1 rfl)⟩
    · exact ⟨_, .type h⟩

/-- C131. For an odd prime the symbol is Legendre's: 0 for the multiples, 1 for the other squares, -1 for the rest. -/
theorem C131_legendre (a p : Int) (hp : p.toNat.Prime) (h2 : p ≠ 2) :
    (legendreSymbolZ a p = .ok 0 ↔ p ∣ a) ∧
    (legendreSymbolZ a p = .ok 1 ↔ ¬ p ∣ a ∧ ∃ y, p ∣ y * y - a) ∧
    (legendreSymbolZ a p = .ok (-1) ↔ ¬ ∃ y, p ∣ y * y - a) := by
  have : Fact p.toNat.Prime := ⟨hp⟩
  have hpos : 0 < p := by have := hp.pos; omega
  have hc : ((p.toNat : Nat) : Int) = p := Int.toNat_of_nonneg hpos.le
  have hne : p.toNat ≠ 2 := by omega
  have hp3 : 2 < p := by have := hp.two_le; omega
  have hk : ((p - 1) / 2).toNat ≠ 0 := by omega
  have hk' : p.toNat / 2 ≠ 0 := by omega
  have hq : (0 : Int) ≠ p - 1 := by omega
  have dv : ∀ x : Int, ((x : Int) : ZMod p.toNat) = 0 ↔ p ∣ x := by
    intro x; rw [ZMod.intCast_zmod_eq_zero_iff_dvd, hc]
  have hd := dv a
  have hsq : IsSquare (a : ZMod p.toNat) ↔ ∃ y, p ∣ y * y - a := by
    constructor
    · rintro ⟨z, hz⟩
      refine ⟨(z.val : Int), (dv _).1 ?_⟩
      push_cast
      rw [ZMod.natCast_zmod_val, hz, sub_self]
    · rintro ⟨y, hy⟩
      have := (dv _).2 hy
      push_cast at this
      exact ⟨(y : ZMod p.toNat), (sub_eq_zero.1 this).symm⟩
  rw [symbol_pos a p hpos]
  simp only [Except.ok.injEq]
  have one := legendre_one_iff_square hne a
  have minus := legendre_neg_one_iff hne a
  rw [Ne, hd, hsq] at one
  have hneg1 : ((-1 : Int) : ZMod p.toNat) ≠ 1 := by
    intro h
    have h3 : ((-2 : Int) : ZMod p.toNat) = 0 := by
      have : ((-2 : Int) : ZMod p.toNat) = ((-1 : Int) : ZMod p.toNat) - 1 := by push_cast; norm_num
      rw [this, h, sub_self]
    rw [dv] at h3
    exact absurd (Int.le_of_dvd (by norm_num) ((Int.dvd_neg.2 h3 : p ∣ 2))) (not_le.2 hp3)
  have minus' : legendreSymbol a p.toNat = -1 ↔ ¬ ∃ y, p ∣ y * y - a := by
    by_cases h0 : p ∣ a
    · have h0' : (a : ZMod p.toNat) = 0 := hd.2 h0
      rw [minus, h0', zero_pow hk']
      constructor
      · intro h
        exact absurd (neg_eq_zero.1 h.symm) one_ne_zero
      · intro h
        exact absurd ⟨0, by simpa using h0⟩ h
    · have h0' : (a : ZMod p.toNat) ≠ 0 := hd.not.2 h0
      rcases ZMod.pow_div_two_eq_neg_one_or_one p.toNat h0' with h | h
      · have hs := (ZMod.euler_criterion p.toNat h0').2 h
        rw [minus, h]
        constructor
        · intro h'
          exact absurd (by push_cast; exact h'.symm) hneg1
        · intro h'
          exact absurd (hsq.1 hs) h'
      · rw [minus]
        refine ⟨fun _ hs => ?_, fun _ => h⟩
        have := (ZMod.euler_criterion p.toNat h0').1 (hsq.2 hs)
        rw [h] at this
        exact hneg1 (by push_cast; exact this)
  refine ⟨?_, one, minus'⟩
  constructor
  · intro h
    by_contra h0
    by_cases hs : ∃ y, p ∣ y * y - a
    · rw [one.2 ⟨h0, hs⟩] at h; omega
    · rw [minus'.2 hs] at h; omega
  · intro h
    have hs := symbol_nat a p.toNat hp.pos
    rw [hc] at hs
    have h0 : p ∣ halfPower a p := dvd_pow h hk
    rw [hs, Int.emod_eq_zero_of_dvd h0, if_neg hq]

/-! ## Roots -/

theorem find_none (p : Nat) : ∀ fuel n, findNonResidue p fuel n = none ↔ ∀ k : Nat, n ≤ k → k < n + fuel → legendreSymbol k p ≠ -1
  | 0, n => by simp only [findNonResidue, true_iff]; intro k h1 h2; omega
  | fuel + 1, n => by
    unfold findNonResidue
    by_cases h : legendreSymbol n p = -1
    · rw [if_pos h]
      constructor
      · intro h'; cases h'
      · intro h'; exact absurd h (h' n le_rfl (by omega))
    · rw [if_neg h, find_none p fuel (n + 1)]
      constructor
      · intro h' k h1 h2
        rcases Nat.lt_or_eq_of_le h1 with h3 | h3
        · exact h' k h3 (by omega)
        · exact h3 ▸ h
      · intro h' k h1 h2
        exact h' k (by omega) (by omega)

theorem half_emod (n p : Int) : halfPower (n % p) p % p = halfPower n p % p := by
  unfold halfPower
  exact (Int.ModEq.pow _ (Int.mod_modEq n p))

theorem symbol_minus (a : Int) (p : Nat) (hp : 0 < p) : legendreSymbol a p = -1 ↔ (p : Int) ∣ halfPower a p + 1 := by
  rw [symbol_nat a p hp, ← emod_pred (by omega)]
  by_cases h : halfPower a p % (p : Int) = (p : Int) - 1
  · rw [if_pos h]; simp [h]
  · rw [if_neg h]
    have := Int.emod_nonneg (halfPower a p) (b := (p : Int)) (by omega)
    constructor
    · intro h'; omega
    · intro h'; exact absurd h' h

theorem symbol_one (a : Int) (p : Nat) (hp : 2 < p) : legendreSymbol a p = 1 ↔ (p : Int) ∣ halfPower a p - 1 := by
  rw [symbol_nat a p (by omega), ← emod_iff (by omega) (by omega)]
  by_cases h : halfPower a p % (p : Int) = (p : Int) - 1
  · rw [if_pos h, h]; omega
  · rw [if_neg h]

/-- The search for a number with symbol -1 ends exactly if there is one: the symbol only depends on the residue. -/
theorem find_iff (p : Nat) (hp : 0 < p) : findNonResidue p p 2 = none ↔ ∀ n : Int, ¬ (p : Int) ∣ halfPower n p + 1 := by
  rw [find_none]
  constructor
  · intro h n hn
    -- the representative of `n` in `2 .. p + 1`
    have hp' : (0 : Int) < p := by omega
    have h0 := Int.emod_nonneg (n - 2) hp'.ne'
    have h1 := Int.emod_lt_of_pos (n - 2) hp'
    have h2 := h (((n - 2) % p).toNat + 2) (by omega) (by omega)
    apply h2
    rw [symbol_minus _ p hp]
    rw [← emod_pred hp'] at hn ⊢
    rw [← hn, ← half_emod n, ← half_emod]
    congr 2
    push_cast
    rw [Int.toNat_of_nonneg h0, Int.emod_add_emod]
    congr 1
    ring
  · intro h k _ _ hk
    exact h k ((symbol_minus k p hp).1 hk)

theorem tonelliFor_bound (p : Nat) : ∀ rem i m t, m ≤ i → i ≤ tonelliFor p (rem + 1) i m t ∧ tonelliFor p (rem + 1) i m t ≤ i + rem
  | 0, i, m, t, h => by
    unfold tonelliFor
    by_cases ht : t = 1
    · rw [if_pos ht]; omega
    · rw [if_neg ht]; unfold tonelliFor; omega
  | rem + 1, i, m, t, h => by
    unfold tonelliFor
    by_cases ht : t = 1
    · rw [if_pos ht]; omega
    · rw [if_neg ht]
      have := tonelliFor_bound p rem (i + 1) i (powMod t 2 p) (by omega)
      omega

theorem tonelliLoop_ends (p : Nat) (hp : 0 < p) : ∀ fuel x b g r, r < fuel → x < p →
    ∃ y, tonelliLoop p fuel x b g r = some y ∧ y < p
  | 0, _, _, _, _, h, _ => by omega
  | fuel + 1, x, b, g, r, h, hx => by
    unfold tonelliLoop
    simp only
    by_cases hm : tonelliFor p r 0 0 b = 0
    · rw [if_pos hm]; exact ⟨x, rfl, hx⟩
    · rw [if_neg hm]
      refine tonelliLoop_ends p hp fuel _ _ _ _ ?_ (Nat.mod_lt _ hp)
      cases r with
      | zero => exact absurd rfl hm
      | succ r => have := tonelliFor_bound p r 0 0 b le_rfl; omega

theorem sqrt_pos (a p : Int) (hp : 0 < p) : modularSqrtZ a p = match modularSqrt a p.toNat with
    | .error e => .error e
    | .ok x => .ok (x : Int) := by
  unfold modularSqrtZ
  rw [symbol_pos a p hp]
  simp only
  cases modularSqrt a p.toNat <;> rfl

theorem sqrt_big (a : Int) (p : Nat) (hp : 2 < p) (h : (p : Int) ∣ halfPower a p - 1) : modularSqrt a p =
    if p % 4 = 3 then .ok (powMod a ((p + 1) / 4) p)
    else match findNonResidue p p 2 with
      | none => .error .diverges
      | some n =>
        match tonelliLoop p ((splitTwos p (p - 1) 0).2 + 1) (powMod a (((splitTwos p (p - 1) 0).1 + 1) / 2) p)
          (powMod a (splitTwos p (p - 1) 0).1 p) (powMod n (splitTwos p (p - 1) 0).1 p) (splitTwos p (p - 1) 0).2 with
        | none => .error .diverges
        | some x => .ok x := by
  have h1 := (symbol_one a p hp).2 h
  have ha : a ≠ 0 := by
    rintro rfl
    unfold halfPower at h
    rw [zero_pow (by omega)] at h
    have := Int.le_of_dvd (by norm_num) ((Int.dvd_neg.2 h : (p : Int) ∣ -(0 - 1)))
    omega
  unfold modularSqrt
  rw [if_neg (by rw [h1]; decide), if_neg ha, if_neg (by omega)]
  rcases splitTwos p (p - 1) 0 with ⟨s, e⟩
  split
  · rfl
  · cases findNonResidue p p 2 with
    | none => rfl
    | some n =>
      simp only
      cases tonelliLoop p (e + 1) (powMod a ((s + 1) / 2) p) (powMod a s p) (powMod (n : Int) s p) e <;> rfl

/-- C131. `modular_sqrt` for every modulus, prime or not, that is not 1 modulo 4, and for every one for which the search for a
number with symbol -1 does not end or is not needed. -/
theorem C131_root (a p : Int) {r : Except Err Int} (h : Root a p r) : modularSqrtZ a p = r := by
  have hcast : 0 < p → ((p.toNat : Nat) : Int) = p := fun h => Int.toNat_of_nonneg h.le
  cases h with
  | type h => unfold modularSqrtZ; rw [symbol_neg a p h]
  | small h h' =>
    rw [sqrt_pos a p h]
    have hs : legendreSymbol a p.toNat = -1 := by
      rw [symbol_minus a _ (by omega), hcast h]
      have : p = 1 ∨ p = 2 := by omega
      rcases this with rfl | rfl
      · exact one_dvd _
      · unfold halfPower; norm_num
    unfold modularSqrt
    rw [if_pos (by rw [hs]; decide)]
    rfl
  | none h h' =>
    rw [sqrt_pos a p h]
    have hs : legendreSymbol a p.toNat ≠ 1 := by
      rcases Int.lt_or_le 2 p with h2 | h2
      · rw [Ne, symbol_one a _ (by omega), hcast h]; exact h'
      · have : p = 1 ∨ p = 2 := by omega
        rcases this with rfl | rfl
        · exact absurd (one_dvd _) h'
        · exfalso; apply h'; unfold halfPower; norm_num
    unfold modularSqrt
    rw [if_pos hs]
    rfl
  | three h h1 h2 h3 h4 h5 =>
    have hc := hcast (by omega)
    rw [sqrt_pos a p (by omega), sqrt_big a _ (by omega) (by rw [hc]; exact h2), if_pos (by omega)]
    simp only
    rw [powMod_int a _ _ (by omega), hc, show (p.toNat + 1) / 4 = ((p + 1) / 4).toNat by omega, (emod_iff h3 h4).2 h5]
  | search h h1 h2 h3 =>
    have hc := hcast (by omega)
    rw [sqrt_pos a p (by omega), sqrt_big a _ (by omega) (by rw [hc]; exact h2), if_neg (by omega),
      (find_iff p.toNat (by omega)).2 (by rw [hc]; exact h3)]
  | even h h1 h2 h3 =>
    have hc := hcast (by omega)
    have hs : splitTwos p.toNat (p.toNat - 1) 0 = (p.toNat - 1, 0) := by
      obtain ⟨k, hk⟩ : ∃ k, p.toNat = k + 1 := ⟨p.toNat - 1, by omega⟩
      rw [hk]
      unfold splitTwos
      rw [if_neg (by omega)]
    rw [sqrt_pos a p (by omega), sqrt_big a _ (by omega) (by rw [hc]; exact h2), if_neg (by omega), hs]
    cases hf : findNonResidue p.toNat p.toNat 2 with
    | none => exact absurd h3 (by have := (find_iff p.toNat (by omega)).1 hf; rw [hc] at this; exact this _)
    | some n =>
      simp only [tonelliLoop, tonelliFor]
      rw [if_pos trivial]
      simp only
      rw [powMod_int a _ _ (by omega), hc]
      congr 1
      have e : (p.toNat - 1 + 1) / 2 = ((p - 1) / 2).toNat + 1 := by omega
      rw [e, pow_succ]
      change halfPower a p * a % p = a % p
      have := (Int.modEq_iff_dvd.2 (by rw [← neg_sub] at h2; exact (Int.dvd_neg.1 h2) : p ∣ 1 - halfPower a p)).mul_right a
      rw [one_mul] at this
      exact this

/-- C131. Every modulus that is not 1 modulo 4 is one of these cases, and so is every number whose symbol is not 1. -/
theorem C131_cases (a p : Int) : (∃ r, Root a p r) ∨
    (2 < p ∧ p % 4 = 1 ∧ p ∣ halfPower a p - 1 ∧ ∃ n, p ∣ halfPower n p + 1) := by
  rcases Int.lt_or_le 0 p with h | h
  swap
  · exact .inl ⟨_, .type h⟩
  rcases Int.lt_or_le 2 p with h2 | h2
  swap
  · exact .inl ⟨_, .small h h2⟩
  by_cases h3 : p ∣ halfPower a p - 1
  swap
  · exact .inl ⟨_, .none h h3⟩
  by_cases h4 : p % 4 = 3
  · exact .inl ⟨_, .three h2 h4 h3 (Int.emod_nonneg _ h.ne') (Int.emod_lt_of_pos _ h)
      ((emod_iff (Int.emod_nonneg _ h.ne') (Int.emod_lt_of_pos _ h)).1 rfl)⟩
  by_cases h5 : ∃ n, p ∣ halfPower n p + 1
  · obtain ⟨n, hn⟩ := h5
    by_cases h6 : p % 2 = 0
    · exact .inl ⟨_, .even h2 h6 h3 hn⟩
    · exact .inr ⟨h2, by omega, h3, n, hn⟩
  · exact .inl ⟨_, .search h2 h4 h3 fun n hn => h5 ⟨n, hn⟩⟩

/-- C131. In the remaining case it ends with a residue. -/
theorem C131_ends (a p : Int) (h : 2 < p) (h4 : p % 4 = 1) (ha : p ∣ halfPower a p - 1) (hn : ∃ n, p ∣ halfPower n p + 1) :
    ∃ x, modularSqrtZ a p = .ok x ∧ 0 ≤ x ∧ x < p := by
  have hc : ((p.toNat : Nat) : Int) = p := Int.toNat_of_nonneg (by omega)
  obtain ⟨n, hn⟩ := hn
  rw [sqrt_pos a p (by omega), sqrt_big a _ (by omega) (by rw [hc]; exact ha), if_neg (by omega)]
  cases hf : findNonResidue p.toNat p.toNat 2 with
  | none => exact absurd hn (by have := (find_iff p.toNat (by omega)).1 hf; rw [hc] at this; exact this _)
  | some m =>
    simp only
    obtain ⟨y, hy, hlt⟩ := tonelliLoop_ends p.toNat (by omega) ((splitTwos p.toNat (p.toNat - 1) 0).2 + 1)
      (powMod a (((splitTwos p.toNat (p.toNat - 1) 0).1 + 1) / 2) p.toNat)
      (powMod a (splitTwos p.toNat (p.toNat - 1) 0).1 p.toNat)
      (powMod (m : Int) (splitTwos p.toNat (p.toNat - 1) 0).1 p.toNat) (splitTwos p.toNat (p.toNat - 1) 0).2 (by omega)
      (powMod_lt _ _ _ (by omega))
    rw [hy]
    exact ⟨y, rfl, by omega, by omega⟩

/-- C131. Whenever the modulus is 3 modulo 4, prime or not, what is returned for a number with symbol 1 is a square root. -/
theorem C131_three (a p : Int) (h : 2 < p) (h3 : p % 4 = 3) (ha : p ∣ halfPower a p - 1) :
    ∃ x, modularSqrtZ a p = .ok x ∧ 0 ≤ x ∧ x < p ∧ p ∣ x * x - a := by
  have hp : 0 < p := by omega
  have h0 := Int.emod_nonneg (a ^ ((p + 1) / 4).toNat) hp.ne'
  have h1 := Int.emod_lt_of_pos (a ^ ((p + 1) / 4).toNat) hp
  refine ⟨a ^ ((p + 1) / 4).toNat % p, C131_root a p (.three h h3 ha h0 h1 ((emod_iff h0 h1).1 rfl)), h0, h1, ?_⟩
  have e1 : (a ^ ((p + 1) / 4).toNat % p) * (a ^ ((p + 1) / 4).toNat % p) ≡ a ^ ((p + 1) / 4).toNat * a ^ ((p + 1) / 4).toNat [ZMOD p] :=
    (Int.mod_modEq _ _).mul (Int.mod_modEq _ _)
  have e2 : a ^ ((p + 1) / 4).toNat * a ^ ((p + 1) / 4).toNat = halfPower a p * a := by
    unfold halfPower
    rw [← pow_add, ← pow_succ]
    congr 1
    omega
  rw [e2] at e1
  have e3 : halfPower a p * a ≡ 1 * a [ZMOD p] :=
    (Int.modEq_iff_dvd.2 (by rw [← neg_sub] at ha; exact (Int.dvd_neg.1 ha) : p ∣ 1 - halfPower a p)).mul_right a
  rw [one_mul] at e3
  have := (e1.trans e3).symm.dvd
  exact this

/-- C131. For every odd prime the answer is a square root, or 0 if there is none. -/
theorem C131_prime (a p : Int) (hp : p.toNat.Prime) (h2 : p ≠ 2) : ∃ x, modularSqrtZ a p = .ok x ∧ 0 ≤ x ∧ x < p ∧
    ((∃ y, p ∣ y * y - a) → p ∣ x * x - a) ∧ ((¬ ∃ y, p ∣ y * y - a) → x = 0) := by
  have hpos : 0 < p := by have := hp.pos; omega
  have hc : ((p.toNat : Nat) : Int) = p := Int.toNat_of_nonneg hpos.le
  have hp3 : 2 < p := by have := hp.two_le; omega
  have conv : ∀ y : Int, (y * y) % p = a % p ↔ p ∣ y * y - a := fun y =>
    Int.emod_eq_emod_iff_emod_sub_eq_zero.trans Int.dvd_iff_emod_eq_zero.symm
  by_cases h : p ∣ halfPower a p - 1
  · by_cases h0 : p ∣ a
    · exfalso
      have h3 : p ∣ halfPower a p := dvd_pow h0 (by omega)
      have := (Int.dvd_sub h3 h)
      have := Int.le_of_dvd (by norm_num) (by simpa using this : p ∣ 1)
      omega
    have hs := ((C131_legendre a p hp h2).2.1).1 (by
      rw [symbol_pos a p hpos, (symbol_one a p.toNat (by omega)).2 (by rw [hc]; exact h)])
    obtain ⟨y, hy⟩ := hs.2
    obtain ⟨x, hx, hlt, hsq⟩ := C22_square p.toNat hp (by omega) a (by rw [hc]; exact fun h => h0 (Int.dvd_of_emod_eq_zero h))
      ⟨y, by rw [hc]; exact (conv y).2 hy⟩
    rw [hc] at hsq
    refine ⟨x, by rw [sqrt_pos a p hpos, hx], by omega, by omega, fun _ => (conv _).1 hsq, fun hn => absurd ⟨y, hy⟩ hn⟩
  · refine ⟨0, C131_root a p (.none hpos h), le_rfl, hpos, ?_, fun _ => rfl⟩
    intro hs
    by_contra hd
    have : ¬ p ∣ a := fun h => hd (by simpa using h)
    have h1 := ((C131_legendre a p hp h2).2.1).2 ⟨this, hs⟩
    rw [symbol_pos a p hpos] at h1
    exact h (by rw [← hc]; exact (symbol_one a p.toNat (by omega)).1 (by injection h1))

/-! ## Examples -/

example : inverseModZ 3 (-7) = .error .assertionError ∧ inverseModZ 5 0 = .error .zeroDivisionError ∧
    inverseModZ (-7) 30 = .ok 17 := by decide +kernel

/-- 91 is not a prime, and 9 has a symbol of 1 and a root. -/
example : modularSqrtZ 9 91 = .ok 81 ∧ (91 : Int) ∣ 81 * 81 - 9 := by
  refine ⟨C131_root 9 91 (.three ?_ ?_ ?_ ?_ ?_ ?_), ?_⟩ <;> decide

/-- 85 is not a prime either, but 1 modulo 4: what is returned for 16 = 4 * 4 is not a root. -/
example : ∃ x, modularSqrtZ 16 85 = .ok x ∧ ¬ (85 : Int) ∣ x * x - 16 := ⟨38, by decide +kernel⟩

/-- 3 has the symbol 1 modulo 14, where nothing has the symbol -1: the search does not end. -/
example : Root 3 14 (.error .diverges) := by
  refine .search (by norm_num) (by norm_num) (by decide) fun n hn => ?_
  have h : n ^ 6 % 14 = 13 := by
    have : halfPower n 14 = n ^ 6 := rfl
    rw [this] at hn
    exact (emod_pred (by norm_num)).2 hn
  have h2 : ∀ m : Fin 14, (m.val : Int) ^ 6 % 14 ≠ 13 := by decide
  have h0 := Int.emod_nonneg n (b := 14) (by norm_num)
  have h1 := Int.emod_lt_of_pos n (b := 14) (by norm_num)
  have h3 := h2 ⟨(n % 14).toNat, by omega⟩
  apply h3
  simp only
  rw [Int.toNat_of_nonneg h0, ← h]
  exact (Int.mod_modEq n 14).pow 6

example : legendreSymbolZ 5 (-3) = .error .typeError ∧ legendreSymbolZ 2 7 = .ok 1 ∧ legendreSymbolZ 3 2 = .ok (-1) ∧
    legendreSymbolZ 2 9 = .ok 7 := by decide +kernel

end Bitforge.Numbers
