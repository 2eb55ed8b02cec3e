import Verif.Props.Unit

/-! # Conversions between bitcoins and other currencies

`Unit.from_fiat` divides the value by the rate, both as `float`s, and takes the whole number of satoshis of the
quotient; `Unit.at_rate` multiplies the amount in bitcoins by the rate. -/

namespace Bitforge
namespace Spec

/-- The number is `q`, exactly: a finite `float`, or an `int` of at most 53 bits. -/
inductive IsNumber : Num → ℚ → Prop
  | float (q : ℚ) : IsNumber (.float (.fin q)) q
  | int (n : Int) (h : |n| ≤ 2 ^ 53) : IsNumber (.int n) n

end Spec
open Spec Float64 BtcUnit

theorem isNumber_toFloat {x : Num} {q : ℚ} (h : IsNumber x q) : x.toFloat = .ok (.fin q) := by
  cases h with
  | float => rfl
  | int n h => exact ofInt_exact h

/-- `from_fiat` of a finite value at a finite rate other than zero. -/
theorem fromFiat_eq {value rate : Num} {v r : ℚ} (hv : IsNumber value v) (hr : IsNumber rate r) (h0 : r ≠ 0) :
    fromFiat value rate = ofBtc (.float (rnd (v / r))) := by
  simp only [fromFiat, isNumber_toFloat hv, isNumber_toFloat hr, bind, Except.bind, div_scale h0]

/-- A number of the smallest size is rounded to one of about that size. -/
theorem raw_tiny {q : ℚ} (h0 : 0 ≤ q) (h : q < 2 ^ (-1022 : Int)) :
    0 ≤ raw q ∧ raw q ≤ 2 * 2 ^ (-1022 : Int) := by
  have hz := raw_nearest q 0 ⟨0, 0, by norm_num, by norm_num, by norm_num, by simp⟩
  rw [zero_sub, abs_neg, abs_of_nonneg h0] at hz
  obtain ⟨h1, h2⟩ := abs_le.1 hz
  constructor <;> linarith

/-- The relative error of a positive number that is not tiny. -/
theorem raw_scale {q : ℚ} (h : (2 : ℚ) ^ (-1022 : Int) ≤ q) :
    q * (1 - (2 ^ 53)⁻¹) ≤ raw q ∧ raw q ≤ q * (1 + (2 ^ 53)⁻¹) := by
  have h0 : 0 ≤ q := le_trans (two_zpow_pos _).le h
  have e := raw_error (q := q) (by rwa [abs_of_nonneg h0])
  rw [abs_of_nonneg h0, div_eq_mul_inv] at e
  obtain ⟨h1, h2⟩ := abs_le.1 e
  constructor <;> linarith

theorem raw_nonneg {q : ℚ} (h : 0 ≤ q) : 0 ≤ raw q := by
  rcases lt_or_ge q (2 ^ (-1022 : Int)) with h1 | h1
  · exact (raw_tiny h h1).1
  · exact le_trans (mul_nonneg h (by norm_num)) (raw_scale h1).1

theorem tiny_lt : (2 : ℚ) ^ (-1022 : Int) ≤ (2 ^ 100)⁻¹ := by
  rw [← zpow_natCast, ← zpow_neg]; exact zpow_le_zpow_right₀ (by norm_num) (by norm_num)

theorem huge_gt : (2 : ℚ) ^ 100 ≤ 2 ^ 1024 := pow_le_pow_right₀ (by norm_num) (by norm_num)

/-- `Unit(btc = b)` for a `float` of any number up to some 21 million: the whole part of about `b * 10^8`. -/
theorem ofBtc_bounds {b : ℚ} (h0 : 0 ≤ b) (h : b ≤ 22000000) :
    ∃ u, ofBtc (.float (.fin b)) = .ok u ∧ u.satoshis = ⌊raw (b * 100000000)⌋ := by
  have hn : 0 ≤ b * 100000000 := by linarith
  have hr0 := raw_nonneg hn
  have hr : raw (b * 100000000) ≤ 2 ^ 52 := by
    rcases lt_or_ge (b * 100000000) (2 ^ (-1022 : Int)) with h1 | h1
    · have := (raw_tiny hn h1).2
      have := tiny_lt
      have : ((2 : ℚ) ^ 100)⁻¹ ≤ 1 := by norm_num
      linarith
    · have := (raw_scale h1).2
      have : b * 100000000 * (1 + (2 ^ 53 : ℚ)⁻¹) ≤ 2200000000000000 * (1 + (2 ^ 53 : ℚ)⁻¹) :=
        mul_le_mul_of_nonneg_right (by linarith) (by norm_num)
      have : 2200000000000000 * (1 + (2 ^ 53 : ℚ)⁻¹) ≤ 2 ^ 52 := by norm_num
      linarith
  have hfin : rnd (b * 100000000) = .fin (raw (b * 100000000)) := by
    rw [rnd_eq, if_pos]
    rw [abs_of_nonneg hr0]
    refine lt_of_lt_of_le ?_ huge_gt
    have : (2 : ℚ) ^ 52 < 2 ^ 100 := by norm_num
    linarith
  rw [ofBtc_eq, hfin, setValues_float, if_pos hr0]
  have hf0 : 0 ≤ ⌊raw (b * 100000000)⌋ := Int.floor_nonneg.2 hr0
  have hf : ⌊raw (b * 100000000)⌋ ≤ 2 ^ 52 := by
    have := Int.floor_le (raw (b * 100000000))
    have h2 : ((⌊raw (b * 100000000)⌋ : Int) : ℚ) ≤ ((2 ^ 52 : Int) : ℚ) := by push_cast; linarith
    exact_mod_cast h2
  refine ⟨_, setValues_ok (ofInt_exact ?_), rfl⟩
  rw [abs_of_nonneg hf0]; omega

/-- The two roundings of `from_fiat`. -/
theorem fiat_bounds {q : ℚ} (h0 : 0 ≤ q) :
    q * 100000000 * (1 - (2 ^ 53)⁻¹) ^ 2 - 1 < ⌊raw (raw q * 100000000)⌋ ∧
      (⌊raw (raw q * 100000000)⌋ : ℚ) ≤ q * 100000000 * (1 + (2 ^ 53)⁻¹) ^ 2 := by
  have htiny := tiny_lt
  have h100 : ((2 : ℚ) ^ 100)⁻¹ * 1000000000 < 1 / 4 := by norm_num
  have hfl := Int.floor_le (raw (raw q * 100000000))
  have hlt := Int.lt_floor_add_one (raw (raw q * 100000000))
  by_cases hbig : (2 : ℚ) ^ (-1022 : Int) ≤ q ∧ (2 : ℚ) ^ (-1022 : Int) ≤ raw q * 100000000
  · obtain ⟨h1, h2⟩ := raw_scale hbig.1
    obtain ⟨h3, h4⟩ := raw_scale hbig.2
    have h5 : q * (1 - (2 ^ 53 : ℚ)⁻¹) * 100000000 * (1 - (2 ^ 53 : ℚ)⁻¹) ≤ raw q * 100000000 * (1 - (2 ^ 53 : ℚ)⁻¹) :=
      mul_le_mul_of_nonneg_right (by linarith) (by norm_num)
    have h6 : raw q * 100000000 * (1 + (2 ^ 53 : ℚ)⁻¹) ≤ q * (1 + (2 ^ 53 : ℚ)⁻¹) * 100000000 * (1 + (2 ^ 53 : ℚ)⁻¹) :=
      mul_le_mul_of_nonneg_right (by linarith) (by norm_num)
    constructor
    · have e : q * 100000000 * (1 - (2 ^ 53 : ℚ)⁻¹) ^ 2 = q * (1 - (2 ^ 53 : ℚ)⁻¹) * 100000000 * (1 - (2 ^ 53 : ℚ)⁻¹) := by ring
      rw [e]; linarith
    · have e : q * 100000000 * (1 + (2 ^ 53 : ℚ)⁻¹) ^ 2 = q * (1 + (2 ^ 53 : ℚ)⁻¹) * 100000000 * (1 + (2 ^ 53 : ℚ)⁻¹) := by ring
      rw [e]; linarith
  · -- nothing is left of a tiny number
    have hq : q ≤ 2 * 2 ^ (-1022 : Int) ∧ raw (raw q * 100000000) < 1 := by
      rcases lt_or_ge q (2 ^ (-1022 : Int)) with h1 | h1
      · obtain ⟨ha, hb⟩ := raw_tiny h0 h1
        refine ⟨by linarith, ?_⟩
        rcases lt_or_ge (raw q * 100000000) (2 ^ (-1022 : Int)) with h2 | h2
        · have := (raw_tiny (by linarith) h2).2
          linarith
        · have h3 := (raw_scale h2).2
          have h4 : raw q * 100000000 * (1 + (2 ^ 53 : ℚ)⁻¹) ≤ raw q * 100000000 * 2 :=
            mul_le_mul_of_nonneg_left (by norm_num) (by linarith)
          linarith
      · have h2 : raw q * 100000000 < 2 ^ (-1022 : Int) := by
          by_contra hc; exact hbig ⟨h1, not_lt.1 hc⟩
        have ha := raw_nonneg h0
        have hs := (raw_scale h1).1
        have h5 : q * (1 / 2) ≤ q * (1 - (2 ^ 53 : ℚ)⁻¹) := mul_le_mul_of_nonneg_left (by norm_num) h0
        have := (raw_tiny (by linarith) h2).2
        exact ⟨by linarith, by linarith⟩
    have hz : ⌊raw (raw q * 100000000)⌋ = 0 := by
      rw [Int.floor_eq_iff]
      have := raw_nonneg (q := raw q * 100000000) (by have := raw_nonneg h0; linarith)
      push_cast
      exact ⟨this, by linarith [hq.2]⟩
    rw [hz]
    push_cast
    constructor
    · have h5 : q * 100000000 * (1 - (2 ^ 53 : ℚ)⁻¹) ^ 2 ≤ q * 100000000 * 1 :=
        mul_le_mul_of_nonneg_left (by norm_num) (by linarith)
      linarith [hq.1]
    · exact mul_nonneg (by linarith) (by positivity)

theorem raw_le_btc {q : ℚ} (h0 : 0 ≤ q) (h : q ≤ 21500000) : raw q ≤ 22000000 := by
  rcases lt_or_ge q (2 ^ (-1022 : Int)) with h1 | h1
  · have := (raw_tiny h0 h1).2
    have := tiny_lt
    have : ((2 : ℚ) ^ 100)⁻¹ ≤ 1 := by norm_num
    linarith
  · have := (raw_scale h1).2
    have h2 : q * (1 + (2 ^ 53 : ℚ)⁻¹) ≤ 21500000 * (1 + (2 ^ 53 : ℚ)⁻¹) := mul_le_mul_of_nonneg_right h (by norm_num)
    have h3 : 21500000 * (1 + (2 ^ 53 : ℚ)⁻¹) ≤ 22000000 := by norm_num
    linarith

theorem rnd_btc {q : ℚ} (h0 : 0 ≤ q) (h : q ≤ 21500000) : rnd q = .fin (raw q) := by
  rw [rnd_eq, if_pos]
  rw [abs_of_nonneg (raw_nonneg h0)]
  refine lt_of_lt_of_le ?_ huge_gt
  have := raw_le_btc h0 h
  have : (22000000 : ℚ) < 2 ^ 100 := by norm_num
  linarith

theorem fromFiat_floor {value rate : Num} {v r : ℚ} (hv : IsNumber value v) (hr : IsNumber rate r) (hv0 : 0 ≤ v)
    (hr0 : 0 < r) (h : v / r ≤ 21500000) :
    ∃ u, fromFiat value rate = .ok u ∧ u.satoshis = ⌊raw (raw (v / r) * 100000000)⌋ := by
  have hq : 0 ≤ v / r := div_nonneg hv0 hr0.le
  rw [fromFiat_eq hv hr hr0.ne', rnd_btc hq h]
  exact ofBtc_bounds (raw_nonneg hq) (raw_le_btc hq h)

/-- C116: `from_fiat(value, rate)` is the whole number of satoshis of the quotient, whose relative error is at
most `2^-51`, for every value worth up to 21 million bitcoins.  (Missing: the exact whole part; see
`C116_lost_refuted`.) -/
theorem C116_from_fiat_partial {value rate : Num} {v r : ℚ} (hv : IsNumber value v) (hr : IsNumber rate r) (hv0 : 0 ≤ v)
    (hr0 : 0 < r) (h : v / r ≤ 21000000) :
    ∃ u, fromFiat value rate = .ok u ∧ v / r * 10 ^ 8 * (1 - (2 ^ 51)⁻¹) - 1 < u.satoshis ∧
      (u.satoshis : ℚ) ≤ v / r * 10 ^ 8 * (1 + (2 ^ 51)⁻¹) ∧ 0 ≤ u.satoshis := by
  obtain ⟨u, hu, hs⟩ := fromFiat_floor hv hr hv0 hr0 (by linarith)
  have hq : 0 ≤ v / r := div_nonneg hv0 hr0.le
  obtain ⟨h1, h2⟩ := fiat_bounds hq
  have hx : 0 ≤ v / r * 100000000 := by linarith
  refine ⟨u, hu, ?_, ?_, ?_⟩
  · rw [hs]
    have : v / r * 100000000 * (1 - (2 ^ 51 : ℚ)⁻¹) ≤ v / r * 100000000 * (1 - (2 ^ 53 : ℚ)⁻¹) ^ 2 :=
      mul_le_mul_of_nonneg_left (by norm_num) hx
    norm_num only at this h1 ⊢
    linarith
  · rw [hs]
    have : v / r * 100000000 * (1 + (2 ^ 53 : ℚ)⁻¹) ^ 2 ≤ v / r * 100000000 * (1 + (2 ^ 51 : ℚ)⁻¹) :=
      mul_le_mul_of_nonneg_left (by norm_num) hx
    norm_num only at this h2 ⊢
    linarith
  · rw [hs]; exact Int.floor_nonneg.2 (raw_nonneg (by have := raw_nonneg hq; linarith))

example : IsNumber (.int 150) 150 ∧ IsNumber (.float (.fin (73 / 2))) (73 / 2) ∧ (150 : ℚ) / (73 / 2) ≤ 21000000 :=
  ⟨.int 150 (by decide), .float _, by norm_num⟩

/-- C116: if the quotient is a whole number of satoshis, the amount is that number or one less.  (Missing: equality.) -/
theorem C116_whole_partial {value rate : Num} {v r : ℚ} {k : Int} (hv : IsNumber value v) (hr : IsNumber rate r)
    (hr0 : 0 < r) (hk : v * 10 ^ 8 = k * r) (hk0 : 0 ≤ k) (hk1 : k ≤ 21000000 * 10 ^ 8) :
    ∃ u, fromFiat value rate = .ok u ∧ (u.satoshis = k ∨ u.satoshis = k - 1) := by
  have hq : v / r * 10 ^ 8 = k := by rw [div_mul_eq_mul_div, hk]; field_simp
  have hkq : (0 : ℚ) ≤ k := by exact_mod_cast hk0
  have hkq1 : (k : ℚ) ≤ 21000000 * 10 ^ 8 := by exact_mod_cast hk1
  have hv0 : 0 ≤ v := by
    have : 0 ≤ (k : ℚ) * r := mul_nonneg hkq hr0.le
    linarith
  obtain ⟨u, hu, h1, h2, -⟩ := C116_from_fiat_partial hv hr hv0 hr0 (by linarith)
  refine ⟨u, hu, ?_⟩
  rw [hq] at h1 h2
  have e1 : (k : ℚ) * (2 ^ 51)⁻¹ < 1 := by
    have : (k : ℚ) * (2 ^ 51)⁻¹ ≤ 21000000 * 10 ^ 8 * (2 ^ 51)⁻¹ := mul_le_mul_of_nonneg_right hkq1 (by norm_num)
    have h3 : (21000000 * 10 ^ 8 * (2 ^ 51)⁻¹ : ℚ) < 1 := by norm_num
    linarith
  have h3 : ((k - 2 : Int) : ℚ) < u.satoshis := by push_cast; linarith
  have h4 : (u.satoshis : ℚ) < ((k + 1 : Int) : ℚ) := by push_cast; linarith
  have h3' : k - 2 < u.satoshis := by exact_mod_cast h3
  have h4' : u.satoshis < k + 1 := by exact_mod_cast h4
  omega

example : IsNumber (.int 63) 63 ∧ IsNumber (.int 300) 300 ∧ (63 : ℚ) * 10 ^ 8 = (21000000 : Int) * 300 :=
  ⟨.int 63 (by decide), .int 300 (by decide), by norm_num⟩

/-- Rounding keeps the order. -/
theorem raw_mono {p q : ℚ} (h : p ≤ q) (hp : |raw p| < 2 ^ 1024) (hq : |raw q| < 2 ^ 1024) : raw p ≤ raw q := by
  by_contra hc
  rw [not_le] at hc
  have h1 := raw_nearest p (raw q) (binary64_raw hq)
  have h2 := raw_nearest q (raw p) (binary64_raw hp)
  have h3 : (raw p + raw q) / 2 ≤ p := by
    by_contra hn
    rw [not_le] at hn
    rw [abs_of_pos (by linarith : 0 < raw p - p)] at h1
    have := le_abs_self (raw q - p)
    rcases abs_cases (raw q - p) with ⟨e, -⟩ | ⟨e, -⟩ <;> rw [e] at h1 <;> linarith
  have h4 : q ≤ (raw p + raw q) / 2 := by
    by_contra hn
    rw [not_le] at hn
    rw [abs_of_neg (by linarith : raw q - q < 0)] at h2
    rcases abs_cases (raw p - q) with ⟨e, -⟩ | ⟨e, -⟩ <;> rw [e] at h2 <;> linarith
  have : p = q := by linarith
  rw [this] at hc
  exact lt_irrefl _ hc

theorem raw_mono_btc {p q : ℚ} (h0 : 0 ≤ p) (h : p ≤ q) (hq : q ≤ 2 ^ 60) : raw p ≤ raw q := by
  have hb : ∀ x : ℚ, 0 ≤ x → x ≤ 2 ^ 60 → |raw x| < 2 ^ 1024 := fun x h1 h2 => by
    rw [abs_of_nonneg (raw_nonneg h1)]
    refine lt_of_lt_of_le ?_ huge_gt
    have h3 : (2 : ℚ) ^ 60 * 4 < 2 ^ 100 := by norm_num
    rcases lt_or_ge x (2 ^ (-1022 : Int)) with h5 | h5
    · have := (raw_tiny h1 h5).2
      have := tiny_lt
      have : ((2 : ℚ) ^ 100)⁻¹ ≤ 1 := by norm_num
      have : (1 : ℚ) ≤ 2 ^ 60 := by norm_num
      linarith
    · have h6 := (raw_scale h5).2
      have h7 : x * (1 + (2 ^ 53 : ℚ)⁻¹) ≤ x * 2 := mul_le_mul_of_nonneg_left (by norm_num) h1
      linarith
  exact raw_mono h (hb p h0 (le_trans h hq)) (hb q (le_trans h0 h) hq)

/-- C116: more money is never fewer satoshis, and a lower rate is never fewer satoshis. -/
theorem C116_monotone {value rate value' rate' : Num} {v r v' r' : ℚ} (hv : IsNumber value v)
    (hr : IsNumber rate r) (hv' : IsNumber value' v') (hr' : IsNumber rate' r') (hv0 : 0 ≤ v) (hr0 : 0 < r')
    (hvv : v ≤ v') (hrr : r' ≤ r) (h : v' / r' ≤ 21000000) :
    ∃ u u', fromFiat value rate = .ok u ∧ fromFiat value' rate' = .ok u' ∧ u.satoshis ≤ u'.satoshis := by
  have hv0' : 0 ≤ v' := le_trans hv0 hvv
  have hle : v / r ≤ v' / r' := div_le_div₀ hv0' hvv hr0 hrr
  have hr0' : 0 < r := lt_of_lt_of_le hr0 hrr
  obtain ⟨u, hu, hs⟩ := fromFiat_floor hv hr hv0 hr0' (by linarith)
  obtain ⟨u', hu', hs'⟩ := fromFiat_floor hv' hr' hv0' hr0 (by linarith)
  refine ⟨u, u', hu, hu', ?_⟩
  rw [hs, hs']
  have hq : 0 ≤ v / r := div_nonneg hv0 hr0'.le
  have hq' : 0 ≤ v' / r' := div_nonneg hv0' hr0.le
  have h1 : raw (v / r) ≤ raw (v' / r') := raw_mono_btc hq hle (le_trans h (by norm_num))
  have h2 := raw_le_btc hq' (by linarith)
  refine Int.floor_le_floor (raw_mono_btc ?_ ?_ ?_)
  · have := raw_nonneg hq; linarith
  · linarith
  · have : (22000000 * 100000000 : ℚ) ≤ 2 ^ 60 := by norm_num
    linarith

example : IsNumber (.int 150) 150 ∧ IsNumber (.int 300) 300 ∧ IsNumber (.int 151) 151 ∧ IsNumber (.int 299) 299 ∧
    (151 : ℚ) / 299 ≤ 21000000 :=
  ⟨.int 150 (by decide), .int 300 (by decide), .int 151 (by decide), .int 299 (by decide), by norm_num⟩

theorem rnd_neg (q : ℚ) (h : |raw q| < 2 ^ 1024) : rnd q = .fin (raw q) ∧ rnd (-q) = .fin (-raw q) := by
  constructor
  · rw [rnd_eq, if_pos h]
  · rw [rnd_eq, raw_neg, abs_neg, if_pos h]

/-- C116: a debt is converted like the same amount of money. -/
theorem C116_negative {rate : Num} {v r : ℚ} (hr : IsNumber rate r) (hv0 : 0 ≤ v) (hr0 : 0 < r)
    (h : v / r ≤ 21000000) :
    ∃ u u', fromFiat (.float (.fin v)) rate = .ok u ∧ fromFiat (.float (.fin (-v))) rate = .ok u' ∧
      u'.satoshis = -u.satoshis := by
  obtain ⟨u, hu, hs⟩ := fromFiat_floor (.float v) hr hv0 hr0 (by linarith)
  have hq : 0 ≤ v / r := div_nonneg hv0 hr0.le
  have hb := raw_nonneg hq
  have hb1 := raw_le_btc hq (by linarith)
  have hx := raw_nonneg (q := raw (v / r) * 100000000) (by linarith)
  have hx1 : raw (raw (v / r) * 100000000) < 2 ^ 53 := by
    have h1 : raw (raw (v / r) * 100000000) ≤ raw (2200000000000000 : Int) :=
      raw_mono_btc (by linarith) (by push_cast; linarith) (by push_cast; norm_num)
    rw [raw_exact (binary64_int (by norm_num))] at h1
    exact lt_of_le_of_lt h1 (by push_cast; norm_num)
  have f1 := (rnd_neg (v / r) (by
    rw [abs_of_nonneg hb]; refine lt_of_lt_of_le ?_ huge_gt
    exact lt_of_le_of_lt hb1 (by norm_num))).2
  have f2 := (rnd_neg (raw (v / r) * 100000000) (by
    rw [abs_of_nonneg hx]; refine lt_of_lt_of_le ?_ huge_gt
    exact lt_trans hx1 (by norm_num))).2
  have hf0 : 0 ≤ ⌊raw (raw (v / r) * 100000000)⌋ := Int.floor_nonneg.2 hx
  have hf : ⌊raw (raw (v / r) * 100000000)⌋ < 2 ^ 53 := Int.floor_lt.2 (by push_cast; exact hx1)
  have ht : (if 0 ≤ -raw (raw (v / r) * 100000000) then ⌊-raw (raw (v / r) * 100000000)⌋
      else ⌈-raw (raw (v / r) * 100000000)⌉) = -⌊raw (raw (v / r) * 100000000)⌋ := by
    split
    · have : raw (raw (v / r) * 100000000) = 0 := by linarith
      rw [this]; simp
    · exact Int.ceil_neg
  have hneg : fromFiat (.float (.fin (-v))) rate = setValues (.int (-⌊raw (raw (v / r) * 100000000)⌋)) := by
    rw [fromFiat_eq (.float (-v)) hr hr0.ne', neg_div, f1, ofBtc_eq, neg_mul, f2, setValues_float, ht]
  exact ⟨u, _, hu, hneg.trans (setValues_ok (ofInt_exact (by rw [abs_neg, abs_of_nonneg hf0]; omega))), by rw [hs]⟩

example : IsNumber (.int 300) 300 ∧ (63 : ℚ) / 300 ≤ 21000000 := ⟨.int 300 (by decide), by norm_num⟩

theorem proportion {x r : ℚ} (hx : (2 ^ 28 : ℚ)⁻¹ ≤ x) (hx1 : x ≤ 2 ^ 28) (hr0 : (2 : ℚ) ^ (-900 : Int) ≤ r)
    (hr1 : r ≤ 2 ^ 900) : (2 : ℚ) ^ (-1022 : Int) ≤ x * r ∧ x * r ≤ 2 ^ 1023 := by
  have h0 : (0 : ℚ) ≤ r := le_trans (two_zpow_pos _).le hr0
  have hx0 : 0 ≤ x := le_trans (by positivity) hx
  constructor
  · calc (2 : ℚ) ^ (-1022 : Int) ≤ 2 ^ (-28 + -900 : Int) := zpow_le_zpow_right₀ (by norm_num) (by norm_num)
      _ = (2 ^ 28 : ℚ)⁻¹ * 2 ^ (-900 : Int) := by
        rw [zpow_add₀ (by norm_num)]; congr 1
      _ ≤ x * r := mul_le_mul hx hr0 (two_zpow_pos _).le hx0
  · calc x * r ≤ 2 ^ 28 * 2 ^ 900 := mul_le_mul hx1 hr1 h0 (by positivity)
      _ = (2 : ℚ) ^ 928 := by rw [← pow_add]
      _ ≤ 2 ^ 1023 := pow_le_pow_right₀ (by norm_num) (by norm_num)

/-- The two roundings of `at_rate`. -/
theorem atRate_bounds {n : Int} {rate : Num} {r : ℚ} (hn0 : 0 ≤ n) (hn : n ≤ 2 ^ 53) (hr : IsNumber rate r)
    (hr0 : (2 : ℚ) ^ (-900 : Int) ≤ r) (hr1 : r ≤ 2 ^ 900) :
    ∃ u w, ofSatoshis (.int n) = .ok u ∧ u.atRate rate = .ok (.fin w) ∧
      n / 100000000 * r * (1 - (2 ^ 53)⁻¹) ^ 2 ≤ w ∧ w ≤ n / 100000000 * r * (1 + (2 ^ 53)⁻¹) ^ 2 := by
  have hsz : |n| ≤ 2 ^ 53 := by rwa [abs_of_nonneg hn0]
  have hr00 : (0 : ℚ) < r := lt_of_lt_of_le (two_zpow_pos _) hr0
  obtain ⟨b, hb, -⟩ := rnd_div hsz (s := 100000000) (by norm_num)
  obtain ⟨hb', -⟩ := rnd_fin hb
  refine ⟨_, raw (b * r), ofSatoshis_small hsz, ?_⟩
  have hat : ∀ u : BtcUnit, u.btc = .fin b → u.atRate rate = .ok (rnd (b * r)) := by
    intro u hu
    simp only [atRate, isNumber_toFloat hr, hu, bind, Except.bind]; rfl
  rcases hn0.eq_or_lt with h | h
  · subst h
    have hb0 : b = 0 := by rw [hb', Int.cast_zero, zero_div, raw_zero]
    refine ⟨?_, ?_⟩
    · rw [hat _ hb, hb0, zero_mul, rnd_exact ⟨0, 0, by norm_num, by norm_num, by norm_num, by simp⟩, raw_zero]
    · rw [hb0, zero_mul, raw_zero]; simp
  · have hn1 : (1 : ℚ) ≤ n := by exact_mod_cast h
    have hn2 : (n : ℚ) ≤ 2 ^ 53 := by exact_mod_cast hn
    have hbig : (2 : ℚ) ^ (-1022 : Int) ≤ (n : ℚ) / 100000000 := by
      refine le_trans tiny_lt ?_
      rw [le_div_iff₀ (by norm_num)]
      exact le_trans (by norm_num) hn1
    obtain ⟨h1, h2⟩ := raw_scale hbig
    rw [← hb'] at h1 h2
    have hlo : (2 ^ 28 : ℚ)⁻¹ ≤ b := by
      refine le_trans ?_ h1
      have : (100000000 : ℚ)⁻¹ * (1 - (2 ^ 53)⁻¹) ≤ (n : ℚ) / 100000000 * (1 - (2 ^ 53)⁻¹) :=
        mul_le_mul_of_nonneg_right (by rw [inv_eq_one_div]; exact div_le_div_of_nonneg_right hn1 (by norm_num)) (by norm_num)
      exact le_trans (by norm_num) this
    have hhi : b ≤ 2 ^ 28 := by
      refine le_trans h2 ?_
      have : (n : ℚ) / 100000000 * (1 + (2 ^ 53)⁻¹) ≤ 2 ^ 53 / 100000000 * (1 + (2 ^ 53)⁻¹) :=
        mul_le_mul_of_nonneg_right (div_le_div_of_nonneg_right hn2 (by norm_num)) (by norm_num)
      exact le_trans this (by norm_num)
    obtain ⟨h3, h4⟩ := proportion hlo hhi hr0 hr1
    have hpos : 0 ≤ b * r := mul_nonneg (le_trans (by positivity) hlo) hr00.le
    obtain ⟨w, hw⟩ := rnd_finite (q := b * r) ((abs_of_nonneg hpos).le.trans h4)
    obtain ⟨rfl, -⟩ := rnd_fin hw
    obtain ⟨h5, h6⟩ := raw_scale h3
    refine ⟨by rw [hat _ hb, hw], le_trans ?_ h5, le_trans h6 ?_⟩
    · have e : (n : ℚ) / 100000000 * r * (1 - (2 ^ 53)⁻¹) ^ 2 =
          (n : ℚ) / 100000000 * (1 - (2 ^ 53)⁻¹) * (r * (1 - (2 ^ 53)⁻¹)) := by ring
      rw [e, mul_assoc b]
      exact mul_le_mul_of_nonneg_right h1 (mul_nonneg hr00.le (by norm_num))
    · have e : (n : ℚ) / 100000000 * r * (1 + (2 ^ 53)⁻¹) ^ 2 =
          (n : ℚ) / 100000000 * (1 + (2 ^ 53)⁻¹) * (r * (1 + (2 ^ 53)⁻¹)) := by ring
      rw [e, mul_assoc b]
      exact mul_le_mul_of_nonneg_right h2 (mul_nonneg hr00.le (by norm_num))

/-- C116: `at_rate(rate)` of an amount up to `2^53` satoshis is its worth with a relative error of at most
`2^-51`, unless the rate is out of all proportion. -/
theorem C116_at_rate {n : Int} {rate : Num} {r : ℚ} (hn0 : 0 ≤ n) (hn : n ≤ 2 ^ 53) (hr : IsNumber rate r)
    (hr0 : (2 : ℚ) ^ (-900 : Int) ≤ r) (hr1 : r ≤ 2 ^ 900) :
    ∃ u w, ofSatoshis (.int n) = .ok u ∧ u.atRate rate = .ok (.fin w) ∧
      |w - n / 10 ^ 8 * r| ≤ n / 10 ^ 8 * r / 2 ^ 51 := by
  obtain ⟨u, w, hu, hw, h1, h2⟩ := atRate_bounds hn0 hn hr hr0 hr1
  refine ⟨u, w, hu, hw, ?_⟩
  have hx : (0 : ℚ) ≤ n / 100000000 * r :=
    mul_nonneg (div_nonneg (by exact_mod_cast hn0) (by norm_num)) (le_trans (two_zpow_pos _).le hr0)
  rw [show (10 : ℚ) ^ 8 = 100000000 by norm_num]
  generalize (n : ℚ) / 100000000 * r = x at *
  have h3 : x * (1 - (2 ^ 51 : ℚ)⁻¹) ≤ x * (1 - (2 ^ 53)⁻¹) ^ 2 := mul_le_mul_of_nonneg_left (by norm_num) hx
  have h4 : x * (1 + (2 ^ 53)⁻¹) ^ 2 ≤ x * (1 + (2 ^ 51 : ℚ)⁻¹) := mul_le_mul_of_nonneg_left (by norm_num) hx
  rw [abs_le, div_eq_mul_inv]
  constructor <;> linarith

/-- C116: the worth of up to 21 million bitcoins, converted back at the same rate, is the same number of satoshis
or one less.  (Missing: equality; see `C116_lost_refuted` and `C116_rate_refuted`.) -/
theorem C116_roundtrip_partial {n : Int} {rate : Num} {r : ℚ} (hn0 : 0 ≤ n) (hn : n ≤ 21000000 * 10 ^ 8)
    (hr : IsNumber rate r) (hr0 : (2 : ℚ) ^ (-900 : Int) ≤ r) (hr1 : r ≤ 2 ^ 900) :
    ∃ u w u', ofSatoshis (.int n) = .ok u ∧ u.atRate rate = .ok w ∧ fromFiat (.float w) rate = .ok u' ∧
      (u'.satoshis = n ∨ u'.satoshis = n - 1) := by
  obtain ⟨u, w, hu, hw, h1, h2⟩ := atRate_bounds hn0 (by omega) hr hr0 hr1
  have hr00 : (0 : ℚ) < r := lt_of_lt_of_le (two_zpow_pos _) hr0
  have hnq : (0 : ℚ) ≤ n := by exact_mod_cast hn0
  have hnq1 : (n : ℚ) ≤ 21000000 * 10 ^ 8 := by exact_mod_cast hn
  have hx : (0 : ℚ) ≤ n / 100000000 * r := mul_nonneg (div_nonneg hnq (by norm_num)) hr00.le
  have hw0 : 0 ≤ w := le_trans (mul_nonneg hx (sq_nonneg _)) h1
  have g1 : (n : ℚ) / 100000000 * (1 - (2 ^ 53)⁻¹) ^ 2 ≤ w / r := by
    rw [le_div_iff₀ hr00]; linarith
  have g2 : w / r ≤ (n : ℚ) / 100000000 * (1 + (2 ^ 53)⁻¹) ^ 2 := by
    rw [div_le_iff₀ hr00]; linarith
  have hq : w / r ≤ 21500000 := by
    refine le_trans g2 ?_
    have : (n : ℚ) / 100000000 * (1 + (2 ^ 53)⁻¹) ^ 2 ≤ 21000000 * (1 + (2 ^ 53)⁻¹) ^ 2 :=
      mul_le_mul_of_nonneg_right (by linarith) (by positivity)
    exact le_trans this (by norm_num)
  obtain ⟨u', hu', hs⟩ := fromFiat_floor (.float w) hr hw0 hr00 hq
  refine ⟨u, .fin w, u', hu, hw, hu', ?_⟩
  obtain ⟨h3, h4⟩ := fiat_bounds (q := w / r) (div_nonneg hw0 hr00.le)
  rw [← hs] at h3 h4
  have e1 : (n : ℚ) * (1 - (2 ^ 53)⁻¹) ^ 4 ≤ w / r * 100000000 * (1 - (2 ^ 53)⁻¹) ^ 2 := by
    have := mul_le_mul_of_nonneg_right g1 (show (0 : ℚ) ≤ 100000000 * (1 - (2 ^ 53)⁻¹) ^ 2 by norm_num)
    calc _ = (n : ℚ) / 100000000 * (1 - (2 ^ 53)⁻¹) ^ 2 * (100000000 * (1 - (2 ^ 53)⁻¹) ^ 2) := by ring
      _ ≤ _ := this
      _ = _ := by ring
  have e2 : w / r * 100000000 * (1 + (2 ^ 53)⁻¹) ^ 2 ≤ (n : ℚ) * (1 + (2 ^ 53)⁻¹) ^ 4 := by
    have := mul_le_mul_of_nonneg_right g2 (show (0 : ℚ) ≤ 100000000 * (1 + (2 ^ 53)⁻¹) ^ 2 by norm_num)
    calc _ = w / r * (100000000 * (1 + (2 ^ 53)⁻¹) ^ 2) := by ring
      _ ≤ _ := this
      _ = _ := by ring
  have e3 : (n : ℚ) * (1 - (2 ^ 51)⁻¹) ≤ n * (1 - (2 ^ 53)⁻¹) ^ 4 := mul_le_mul_of_nonneg_left (by norm_num) hnq
  have e4 : (n : ℚ) * (1 + (2 ^ 53)⁻¹) ^ 4 ≤ n * (1 + (2 ^ 51)⁻¹ * (101 / 100)) := mul_le_mul_of_nonneg_left (by norm_num) hnq
  have e5 : (n : ℚ) * (2 ^ 51)⁻¹ ≤ 21000000 * 10 ^ 8 * (2 ^ 51)⁻¹ := mul_le_mul_of_nonneg_right hnq1 (by norm_num)
  have e6 : (21000000 * 10 ^ 8 * (2 ^ 51)⁻¹ : ℚ) < 98 / 100 := by norm_num
  have h5 : ((n - 2 : Int) : ℚ) < u'.satoshis := by push_cast; linarith
  have h6 : (u'.satoshis : ℚ) < ((n + 1 : Int) : ℚ) := by push_cast; linarith
  have h5' : n - 2 < u'.satoshis := by exact_mod_cast h5
  have h6' : u'.satoshis < n + 1 := by exact_mod_cast h6
  omega

example : (0 : Int) ≤ 2099999997690000 ∧ (2099999997690000 : Int) ≤ 21000000 * 10 ^ 8 ∧ IsNumber (.int 300) 300 ∧
    (2 : ℚ) ^ (-900 : Int) ≤ 300 ∧ (300 : ℚ) ≤ 2 ^ 900 := by
  refine ⟨by decide, by decide, .int 300 (by decide), ?_, ?_⟩
  · exact le_trans (zpow_le_one_of_nonpos₀ (by norm_num) (by norm_num)) (by norm_num)
  · calc (300 : ℚ) ≤ 2 ^ 9 := by norm_num
      _ ≤ 2 ^ 900 := pow_le_pow_right₀ (by norm_num) (by norm_num)

/-- C116: the exact amount does not always come back: three satoshis at rate 1 are two. -/
theorem C116_lost_refuted : ∃ u w u', ofSatoshis (.int 3) = .ok u ∧ u.atRate (.int 1) = .ok w ∧
    fromFiat (.float w) (.int 1) = .ok u' ∧ u'.satoshis = 2 := by
  refine ⟨⟨3, rnd (3 / 100), rnd (3 / 100000), rnd (3 / 100000000)⟩, rnd (3 / 100000000),
    ⟨2, rnd (2 / 100), rnd (2 / 100000), rnd (2 / 100000000)⟩, ?_, ?_, ?_, rfl⟩ <;> decide +kernel

/-- C116: at a rate out of all proportion everything is lost: 0.4 bitcoins at the smallest positive rate are
worth nothing. -/
theorem C116_rate_refuted : ∃ u u', ofSatoshis (.int 40000000) = .ok u ∧
    u.atRate (.float (.fin (2 ^ (-1074 : Int)))) = .ok (.fin 0) ∧
    fromFiat (.float (.fin 0)) (.float (.fin (2 ^ (-1074 : Int)))) = .ok u' ∧ u'.satoshis = 0 := by
  refine ⟨⟨40000000, rnd (40000000 / 100), rnd (40000000 / 100000), rnd (40000000 / 100000000)⟩,
    ⟨0, rnd 0, rnd 0, rnd 0⟩, ?_, ?_, ?_, rfl⟩ <;> decide +kernel

theorem ofBtc_special : ofBtc (.float .nan) = .error .valueError ∧
    ∀ s, ofBtc (.float (.inf s)) = .error .overflowError := by
  constructor
  · decide +kernel
  · intro s; cases s <;> decide +kernel

theorem fromFiat_div {value rate : Num} {a b : Float64} (hv : value.toFloat = .ok a) (hr : rate.toFloat = .ok b) :
    fromFiat value rate = (a.div b).bind fun q => ofBtc (.float q) := by
  simp only [fromFiat, hv, hr, bind, Except.bind]

/-- C116: what goes wrong — integers that are no `float` are an `OverflowError`, a zero rate is a
`ZeroDivisionError`, `nan` is a `ValueError`, infinite money is an `OverflowError`, and at an infinite rate every
amount of money is zero satoshis. -/
theorem C116_errors {value rate : Num} {v r : ℚ} (hv : IsNumber value v) (hr : IsNumber rate r) :
    (∀ (x : Num) (n : Int), 2 ^ 970 * (2 ^ 54 - 1) ≤ |n| → fromFiat x (.int n) = .error .overflowError ∧
      fromFiat (.int n) rate = .error .overflowError) ∧
    (r = 0 → fromFiat value rate = .error .zeroDivisionError) ∧
    (r ≠ 0 → fromFiat (.float .nan) rate = .error .valueError ∧
      ∀ s, fromFiat (.float (.inf s)) rate = .error .overflowError) ∧
    fromFiat value (.float .nan) = .error .valueError ∧
    ∀ s, ∃ u, fromFiat value (.float (.inf s)) = .ok u ∧ u.satoshis = 0 := by
  refine ⟨?_, ?_, ?_, ?_, ?_⟩
  · intro x n hn
    constructor
    · simp only [fromFiat, Num.toFloat, ofInt_error hn, bind, Except.bind]
    · simp only [fromFiat, isNumber_toFloat hr]
      simp only [Num.toFloat, ofInt_error hn, bind, Except.bind]
  · rintro rfl
    simp only [fromFiat, isNumber_toFloat hr, isNumber_toFloat hv, bind, Except.bind]
    rfl
  · intro h0
    have hne : Float64.fin r ≠ .fin 0 := fun h => h0 (by injection h)
    constructor
    · rw [fromFiat_div rfl (isNumber_toFloat hr)]; unfold Float64.div; rw [if_neg hne]
      exact ofBtc_special.1
    · intro s
      rw [fromFiat_div rfl (isNumber_toFloat hr)]; unfold Float64.div; rw [if_neg hne]
      exact ofBtc_special.2 _
  · rw [fromFiat_div (isNumber_toFloat hv) rfl]; unfold Float64.div; rw [if_neg (by simp)]
    exact ofBtc_special.1
  · intro s
    refine ⟨⟨0, rnd 0, rnd 0, rnd 0⟩, ?_, rfl⟩
    rw [fromFiat_div (isNumber_toFloat hv) rfl]; unfold Float64.div; rw [if_neg (by simp)]
    show ofBtc (.float (.fin 0)) = _
    decide +kernel

example : IsNumber (.int 63) 63 ∧ IsNumber (.int 300) 300 ∧ 2 ^ 970 * (2 ^ 54 - 1) ≤ |(2 ^ 1024 : Int)| :=
  ⟨.int 63 (by decide), .int 300 (by decide), by decide +kernel⟩

end Bitforge
