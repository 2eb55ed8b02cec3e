import Verif.Unit
import Verif.Proofs.Float64

/-! # Properties of `bitforge/unit.py` -/

namespace Bitforge
open Spec Float64 BtcUnit

theorem div_scale {p s : ℚ} (hs : s ≠ 0) : (Float64.fin p).div (.fin s) = .ok (rnd (p / s)) := by
  unfold Float64.div
  rw [if_neg (by simpa using hs)]

/-- What `_set_values` computes when the conversion to `float` does not overflow. -/
theorem setValues_ok {n : Int} {v : ℚ} (h : ofInt n = .ok (.fin v)) :
    setValues (.int n) = .ok ⟨n, rnd (v / 100), rnd (v / 100000), rnd (v / 100000000)⟩ := by
  simp only [setValues, scaled, Num.toInt, bind, Except.bind, h, bitsScale, mbtcScale, btcScale,
    div_scale (show (100 : ℚ) ≠ 0 by norm_num), div_scale (show (100000 : ℚ) ≠ 0 by norm_num),
    div_scale (show (100000000 : ℚ) ≠ 0 by norm_num)]
  rfl

theorem ofInt_fin {n : Int} {f : Float64} (h : ofInt n = .ok f) : ∃ v, f = .fin v := by
  unfold ofInt at h
  split at h
  · injection h with h; exact ⟨_, h.symm⟩
  · cases h

/-- C59, first half, for the amounts that fit a `float`: `Unit(satoshis=n).satoshis == n`.  (Missing: the
larger integers, for which the claim is false; see `C59_satoshis_refuted`.) -/
theorem C59_satoshis_partial (n : Int) (h : |n| < 2 ^ 970 * (2 ^ 54 - 1)) :
    ∃ u, ofSatoshis (.int n) = .ok u ∧ u.satoshis = n := by
  obtain ⟨f, hf⟩ := (ofInt_ok_iff n).2 h
  obtain ⟨v, rfl⟩ := ofInt_fin hf
  exact ⟨_, setValues_ok hf, rfl⟩

example : |(2100000000000000 : Int)| < 2 ^ 970 * (2 ^ 54 - 1) := by decide +kernel

/-- C59, first half, is false of the code: from `2^1024 - 2^970` on, dividing by a `float` overflows. -/
theorem C59_satoshis_refuted (n : Int) (h : 2 ^ 970 * (2 ^ 54 - 1) ≤ |n|) :
    ofSatoshis (.int n) = .error .overflowError := by
  simp only [ofSatoshis, new, setValues, scaled, Num.toInt, bind, Except.bind, ofInt_error h]

example : 2 ^ 970 * (2 ^ 54 - 1) ≤ |(2 ^ 1024 : Int)| := by decide +kernel

/-- `Unit(satoshis=n)` for an amount of at most `2^53` satoshis. -/
theorem ofSatoshis_small {n : Int} (h : |n| ≤ 2 ^ 53) : ofSatoshis (.int n) =
    .ok ⟨n, rnd ((n : ℚ) / 100), rnd ((n : ℚ) / 100000), rnd ((n : ℚ) / 100000000)⟩ :=
  setValues_ok (ofInt_exact h)

theorem abs_int_le {n : Int} (h : |n| ≤ 2 ^ 53) : |(n : ℚ)| ≤ 2 ^ 53 := by exact_mod_cast h

theorem pow53_le : (2 : ℚ) ^ 53 * 2 ≤ 2 ^ 1023 := by
  rw [← pow_succ]; exact pow_le_pow_right₀ (by norm_num) (by norm_num)

theorem abs_div_le {p s : ℚ} (hs : 1 ≤ s) : |p / s| ≤ |p| := by
  rw [abs_div, abs_of_pos (by linarith : 0 < s)]
  exact div_le_self (abs_nonneg p) hs

theorem rnd_div {n : Int} (h : |n| ≤ 2 ^ 53) {s : ℚ} (hs : 1 ≤ s) :
    ∃ v, rnd ((n : ℚ) / s) = .fin v ∧ Rounded64 ((n : ℚ) / s) v := by
  have h1 := abs_div_le (p := (n : ℚ)) hs
  have h2 := abs_int_le h
  have h3 := pow53_le
  have h4 : (2 : ℚ) ^ 53 ≤ 2 ^ 53 * 2 := by norm_num
  obtain ⟨v, hv⟩ := rnd_finite (le_trans h1 (le_trans h2 (le_trans h4 h3)))
  exact ⟨v, hv, rnd_rounded hv⟩

/-- C66: for at most `2^53` satoshis (some 90 million bitcoins) every attribute is the `float` nearest to the
amount in that unit (of two, the even one). -/
theorem C66_nearest (n : Int) (h : |n| ≤ 2 ^ 53) : ∃ bits mbtc btc : ℚ,
    ofSatoshis (.int n) = .ok ⟨n, .fin bits, .fin mbtc, .fin btc⟩ ∧ Rounded64 ((n : ℚ) / 10 ^ 2) bits ∧
      Rounded64 ((n : ℚ) / 10 ^ 5) mbtc ∧ Rounded64 ((n : ℚ) / 10 ^ 8) btc := by
  obtain ⟨a, ha, ha'⟩ := rnd_div h (s := 100) (by norm_num)
  obtain ⟨b, hb, hb'⟩ := rnd_div h (s := 100000) (by norm_num)
  obtain ⟨c, hc, hc'⟩ := rnd_div h (s := 100000000) (by norm_num)
  refine ⟨a, b, c, ?_, by norm_num; exact ha', by norm_num; exact hb', by norm_num; exact hc'⟩
  rw [ofSatoshis_small h, ha, hb, hc]

example : |(2100000000000000 : Int)| ≤ 2 ^ 53 := by decide

/-- C66: a whole number of 1/256ths of the unit is represented exactly. -/
theorem C66_exact (k : Int) (h : |k * 390625| ≤ 2 ^ 53) :
    ∃ u, ofSatoshis (.int (k * 390625)) = .ok u ∧ u.btc = .fin ((k : ℚ) / 256) := by
  refine ⟨_, ofSatoshis_small h, ?_⟩
  have e : ((k * 390625 : Int) : ℚ) / 100000000 = k / 256 := by push_cast; ring
  rw [e]
  refine rnd_exact ⟨k, -8, ?_, by norm_num, by norm_num, by rw [zpow_neg]; norm_num; ring⟩
  rw [abs_mul] at h
  rw [show |(390625 : Int)| = 390625 from rfl] at h
  omega

example : |(256 : Int) * 390625| ≤ 2 ^ 53 := by decide

theorem setValues_float (q : ℚ) : setValues (.float (.fin q)) = setValues (.int (if 0 ≤ q then ⌊q⌋ else ⌈q⌉)) := rfl

theorem ofBtc_eq (b : ℚ) : ofBtc (.float (.fin b)) = setValues (.float (rnd (b * 100000000))) := by
  simp only [ofBtc, new, times, Num.toFloat, bind, Except.bind, pure, Except.pure, btcScale, Float64.mul]
theorem ofMbtc_eq (b : ℚ) : ofMbtc (.float (.fin b)) = setValues (.float (rnd (b * 100000))) := by
  simp only [ofMbtc, new, times, Num.toFloat, bind, Except.bind, pure, Except.pure, mbtcScale, Float64.mul]
theorem ofBits_eq (b : ℚ) : ofBits (.float (.fin b)) = setValues (.float (rnd (b * 100))) := by
  simp only [ofBits, new, times, Num.toFloat, bind, Except.bind, pure, Except.pure, bitsScale, Float64.mul]

theorem raw_zero : raw 0 = 0 := raw_exact ⟨0, 0, by norm_num, by norm_num, by norm_num, by simp⟩

/-- Dividing by a scale and multiplying again, both rounded, moves the number by less than one. -/
theorem there_and_back {n : Int} (h : |n| ≤ 2 ^ 51) {s : ℚ} (hs : 1 ≤ s) (hs' : s ≤ 2 ^ 53) :
    |raw (raw ((n : ℚ) / s) * s) - n| < 1 := by
  have hs0 : 0 < s := by linarith
  by_cases h0 : n = 0
  · rw [h0]; simp [raw_zero]
  have hn : |(n : ℚ)| ≤ 2 ^ 51 := by exact_mod_cast h
  have hn1 : (1 : ℚ) ≤ |(n : ℚ)| := by exact_mod_cast Int.one_le_abs h0
  have hsmall : (2 : ℚ) ^ (-1022 : Int) ≤ (2 ^ 54)⁻¹ := by
    rw [← zpow_natCast, ← zpow_neg]; exact zpow_le_zpow_right₀ (by norm_num) (by norm_num)
  -- the first rounding
  have e1 : |raw ((n : ℚ) / s) - n / s| ≤ |(n : ℚ) / s| / 2 ^ 53 := by
    apply raw_error
    refine le_trans hsmall ?_
    rw [abs_div, abs_of_pos hs0, le_div_iff₀ hs0]
    calc (2 ^ 54 : ℚ)⁻¹ * s ≤ (2 ^ 54 : ℚ)⁻¹ * 2 ^ 53 := mul_le_mul_of_nonneg_left hs' (by positivity)
      _ ≤ 1 := by norm_num
      _ ≤ _ := hn1
  have e2 : |raw ((n : ℚ) / s) * s - n| ≤ |(n : ℚ)| / 2 ^ 53 := by
    have : raw ((n : ℚ) / s) * s - n = (raw ((n : ℚ) / s) - n / s) * s := by field_simp
    rw [this, abs_mul, abs_of_pos hs0]
    calc _ ≤ |(n : ℚ) / s| / 2 ^ 53 * s := mul_le_mul_of_nonneg_right e1 hs0.le
      _ = _ := by rw [abs_div, abs_of_pos hs0]; field_simp
  generalize raw ((n : ℚ) / s) * s = m at e2 ⊢
  have hm : |m| ≤ |(n : ℚ)| + |(n : ℚ)| / 2 ^ 53 := by
    have := abs_sub_abs_le_abs_sub m (n : ℚ); linarith
  have hm' : |(n : ℚ)| - |(n : ℚ)| / 2 ^ 53 ≤ |m| := by
    have := abs_sub_abs_le_abs_sub (n : ℚ) m
    rw [abs_sub_comm] at this
    linarith
  -- the second rounding
  have e3 : |raw m - m| ≤ |m| / 2 ^ 53 := by
    apply raw_error
    refine le_trans hsmall (le_trans ?_ hm')
    have : (2 ^ 54 : ℚ)⁻¹ ≤ 1 / 2 := by norm_num
    have h2 : |(n : ℚ)| / 2 ^ 53 ≤ |(n : ℚ)| / 2 := div_le_div_of_nonneg_left (abs_nonneg _) (by norm_num) (by norm_num)
    linarith
  have htri : |raw m - n| ≤ |raw m - m| + |m - n| := abs_sub_le _ _ _
  have f1 : |m| / 2 ^ 53 ≤ (|(n : ℚ)| + |(n : ℚ)| / 2 ^ 53) / 2 ^ 53 := div_le_div_of_nonneg_right hm (by positivity)
  have f2 : |(n : ℚ)| / 2 ^ 53 ≤ 1 / 4 := by rw [div_le_iff₀ (by positivity)]; linarith
  have f3 : (|(n : ℚ)| + |(n : ℚ)| / 2 ^ 53) / 2 ^ 53 ≤ (|(n : ℚ)| + |(n : ℚ)|) / 2 ^ 53 := by
    refine div_le_div_of_nonneg_right ?_ (by positivity)
    linarith
  have f4 : (|(n : ℚ)| + |(n : ℚ)|) / 2 ^ 53 = |(n : ℚ)| / 2 ^ 53 + |(n : ℚ)| / 2 ^ 53 := by ring
  linarith

theorem trunc_near {n : Int} {x : ℚ} (h : |x - n| < 1) :
    let t := if 0 ≤ x then ⌊x⌋ else ⌈x⌉
    (0 ≤ n → n - 1 ≤ t ∧ t ≤ n ∧ 0 ≤ t) ∧ (n ≤ 0 → n ≤ t ∧ t ≤ n + 1 ∧ t ≤ 0) := by
  obtain ⟨h1, h2⟩ := abs_lt.1 h
  intro t
  have hf1 : n - 1 ≤ ⌊x⌋ := Int.le_floor.2 (by push_cast; linarith)
  have hf2 : ⌊x⌋ ≤ n := Int.lt_add_one_iff.1 (Int.floor_lt.2 (by push_cast; linarith))
  have hc1 : n ≤ ⌈x⌉ := by
    have : n - 1 < ⌈x⌉ := Int.lt_ceil.2 (by push_cast; linarith)
    omega
  have hc2 : ⌈x⌉ ≤ n + 1 := Int.ceil_le.2 (by push_cast; linarith)
  by_cases hx : 0 ≤ x
  · have ht : t = ⌊x⌋ := if_pos hx
    have h0 : 0 ≤ ⌊x⌋ := Int.floor_nonneg.2 hx
    rw [ht]
    constructor <;> intro hn
    · omega
    · omega
  · have ht : t = ⌈x⌉ := if_neg hx
    have h0 : ⌈x⌉ ≤ 0 := Int.ceil_le.2 (by push_cast; linarith)
    rw [ht]
    constructor <;> intro hn
    · omega
    · omega

theorem abs_sat_le {n : Int} (h : |n| ≤ 2 ^ 51) : |n| ≤ 2 ^ 53 := le_trans h (by norm_num)

/-- Converting to a unit and back loses at most one satoshi, always towards zero. -/
theorem back {n : Int} (h : |n| ≤ 2 ^ 51) {s : ℚ} (hs : 1 ≤ s) (hs' : s ≤ 2 ^ 53) {b : ℚ}
    (hb : rnd ((n : ℚ) / s) = .fin b) : ∃ u, setValues (.float (rnd (b * s))) = .ok u ∧
      (0 ≤ n → n - 1 ≤ u.satoshis ∧ u.satoshis ≤ n ∧ 0 ≤ u.satoshis) ∧
      (n ≤ 0 → n ≤ u.satoshis ∧ u.satoshis ≤ n + 1 ∧ u.satoshis ≤ 0) := by
  obtain ⟨rfl, -⟩ := rnd_fin hb
  have hnear := there_and_back h hs hs'
  have hfin : rnd (raw ((n : ℚ) / s) * s) = .fin (raw (raw ((n : ℚ) / s) * s)) := by
    rw [rnd_eq, if_pos]
    have hn : |(n : ℚ)| ≤ 2 ^ 51 := by exact_mod_cast h
    have h1 := abs_sub_abs_le_abs_sub (raw (raw ((n : ℚ) / s) * s)) (n : ℚ)
    have h2 : (2 : ℚ) ^ 51 + 1 ≤ 2 ^ 52 := by norm_num
    have h3 : (2 : ℚ) ^ 52 ≤ 2 ^ 1024 := pow_le_pow_right₀ (by norm_num) (by norm_num)
    generalize (2 : ℚ) ^ 1024 = P at *
    linarith
  rw [hfin, setValues_float]
  have ht := trunc_near hnear
  simp only at ht
  generalize (if 0 ≤ raw (raw ((n : ℚ) / s) * s) then ⌊raw (raw ((n : ℚ) / s) * s)⌋
    else ⌈raw (raw ((n : ℚ) / s) * s)⌉) = t at ht ⊢
  have hsz : |t| ≤ 2 ^ 53 := by
    rw [abs_le] at h ⊢
    rcases le_total 0 n with h0 | h0
    · have := ht.1 h0; constructor <;> omega
    · have := ht.2 h0; constructor <;> omega
  exact ⟨_, setValues_ok (ofInt_exact hsz), ht⟩

/-- C59, second half, up to one satoshi: for every amount up to 21 million bitcoins (and more) the trip
through `btc` gives the same number of satoshis or one less.  (Missing: equality, which is false; see
`C59_btc_refuted`.) -/
theorem C59_btc_partial (n : Int) (h0 : 0 ≤ n) (h : n ≤ 21000000 * 10 ^ 8) :
    ∃ u u', ofSatoshis (.int n) = .ok u ∧ ofBtc (.float u.btc) = .ok u' ∧
      (u'.satoshis = n ∨ u'.satoshis = n - 1) := by
  have hn : |n| ≤ 2 ^ 51 := by rw [abs_of_nonneg h0]; omega
  obtain ⟨b, hb, -⟩ := rnd_div (abs_sat_le hn) (s := 100000000) (by norm_num)
  obtain ⟨u', hu', hlo, -⟩ := back hn (by norm_num) (by norm_num) hb
  refine ⟨_, u', ofSatoshis_small (abs_sat_le hn), ?_, ?_⟩
  · simp only [hb]; exact hu'
  · have := hlo h0; omega

example : (0 : Int) ≤ 2099999997690000 ∧ (2099999997690000 : Int) ≤ 21000000 * 10 ^ 8 := by decide

/-- C59 for debts: for negative amounts the trip is off by at most one satoshi towards zero. -/
theorem C59_btc_negative_partial (n : Int) (h0 : n ≤ 0) (h : -(21000000 * 10 ^ 8) ≤ n) :
    ∃ u u', ofSatoshis (.int n) = .ok u ∧ ofBtc (.float u.btc) = .ok u' ∧
      (u'.satoshis = n ∨ u'.satoshis = n + 1) := by
  have hn : |n| ≤ 2 ^ 51 := by rw [abs_of_nonpos h0]; omega
  obtain ⟨b, hb, -⟩ := rnd_div (abs_sat_le hn) (s := 100000000) (by norm_num)
  obtain ⟨u', hu', -, hlo⟩ := back hn (by norm_num) (by norm_num) hb
  refine ⟨_, u', ofSatoshis_small (abs_sat_le hn), ?_, ?_⟩
  · simp only [hb]; exact hu'
  · have := hlo h0; omega

/-- C59 for the other units: the trips through `mbtc` and `bits` also lose at most one satoshi. -/
theorem C59_units_partial (n : Int) (h0 : 0 ≤ n) (h : n ≤ 21000000 * 10 ^ 8) :
    ∃ u u' u'', ofSatoshis (.int n) = .ok u ∧ ofMbtc (.float u.mbtc) = .ok u' ∧ ofBits (.float u.bits) = .ok u'' ∧
      (u'.satoshis = n ∨ u'.satoshis = n - 1) ∧ (u''.satoshis = n ∨ u''.satoshis = n - 1) := by
  have hn : |n| ≤ 2 ^ 51 := by rw [abs_of_nonneg h0]; omega
  obtain ⟨b, hb, -⟩ := rnd_div (abs_sat_le hn) (s := 100000) (by norm_num)
  obtain ⟨c, hc, -⟩ := rnd_div (abs_sat_le hn) (s := 100) (by norm_num)
  obtain ⟨u', hu', hlo, -⟩ := back hn (by norm_num) (by norm_num) hb
  obtain ⟨u'', hu'', hlo', -⟩ := back hn (by norm_num) (by norm_num) hc
  refine ⟨_, u', u'', ofSatoshis_small (abs_sat_le hn), ?_, ?_, ?_, ?_⟩
  · simp only [hb]; exact hu'
  · simp only [hc]; exact hu''
  · have := hlo h0; omega
  · have := hlo' h0; omega

/-- C59, second half, holds for the multiples of 1/256 bitcoin (390625 satoshis): these survive the trip
through `btc` unchanged. -/
theorem C59_btc_exact_partial (k : Int) (h : |k * 390625| ≤ 2 ^ 53) :
    ∃ u u', ofSatoshis (.int (k * 390625)) = .ok u ∧ ofBtc (.float u.btc) = .ok u' ∧
      u'.satoshis = k * 390625 := by
  obtain ⟨u, hu, hb⟩ := C66_exact k h
  have e : (k : ℚ) / 256 * 100000000 = ((k * 390625 : Int) : ℚ) := by push_cast; ring
  have ht : (if (0 : ℚ) ≤ ((k * 390625 : Int) : ℚ) then ⌊((k * 390625 : Int) : ℚ)⌋ else ⌈((k * 390625 : Int) : ℚ)⌉)
      = k * 390625 := by
    split
    · exact Int.floor_intCast _
    · exact Int.ceil_intCast _
  have hs : ofBtc (.float u.btc) = setValues (.int (k * 390625)) := by
    rw [hb, ofBtc_eq, e, rnd_exact (binary64_int h), setValues_float, ht]
  exact ⟨u, _, hu, hs.trans (setValues_ok (ofInt_exact h)), rfl⟩

example : |(5376000000 : Int) * 390625| ≤ 2 ^ 53 := by decide

/-- C59, second half, is false of the code: three satoshis become two. -/
theorem C59_btc_refuted : ∃ u u', ofSatoshis (.int 3) = .ok u ∧ ofBtc (.float u.btc) = .ok u' ∧
    u.satoshis = 3 ∧ u'.satoshis = 2 := by
  refine ⟨⟨3, rnd (3 / 100), rnd (3 / 100000), rnd (3 / 100000000)⟩,
    ⟨2, rnd (2 / 100), rnd (2 / 100000), rnd (2 / 100000000)⟩, ?_, ?_, rfl, rfl⟩
  · decide +kernel
  · decide +kernel

/-- C59 beyond the smallest amounts: 0.29 bitcoins lose a satoshi. -/
theorem C59_btc_more_refuted : ∃ u u', ofSatoshis (.int 29000000) = .ok u ∧ ofBtc (.float u.btc) = .ok u' ∧
    u'.satoshis = 28999999 := by
  refine ⟨⟨29000000, rnd (29000000 / 100), rnd (29000000 / 100000), rnd (29000000 / 100000000)⟩,
    ⟨28999999, rnd (28999999 / 100), rnd (28999999 / 100000), rnd (28999999 / 100000000)⟩, ?_, ?_, rfl⟩
  · decide +kernel
  · decide +kernel

/-- C66: which argument counts — the first of `satoshis`, `bits`, `mbtc`, `btc` that is given; none is a
`ValueError`. -/
theorem C66_arguments (s b m t : Option Num) : new s b m t =
    match (s.map ofSatoshis).orElse fun _ => (b.map ofBits).orElse fun _ => (m.map ofMbtc).orElse fun _ =>
      t.map ofBtc with
    | some r => r
    | none => .error .valueError := by
  cases s <;> cases b <;> cases m <;> cases t <;> rfl

/-- C66: amounts in whole bitcoins are exact: `Unit(btc=n)` has `n * 10^8` satoshis. -/
theorem C66_whole_btc (n : Int) (h : |n| ≤ 90071992) :
    ∃ u, ofBtc (.int n) = .ok u ∧ u.satoshis = n * 10 ^ 8 := by
  have h1 : |n| ≤ 2 ^ 53 := le_trans h (by norm_num)
  have h2 : |n * 10 ^ 8| ≤ 2 ^ 53 := by rw [abs_le] at h ⊢; constructor <;> omega
  have e : (n : ℚ) * 100000000 = ((n * 10 ^ 8 : Int) : ℚ) := by push_cast; norm_num
  have ht : (if (0 : ℚ) ≤ ((n * 10 ^ 8 : Int) : ℚ) then ⌊((n * 10 ^ 8 : Int) : ℚ)⌋ else ⌈((n * 10 ^ 8 : Int) : ℚ)⌉)
      = n * 10 ^ 8 := by
    split
    · exact Int.floor_intCast _
    · exact Int.ceil_intCast _
  have hb : ofBtc (.int n) = setValues (.float (rnd ((n : ℚ) * 100000000))) := by
    simp only [ofBtc, new, times, Num.toFloat, ofInt_exact h1, bind, Except.bind, pure, Except.pure, btcScale,
      Float64.mul]
  have hs : ofBtc (.int n) = setValues (.int (n * 10 ^ 8)) := by
    rw [hb, e, rnd_exact (binary64_int h2), setValues_float, ht]
  exact ⟨_, hs.trans (setValues_ok (ofInt_exact h2)), rfl⟩

example : |(21000000 : Int)| ≤ 90071992 := by decide

/-- C66: a zero rate is a `ZeroDivisionError` (for every amount that fits a `float`). -/
theorem C66_zero_rate (v : ℚ) : fromFiat (.float (.fin v)) (.int 0) = .error .zeroDivisionError := by
  simp only [fromFiat, Num.toFloat, ofInt_exact (n := 0) (by norm_num), bind, Except.bind]
  rfl

/-- C66: `at_rate` of a `float` rate is the rounded product. -/
theorem C66_at_rate (u : BtcUnit) (b r : ℚ) (h : u.btc = .fin b) :
    u.atRate (.float (.fin r)) = .ok (rnd (b * r)) := by
  unfold atRate; rw [h]; rfl

/-- C66: infinite and `nan` amounts of satoshis are rejected. -/
theorem C66_not_finite (neg : Bool) : ofSatoshis (.float (.inf neg)) = .error .overflowError ∧
    ofSatoshis (.float .nan) = .error .valueError := ⟨rfl, rfl⟩

end Bitforge
