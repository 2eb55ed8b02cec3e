import Verif.Float64
import Verif.Spec.Float64
import Mathlib.Tactic.Linarith
import Mathlib.Tactic.NormNum
import Mathlib.Tactic.Positivity
import Mathlib.Tactic.FieldSimp
import Mathlib.Tactic.Ring

/-! # Rounding to binary64 -/

namespace Bitforge
open Spec

theorem roundEven_near (q : ℚ) : |(roundEven q : ℚ) - q| ≤ 1 / 2 := by
  have h1 := Int.floor_le q
  have h2 := Int.lt_floor_add_one q
  unfold roundEven
  simp only
  rw [abs_le]
  split
  · constructor <;> linarith
  · split
    · push_cast; constructor <;> linarith
    · split
      · constructor <;> linarith
      · push_cast; constructor <;> linarith

theorem roundEven_nearest (q : ℚ) (z : Int) : |(roundEven q : ℚ) - q| ≤ |(z : ℚ) - q| := by
  have hn := roundEven_near q
  by_cases h : z = roundEven q
  · rw [h]
  · have h1 : (1 : ℚ) ≤ |(z : ℚ) - roundEven q| := by
      have : (1 : Int) ≤ |z - roundEven q| := Int.one_le_abs (sub_ne_zero.2 h)
      exact_mod_cast this
    have h2 : |(z : ℚ) - roundEven q| ≤ |(z : ℚ) - q| + |(roundEven q : ℚ) - q| := by
      have := abs_sub_le (z : ℚ) q (roundEven q : ℚ)
      rwa [abs_sub_comm q] at this
    linarith

theorem roundEven_int (z : Int) : roundEven (z : ℚ) = z := by
  have := roundEven_nearest (z : ℚ) z
  rw [sub_self, abs_zero] at this
  have h := abs_nonpos_iff.1 this
  exact_mod_cast sub_eq_zero.1 h

theorem roundEven_neg (q : ℚ) : roundEven (-q) = -roundEven q := by
  by_cases hi : ((⌊q⌋ : Int) : ℚ) = q
  · rw [← hi, roundEven_int, ← Int.cast_neg, roundEven_int]
  · have h1 := Int.floor_le q
    have h2 := Int.lt_floor_add_one q
    have h3 : ((⌊q⌋ : Int) : ℚ) < q := lt_of_le_of_ne h1 hi
    have hf : ⌊-q⌋ = -⌊q⌋ - 1 := by
      rw [Int.floor_eq_iff]; push_cast; constructor <;> linarith
    unfold roundEven
    simp only [hf]
    push_cast
    split_ifs <;> first | omega | (exfalso; linarith)

theorem floor_le_roundEven (q : ℚ) : ⌊q⌋ ≤ roundEven q := by
  unfold roundEven
  simp only
  split_ifs <;> omega

namespace Float64

theorem two_zpow_pos (e : Int) : (0 : ℚ) < 2 ^ e := zpow_pos (by norm_num) e

/-- The rounded value before the overflow test. -/
def raw (q : ℚ) : ℚ := roundEven (q / 2 ^ ulpExp q) * (2 : ℚ) ^ ulpExp q

theorem rnd_eq (q : ℚ) : rnd q = if |raw q| < 2 ^ 1024 then .fin (raw q) else .inf (raw q < 0) := rfl

theorem raw_near (q : ℚ) : |raw q - q| ≤ 2 ^ ulpExp q / 2 := by
  have hp := two_zpow_pos (ulpExp q)
  have h := roundEven_near (q / 2 ^ ulpExp q)
  have e : raw q - q = ((roundEven (q / 2 ^ ulpExp q) : ℚ) - q / 2 ^ ulpExp q) * 2 ^ ulpExp q := by
    unfold raw; field_simp
  rw [e, abs_mul, abs_of_pos hp]
  calc _ ≤ 1 / 2 * (2 : ℚ) ^ ulpExp q := mul_le_mul_of_nonneg_right h hp.le
    _ = _ := by ring

theorem ulp_le {q : ℚ} (h : (2 : ℚ) ^ (-1022 : Int) ≤ |q|) : (2 : ℚ) ^ ulpExp q / 2 ≤ |q| / 2 ^ 53 := by
  have hq : 0 < |q| := lt_of_lt_of_le (two_zpow_pos _) h
  have hl : -1022 ≤ Int.log 2 |q| := (Int.zpow_le_iff_le_log (by norm_num) hq).1 (by exact_mod_cast h)
  have he : ulpExp q = Int.log 2 |q| - 52 := by unfold ulpExp; rw [max_eq_left hl]
  have h2 : ((2 : Nat) : ℚ) ^ Int.log 2 |q| ≤ |q| := Int.zpow_log_le_self (by norm_num) hq
  push_cast at h2
  rw [he, zpow_sub₀ (by norm_num)]
  have : (2 : ℚ) ^ (52 : Int) = 2 ^ 52 := by norm_cast
  rw [this]
  have e : (2 : ℚ) ^ Int.log 2 |q| / 2 ^ 52 / 2 = 2 ^ Int.log 2 |q| / 2 ^ 53 := by ring
  rw [e]
  exact div_le_div_of_nonneg_right h2 (by positivity)

/-- The relative error of rounding a number that is not tiny. -/
theorem raw_error {q : ℚ} (h : (2 : ℚ) ^ (-1022 : Int) ≤ |q|) : |raw q - q| ≤ |q| / 2 ^ 53 :=
  le_trans (raw_near q) (ulp_le h)

theorem abs_lt_ulp (q : ℚ) : |q| < 2 ^ (ulpExp q + 53) := by
  have h := Int.lt_zpow_succ_log_self (b := 2) (by norm_num) |q|
  push_cast at h
  refine lt_of_lt_of_le h (zpow_le_zpow_right₀ (by norm_num) ?_)
  unfold ulpExp
  have := le_max_left (Int.log 2 |q|) (-1022)
  omega

theorem ulpExp_ge (q : ℚ) : -1074 ≤ ulpExp q := by
  unfold ulpExp
  have := le_max_right (Int.log 2 |q|) (-1022)
  omega

/-- The rounded significand has at most 53 bits, or is exactly `2^53`. -/
theorem significand_le (q : ℚ) : |roundEven (q / 2 ^ ulpExp q)| ≤ 2 ^ 53 := by
  have hp := two_zpow_pos (ulpExp q)
  have h := abs_lt_ulp q
  rw [zpow_add₀ (by norm_num), show (2 : ℚ) ^ (53 : Int) = 2 ^ 53 by norm_cast] at h
  have h1 : |q / 2 ^ ulpExp q| < 2 ^ 53 := by
    rw [abs_div, abs_of_pos hp, div_lt_iff₀ hp]; linarith
  have h2 := roundEven_near (q / 2 ^ ulpExp q)
  have h3 : |(roundEven (q / 2 ^ ulpExp q) : ℚ)| < 2 ^ 53 + 1 := by
    have := abs_sub_abs_le_abs_sub (roundEven (q / 2 ^ ulpExp q) : ℚ) (q / 2 ^ ulpExp q)
    linarith
  have h4 : |roundEven (q / 2 ^ ulpExp q)| < 2 ^ 53 + 1 := by exact_mod_cast h3
  omega

/-- A finite result of rounding is a binary64 number. -/
theorem binary64_raw {q : ℚ} (h : |raw q| < 2 ^ 1024) : Binary64 (raw q) := by
  have hs := significand_le q
  have hge := ulpExp_ge q
  have hp := two_zpow_pos (ulpExp q)
  by_cases h0 : roundEven (q / 2 ^ ulpExp q) = 0
  · exact ⟨0, 0, by norm_num, by norm_num, by norm_num, by unfold raw; rw [h0]; simp⟩
  by_cases hlt : |roundEven (q / 2 ^ ulpExp q)| < 2 ^ 53
  · by_cases he : ulpExp q ≤ 971
    · exact ⟨_, _, hlt, hge, he, rfl⟩
    · exfalso
      -- the significand has its top bit set, because the exponent is not the smallest one
      have he' : ulpExp q = Int.log 2 |q| - 52 := by
        unfold ulpExp at he ⊢
        rcases le_total (Int.log 2 |q|) (-1022) with hle | hle
        · rw [max_eq_right hle] at he; omega
        · rw [max_eq_left hle]
      have hq : 0 < |q| := by
        rcases (abs_nonneg q).lt_or_eq with h | h
        · exact h
        · exfalso
          have : q = 0 := abs_eq_zero.1 h.symm
          apply h0; rw [this, zero_div]; exact_mod_cast roundEven_int 0
      have hlow : (2 : ℚ) ^ (ulpExp q + 52) ≤ |q| := by
        have := Int.zpow_log_le_self (b := 2) (by norm_num) hq
        rw [he']; push_cast at this
        rwa [show Int.log 2 |q| - 52 + 52 = Int.log 2 |q| by ring]
      have hm : (2 : ℚ) ^ 52 ≤ |q / 2 ^ ulpExp q| := by
        rw [abs_div, abs_of_pos hp, le_div_iff₀ hp]
        rwa [zpow_add₀ (by norm_num), mul_comm, show (2 : ℚ) ^ (52 : Int) = 2 ^ 52 by norm_cast] at hlow
      have hr := roundEven_nearest (q / 2 ^ ulpExp q)
      have hbig : (2 : Int) ^ 52 ≤ |roundEven (q / 2 ^ ulpExp q)| := by
        rcases le_total 0 (q / 2 ^ ulpExp q) with hs' | hs'
        · rw [abs_of_nonneg hs'] at hm
          have hz := hr (2 ^ 52)
          push_cast at hz
          by_contra hc
          have h5 : |(roundEven (q / 2 ^ ulpExp q) : ℚ)| < 2 ^ 52 := by exact_mod_cast (not_le.1 hc)
          rw [abs_lt] at h5
          rw [abs_of_nonpos (by linarith : (roundEven (q / 2 ^ ulpExp q) : ℚ) - q / 2 ^ ulpExp q ≤ 0),
            abs_of_nonpos (by linarith)] at hz
          linarith
        · rw [abs_of_nonpos hs'] at hm
          have hz := hr (-2 ^ 52)
          push_cast at hz
          by_contra hc
          have h5 : |(roundEven (q / 2 ^ ulpExp q) : ℚ)| < 2 ^ 52 := by exact_mod_cast (not_le.1 hc)
          rw [abs_lt] at h5
          rw [abs_of_nonneg (by linarith : (0 : ℚ) ≤ roundEven (q / 2 ^ ulpExp q) - q / 2 ^ ulpExp q),
            abs_of_nonneg (by linarith)] at hz
          linarith
      have hbig' : (2 : ℚ) ^ 52 ≤ |(roundEven (q / 2 ^ ulpExp q) : ℚ)| := by exact_mod_cast hbig
      have hfin : (2 : ℚ) ^ 1024 ≤ |raw q| := by
        unfold raw
        rw [abs_mul, abs_of_pos hp]
        have h972 : (2 : ℚ) ^ (972 : Int) ≤ 2 ^ ulpExp q := zpow_le_zpow_right₀ (by norm_num) (by omega)
        rw [show (2 : ℚ) ^ (972 : Int) = 2 ^ 972 from zpow_natCast 2 972] at h972
        have e1024 : (2 : ℚ) ^ 52 * 2 ^ 972 = 2 ^ 1024 := (pow_add 2 52 972).symm
        rw [← e1024]
        exact mul_le_mul hbig' h972 (by positivity) (abs_nonneg _)
      linarith
  · -- the significand is `2^53`: one more exponent
    have heq : |roundEven (q / 2 ^ ulpExp q)| = 2 ^ 53 := le_antisymm hs (not_lt.1 hlt)
    have hv : |raw q| = 2 ^ (ulpExp q + 53) := by
      unfold raw
      rw [abs_mul, abs_of_pos hp, zpow_add₀ (by norm_num), mul_comm, show (2 : ℚ) ^ (53 : Int) = 2 ^ 53 by norm_cast]
      congr 1; exact_mod_cast heq
    have he : ulpExp q + 53 < 1024 := by
      rw [hv, ← zpow_natCast] at h
      exact (zpow_lt_zpow_iff_right₀ (by norm_num)).1 h
    have hd : ∃ s : Int, |s| = 1 ∧ roundEven (q / 2 ^ ulpExp q) = s * 2 ^ 53 := by
      rcases abs_choice (roundEven (q / 2 ^ ulpExp q)) with h1 | h1
      · exact ⟨1, rfl, by omega⟩
      · exact ⟨-1, rfl, by omega⟩
    obtain ⟨s, hs1, hs2⟩ := hd
    refine ⟨s * 2 ^ 52, ulpExp q + 1, ?_, by omega, by omega, ?_⟩
    · rw [abs_mul, hs1]; norm_num
    · unfold raw
      rw [hs2, zpow_add₀ (by norm_num)]; push_cast; ring

/-- Rounding gives the nearest multiple of the last place. -/
theorem raw_multiple (q : ℚ) (z : Int) : |raw q - q| ≤ |(z : ℚ) * 2 ^ ulpExp q - q| := by
  have hp := two_zpow_pos (ulpExp q)
  have h := roundEven_nearest (q / 2 ^ ulpExp q) z
  have e1 : raw q - q = ((roundEven (q / 2 ^ ulpExp q) : ℚ) - q / 2 ^ ulpExp q) * 2 ^ ulpExp q := by
    unfold raw; field_simp
  have e2 : (z : ℚ) * 2 ^ ulpExp q - q = ((z : ℚ) - q / 2 ^ ulpExp q) * 2 ^ ulpExp q := by field_simp
  rw [e1, e2, abs_mul, abs_mul]
  exact mul_le_mul_of_nonneg_right h (abs_nonneg _)

/-- Binary64 numbers that are no multiples of the last place are farther away. -/
theorem raw_nearest_lt (q : ℚ) (d : ℚ) (hd : Binary64 d) :
    (∃ z : Int, d = z * 2 ^ ulpExp q) ∨ |raw q - q| < |d - q| := by
  have hmul := raw_multiple q
  obtain ⟨m, e, hm, he, he', rfl⟩ := hd
  by_cases hle : ulpExp q ≤ e
  · obtain ⟨k, rfl⟩ : ∃ k : Nat, e = ulpExp q + k := ⟨(e - ulpExp q).toNat, by omega⟩
    exact .inl ⟨m * 2 ^ k, by rw [zpow_add₀ (by norm_num), zpow_natCast]; push_cast; ring⟩
  · have hgt : e < ulpExp q := not_le.1 hle
    by_cases hm0 : (m : ℚ) * 2 ^ e = 0
    · exact .inl ⟨0, by rw [hm0]; simp⟩
    right
    by_cases hz : q = 0
    · have : raw q = 0 := by
        unfold raw; rw [hz, zero_div, show (0 : ℚ) = ((0 : Int) : ℚ) by norm_num, roundEven_int]; simp
      rw [this, hz, sub_zero, abs_zero, sub_zero, abs_pos]
      by_contra h
      exact hm0 h
    have hE : ulpExp q = Int.log 2 |q| - 52 := by
      unfold ulpExp at hgt ⊢
      rcases le_total (Int.log 2 |q|) (-1022) with h | h
      · rw [max_eq_right h] at hgt; omega
      · rw [max_eq_left h]
    have hlow : (2 : ℚ) ^ 52 * 2 ^ ulpExp q ≤ |q| := by
      have h := Int.zpow_log_le_self (b := 2) (by norm_num) (abs_pos.2 hz)
      push_cast at h
      rw [show Int.log 2 |q| = 52 + ulpExp q by omega, zpow_add₀ (by norm_num),
        show (2 : ℚ) ^ (52 : Int) = 2 ^ 52 by norm_cast] at h
      exact h
    have hd : |(m : ℚ) * 2 ^ e| < 2 ^ 52 * 2 ^ ulpExp q := by
      rw [abs_mul, abs_of_pos (two_zpow_pos e)]
      have h1 : |(m : ℚ)| < 2 ^ 53 := by exact_mod_cast hm
      have h2 : (2 : ℚ) ^ e ≤ 2 ^ (ulpExp q - 1) := zpow_le_zpow_right₀ (by norm_num) (by omega)
      rw [zpow_sub₀ (by norm_num), zpow_one] at h2
      calc _ < (2 : ℚ) ^ 53 * (2 ^ ulpExp q / 2) := mul_lt_mul h1 h2 (two_zpow_pos e) (by positivity)
        _ = _ := by ring
    have htri : |q| - |(m : ℚ) * 2 ^ e| ≤ |(m : ℚ) * 2 ^ e - q| := by
      rw [abs_sub_comm]; exact abs_sub_abs_le_abs_sub _ _
    rcases le_total 0 q with hs | hs
    · have h := hmul (2 ^ 52)
      rw [show (((2 : Int) ^ 52 : Int) : ℚ) = 2 ^ 52 by norm_cast] at h
      rw [abs_of_nonneg hs] at hlow htri
      rw [abs_of_nonpos (a := (2 : ℚ) ^ 52 * 2 ^ ulpExp q - q) (by linarith)] at h
      linarith
    · have h := hmul (-2 ^ 52)
      rw [show ((-(2 : Int) ^ 52 : Int) : ℚ) = -2 ^ 52 by norm_cast] at h
      rw [abs_of_nonpos hs] at hlow htri
      rw [abs_of_nonneg (a := -(2 : ℚ) ^ 52 * 2 ^ ulpExp q - q) (by linarith)] at h
      linarith

/-- Rounding gives a nearest binary64 number. -/
theorem raw_nearest (q : ℚ) (d : ℚ) (hd : Binary64 d) : |raw q - q| ≤ |d - q| := by
  rcases raw_nearest_lt q d hd with ⟨z, rfl⟩ | h
  · exact raw_multiple q z
  · exact h.le

/-- Of two nearest integers the even one is taken. -/
theorem roundEven_tie {q : ℚ} {z : Int} (h : |(z : ℚ) - q| = |(roundEven q : ℚ) - q|) (hz : z ≠ roundEven q) :
    2 ∣ roundEven q ∧ |z - roundEven q| = 1 := by
  have h1 := Int.floor_le q
  have h2 := Int.lt_floor_add_one q
  have hn := roundEven_near q
  have hzn : |(z : ℚ) - q| ≤ 1 / 2 := h ▸ hn
  rw [abs_le] at hn hzn
  have hsum : (z : ℚ) + roundEven q = 2 * q := by
    rcases abs_eq_abs.1 h with h | h
    · exact absurd (by exact_mod_cast (sub_left_inj.1 h)) hz
    · linarith
  have hd : |z - roundEven q| = 1 := by
    have hpos : 1 ≤ |z - roundEven q| := Int.one_le_abs (sub_ne_zero.2 hz)
    have hle : ((|z - roundEven q| : Int) : ℚ) ≤ 1 := by
      push_cast
      rw [abs_le]
      constructor <;> linarith
    have : |z - roundEven q| ≤ 1 := by exact_mod_cast hle
    omega
  refine ⟨?_, hd⟩
  have hhalf : |(roundEven q : ℚ) - q| = 1 / 2 := by
    have : ((|z - roundEven q| : Int) : ℚ) = 1 := by rw [hd]; norm_num
    push_cast at this
    rw [show (z : ℚ) - roundEven q = -2 * ((roundEven q : ℚ) - q) by linarith, abs_mul] at this
    norm_num at this
    linarith
  revert hhalf
  unfold roundEven
  simp only
  split_ifs with c1 c2 c3
  · intro hh
    rw [abs_of_nonpos (by linarith)] at hh
    linarith
  · intro hh
    push_cast at hh
    rw [abs_of_nonneg (by linarith)] at hh
    linarith
  · intro _; omega
  · intro _; omega

/-- A binary64 number is rounded to itself. -/
theorem raw_exact {q : ℚ} (h : Binary64 q) : raw q = q := by
  have := raw_nearest q q h
  rw [sub_self, abs_zero] at this
  exact sub_eq_zero.1 (abs_nonpos_iff.1 this)

theorem binary64_lt {q : ℚ} (h : Binary64 q) : |q| < 2 ^ 1024 := by
  obtain ⟨m, e, hm, -, he, rfl⟩ := h
  rw [abs_mul, abs_of_pos (two_zpow_pos e)]
  have h1 : |(m : ℚ)| < 2 ^ 53 := by exact_mod_cast hm
  have h2 : (2 : ℚ) ^ e ≤ 2 ^ (971 : Int) := zpow_le_zpow_right₀ (by norm_num) he
  have h3 : (2 : ℚ) ^ (971 : Int) = 2 ^ 971 := zpow_natCast 2 971
  rw [h3] at h2
  have h4 : (2 : ℚ) ^ 53 * 2 ^ 971 = 2 ^ 1024 := (pow_add 2 53 971).symm
  rw [← h4]
  exact mul_lt_mul h1 h2 (two_zpow_pos e) (by positivity)

theorem rnd_exact {q : ℚ} (h : Binary64 q) : rnd q = .fin q := by
  rw [rnd_eq, raw_exact h, if_pos (binary64_lt h)]

theorem rnd_fin {q v : ℚ} (h : rnd q = .fin v) : v = raw q ∧ |raw q| < 2 ^ 1024 := by
  rw [rnd_eq] at h
  split at h
  · rename_i hlt; injection h with h; exact ⟨h.symm, hlt⟩
  · cases h

/-- A finite result of rounding is a nearest binary64 number. -/
theorem rnd_nearest {q v : ℚ} (h : rnd q = .fin v) : Nearest64 q v := by
  obtain ⟨rfl, hlt⟩ := rnd_fin h
  exact ⟨binary64_raw hlt, raw_nearest q⟩

/-- Ties go to the even multiple of the last place. -/
theorem rnd_rounded {q v : ℚ} (h : rnd q = .fin v) : Rounded64 q v := by
  refine ⟨rnd_nearest h, fun w hw hne => ?_⟩
  obtain ⟨rfl, hlt⟩ := rnd_fin h
  have hp := two_zpow_pos (ulpExp q)
  have heq : |w - q| = |raw q - q| := le_antisymm (hw.2 _ (binary64_raw hlt)) (raw_nearest q w hw.1)
  rcases raw_nearest_lt q w hw.1 with ⟨z, rfl⟩ | h
  swap
  · exact absurd heq (ne_of_gt h)
  have e1 : raw q - q = ((roundEven (q / 2 ^ ulpExp q) : ℚ) - q / 2 ^ ulpExp q) * 2 ^ ulpExp q := by
    unfold raw; field_simp
  have e2 : (z : ℚ) * 2 ^ ulpExp q - q = ((z : ℚ) - q / 2 ^ ulpExp q) * 2 ^ ulpExp q := by field_simp
  rw [e1, e2, abs_mul, abs_mul] at heq
  have heq := mul_right_cancel₀ (abs_pos.2 hp.ne').ne' heq
  obtain ⟨⟨k, hk⟩, hd⟩ := roundEven_tie heq (by rintro rfl; exact hne rfl)
  refine ⟨k, ?_⟩
  have : |(z : ℚ) * 2 ^ ulpExp q - raw q| = 2 ^ ulpExp q := by
    unfold raw
    rw [← sub_mul, abs_mul, abs_of_pos hp]
    have : ((|z - roundEven (q / 2 ^ ulpExp q)| : Int) : ℚ) = 1 := by rw [hd]; norm_num
    push_cast at this
    rw [this, one_mul]
  rw [this]
  unfold raw
  rw [hk]
  push_cast
  ring

/-- The result of rounding is finite below the overflow threshold. -/
theorem rnd_finite {q : ℚ} (h : |q| ≤ 2 ^ 1023) : ∃ v, rnd q = .fin v := by
  refine ⟨raw q, ?_⟩
  rw [rnd_eq, if_pos]
  have hb : ∀ s : Int, |s| = 1 → Binary64 (s * 2 ^ 1023) := fun s hs =>
    ⟨s * 2 ^ 52, 971, by rw [abs_mul, hs]; norm_num, by norm_num, by norm_num, by
      rw [show (2 : ℚ) ^ (971 : Int) = 2 ^ 971 from zpow_natCast 2 971,
        show (2 : ℚ) ^ 1023 = 2 ^ 52 * 2 ^ 971 from pow_add 2 52 971]
      push_cast; ring⟩
  have hP : (0 : ℚ) < 2 ^ 1023 := by positivity
  have hlt : (2 : ℚ) ^ 1024 = 2 ^ 1023 * 2 := pow_succ 2 1023
  have h1 := raw_nearest q _ (hb 1 rfl)
  have h2 := raw_nearest q _ (hb (-1) rfl)
  have ⟨hl, hr⟩ := abs_le.1 h
  push_cast at h1 h2
  rw [abs_of_nonneg (a := 1 * (2 : ℚ) ^ 1023 - q) (by linarith)] at h1
  rw [abs_of_nonpos (a := -1 * (2 : ℚ) ^ 1023 - q) (by linarith)] at h2
  have h3 := le_abs_self (raw q - q)
  have h4 := neg_abs_le (raw q - q)
  rw [hlt, abs_lt]
  clear hlt
  generalize (2 : ℚ) ^ 1023 = P at *
  constructor <;> linarith

theorem ulpExp_neg (q : ℚ) : ulpExp (-q) = ulpExp q := by unfold ulpExp; rw [abs_neg]

theorem raw_neg (q : ℚ) : raw (-q) = -raw q := by
  unfold raw; rw [ulpExp_neg, neg_div, roundEven_neg]; push_cast; ring

/-- The greatest finite binary64 number. -/
theorem binary64_max : Binary64 (2 ^ 971 * (2 ^ 53 - 1)) :=
  ⟨2 ^ 53 - 1, 971, by norm_num, by norm_num, by norm_num, by
    rw [show (2 : ℚ) ^ (971 : Int) = 2 ^ 971 from zpow_natCast 2 971]; push_cast; ring⟩

theorem binary64_neg {q : ℚ} (h : Binary64 q) : Binary64 (-q) := by
  obtain ⟨m, e, hm, h1, h2, rfl⟩ := h
  exact ⟨-m, e, by rwa [abs_neg], h1, h2, by push_cast; ring⟩

theorem raw_lt {q : ℚ} (h0 : 0 ≤ q) (h : q < 2 ^ 970 * (2 ^ 54 - 1)) : |raw q| < 2 ^ 1024 := by
  have h1 := raw_nearest q _ binary64_max
  have h2 := raw_nearest q _ (binary64_neg binary64_max)
  have hP : (0 : ℚ) < 2 ^ 970 := by positivity
  have e1 : (2 : ℚ) ^ 971 = 2 ^ 970 * 2 := pow_succ 2 970
  have e2 : (2 : ℚ) ^ 1024 = 2 ^ 970 * 2 ^ 54 := pow_add 2 970 54
  rw [e1] at h1 h2
  rw [e2]
  clear e1 e2
  generalize (2 : ℚ) ^ 970 = P at *
  have h3 := le_abs_self (raw q - q)
  have h4 := neg_abs_le (raw q - q)
  rw [abs_of_nonpos (a := -(P * 2 * (2 ^ 53 - 1)) - q) (by nlinarith)] at h2
  rcases abs_cases (P * 2 * (2 ^ 53 - 1) - q) with ⟨h5, -⟩ | ⟨h5, -⟩ <;> rw [h5] at h1 <;> rw [abs_lt] <;>
    constructor <;> linarith

theorem raw_ge {q : ℚ} (h : 2 ^ 970 * (2 ^ 54 - 1) ≤ q) : 2 ^ 1024 ≤ raw q := by
  have hpos : (0 : ℚ) < q := lt_of_lt_of_le (by positivity) h
  have e2 : (2 : ℚ) ^ 1023 = 2 ^ 970 * 2 ^ 53 := pow_add 2 970 53
  have e4 : (2 : ℚ) ^ 1024 = 2 ^ 971 * 2 ^ 53 := pow_add 2 971 53
  have e5 : (2 : ℚ) ^ 971 = 2 ^ 970 * 2 := pow_succ 2 970
  have hP : (0 : ℚ) < 2 ^ 970 := by positivity
  have hlog : 1023 ≤ Int.log 2 |q| := by
    rw [← Int.zpow_le_iff_le_log (by norm_num) (by rw [abs_of_pos hpos]; exact hpos), abs_of_pos hpos]
    rw [show (((2 : Nat) : ℚ)) ^ (1023 : Int) = 2 ^ 1023 from zpow_natCast 2 1023, e2]
    refine le_trans ?_ h
    exact mul_le_mul_of_nonneg_left (by norm_num) hP.le
  have hE : ulpExp q = Int.log 2 |q| - 52 := by unfold ulpExp; rw [max_eq_left (by omega)]
  have hp := two_zpow_pos (ulpExp q)
  have h971 : (2 : ℚ) ^ 971 ≤ 2 ^ ulpExp q := by
    rw [← zpow_natCast]; exact zpow_le_zpow_right₀ (by norm_num) (by push_cast; omega)
  unfold raw
  by_cases hc : ulpExp q = 971
  · have hx : (2 : ℚ) ^ 53 - 1 / 2 ≤ q / 2 ^ ulpExp q := by
      rw [hc, show (2 : ℚ) ^ (971 : Int) = 2 ^ 971 from zpow_natCast 2 971, le_div_iff₀ (by positivity), e5]
      refine le_trans (le_of_eq ?_) h
      ring
    have hr : 2 ^ 53 ≤ roundEven (q / 2 ^ ulpExp q) := by
      generalize q / 2 ^ ulpExp q = x at hx
      by_cases hb : (2 : ℚ) ^ 53 ≤ x
      · exact le_trans (Int.le_floor.2 (by exact_mod_cast hb)) (floor_le_roundEven x)
      · have hf : ⌊x⌋ = 2 ^ 53 - 1 := by
          rw [Int.floor_eq_iff]; push_cast; constructor <;> linarith
        unfold roundEven
        simp only [hf]
        rw [if_neg (by push_cast; linarith)]
        split_ifs <;> omega
    have hr' : (2 : ℚ) ^ 53 ≤ roundEven (q / 2 ^ ulpExp q) := by exact_mod_cast hr
    rw [e4, mul_comm]
    exact mul_le_mul hr' h971 (by positivity) (le_trans (by positivity) hr')
  · have h972 : (2 : ℚ) ^ 972 ≤ 2 ^ ulpExp q := by
      rw [← zpow_natCast]; exact zpow_le_zpow_right₀ (by norm_num) (by push_cast; omega)
    have e6 : (2 : ℚ) ^ 1024 = 2 ^ 52 * 2 ^ 972 := by
      rw [show (1024 : Nat) = 52 + 972 from rfl, pow_add]
    have hx : (2 : ℚ) ^ 52 ≤ q / 2 ^ ulpExp q := by
      have h := Int.zpow_log_le_self (b := 2) (by norm_num) (abs_pos.2 hpos.ne')
      push_cast at h
      rw [show Int.log 2 |q| = 52 + ulpExp q by omega, zpow_add₀ (by norm_num),
        show (2 : ℚ) ^ (52 : Int) = 2 ^ 52 by norm_cast, abs_of_pos hpos] at h
      rwa [le_div_iff₀ hp]
    have hr : 2 ^ 52 ≤ roundEven (q / 2 ^ ulpExp q) :=
      le_trans (Int.le_floor.2 (by exact_mod_cast hx)) (floor_le_roundEven _)
    have hr' : (2 : ℚ) ^ 52 ≤ roundEven (q / 2 ^ ulpExp q) := by exact_mod_cast hr
    rw [e6]
    exact mul_le_mul hr' h972 (by positivity) (le_trans (by positivity) hr')

/-- Rounding overflows exactly from `2^1024 - 2^970` on. -/
theorem rnd_finite_iff (q : ℚ) : (∃ v, rnd q = .fin v) ↔ |q| < 2 ^ 970 * (2 ^ 54 - 1) := by
  have key : |raw q| = |raw (|q|)| := by
    rcases abs_choice q with h | h <;> rw [h]
    rw [raw_neg, abs_neg]
  constructor
  · rintro ⟨v, h⟩
    obtain ⟨-, hlt⟩ := rnd_fin h
    by_contra hc
    have := raw_ge (not_lt.1 hc)
    rw [key] at hlt
    exact absurd (lt_of_le_of_lt (le_trans this (le_abs_self _)) hlt) (lt_irrefl _)
  · intro h
    exact ⟨raw q, by rw [rnd_eq, if_pos (by rw [key]; exact raw_lt (abs_nonneg q) h)]⟩

theorem ofInt_ok_iff (n : Int) : (∃ v, ofInt n = .ok v) ↔ |n| < 2 ^ 970 * (2 ^ 54 - 1) := by
  have h := rnd_finite_iff (n : ℚ)
  have e : |(n : ℚ)| < 2 ^ 970 * (2 ^ 54 - 1) ↔ |n| < 2 ^ 970 * (2 ^ 54 - 1) := by
    rw [show |(n : ℚ)| = ((|n| : Int) : ℚ) by norm_cast]
    generalize |n| = k
    rw [← Int.cast_lt (R := ℚ)]
    push_cast
    rw [show (2 : ℚ) ^ 54 - 1 = 18014398509481983 by norm_num]
  rw [← e, ← h]
  unfold ofInt
  cases rnd (n : ℚ) <;> simp

theorem ofInt_error {n : Int} (h : 2 ^ 970 * (2 ^ 54 - 1) ≤ |n|) : ofInt n = .error .overflowError := by
  have := mt (ofInt_ok_iff n).1 (not_lt.2 h)
  unfold ofInt at this ⊢
  cases h : rnd (n : ℚ) <;> rw [h] at this
  · simp at this
  all_goals rfl

theorem binary64_int {n : Int} (h : |n| ≤ 2 ^ 53) : Binary64 n := by
  by_cases he : |n| = 2 ^ 53
  · rcases abs_choice n with h1 | h1
    · exact ⟨2 ^ 52, 1, by norm_num, by norm_num, by norm_num, by
        rw [show n = 2 ^ 53 by omega]; push_cast; norm_num⟩
    · exact ⟨-2 ^ 52, 1, by norm_num, by norm_num, by norm_num, by
        rw [show n = -2 ^ 53 by omega]; push_cast; norm_num⟩
  · exact ⟨n, 0, lt_of_le_of_ne h he, by norm_num, by norm_num, by simp⟩

theorem ofInt_exact {n : Int} (h : |n| ≤ 2 ^ 53) : ofInt n = .ok (.fin n) := by
  unfold ofInt; rw [rnd_exact (binary64_int h)]

end Float64
end Bitforge
