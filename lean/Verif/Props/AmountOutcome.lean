import Verif.Props.Fiat
import Verif.Props.Readers

/-! # C126: what amounts are made and converted to in every case -/

namespace Bitforge.Amounts
open Spec Float64 BtcUnit

/-! ## The outcomes -/

/-- The `float` of a rational number: from `2^1024 - 2^970` on, infinity. -/
inductive Rounds (q : ℚ) : Float64 → Prop
  | finite {v} : |q| < 2 ^ 970 * (2 ^ 54 - 1) → Rounded64 q v → Rounds q (.fin v)
  | above : 2 ^ 970 * (2 ^ 54 - 1) ≤ q → Rounds q (.inf false)
  | below : q ≤ -(2 ^ 970 * (2 ^ 54 - 1)) → Rounds q (.inf true)

/-- A number as an operand of a `float` operation. -/
inductive FloatOf : Num → Except Err Float64 → Prop
  | float {f} : FloatOf (.float f) (.ok f)
  | int {n : Int} {v} : Rounds n (.fin v) → FloatOf (.int n) (.ok (.fin v))
  | overflow {n : Int} {b} : Rounds n (.inf b) → FloatOf (.int n) (.error .overflowError)

/-- The product of two floats. -/
inductive Product : Float64 → Float64 → Float64 → Prop
  | finite {p q f} : Rounds (p * q) f → Product (.fin p) (.fin q) f
  | nan_left {y} : Product .nan y .nan
  | nan_right {x} : Product x .nan .nan
  | zero_left {b} : Product (.fin 0) (.inf b) .nan
  | zero_right {b} : Product (.inf b) (.fin 0) .nan
  | pos_left {p : ℚ} {b} : 0 < p → Product (.fin p) (.inf b) (.inf b)
  | neg_left {p : ℚ} {b} : p < 0 → Product (.fin p) (.inf b) (.inf !b)
  | pos_right {p : ℚ} {b} : 0 < p → Product (.inf b) (.fin p) (.inf b)
  | neg_right {p : ℚ} {b} : p < 0 → Product (.inf b) (.fin p) (.inf !b)
  | same {b} : Product (.inf b) (.inf b) (.inf false)
  | opposite {b} : Product (.inf b) (.inf !b) (.inf true)

/-- The quotient of two floats. -/
inductive Quotient64 : Float64 → Float64 → Except Err Float64 → Prop
  | zero {x} : Quotient64 x (.fin 0) (.error .zeroDivisionError)
  | finite {p q f} : q ≠ 0 → Rounds (p / q) f → Quotient64 (.fin p) (.fin q) (.ok f)
  | nan_left {y} : y ≠ .fin 0 → Quotient64 .nan y (.ok .nan)
  | nan_right {x} : Quotient64 x .nan (.ok .nan)
  | vanishes {p b} : Quotient64 (.fin p) (.inf b) (.ok (.fin 0))
  | pos {q : ℚ} {b} : 0 < q → Quotient64 (.inf b) (.fin q) (.ok (.inf b))
  | neg {q : ℚ} {b} : q < 0 → Quotient64 (.inf b) (.fin q) (.ok (.inf !b))
  | infinite {b c} : Quotient64 (.inf b) (.inf c) (.ok .nan)

/-- The whole part of a number. -/
inductive WholeOf : Num → Except Err Int → Prop
  | int {n} : WholeOf (.int n) (.ok n)
  | pos {q : ℚ} {n : Int} : 0 ≤ q → n ≤ q → q < n + 1 → WholeOf (.float (.fin q)) (.ok n)
  | neg {q : ℚ} {n : Int} : q < 0 → n - 1 < q → q ≤ n → WholeOf (.float (.fin q)) (.ok n)
  | infinite {b} : WholeOf (.float (.inf b)) (.error .overflowError)
  | nan : WholeOf (.float .nan) (.error .valueError)

/-- An amount of `n` satoshis. -/
inductive UnitOf (n : Int) : Except Err BtcUnit → Prop
  | large : 2 ^ 970 * (2 ^ 54 - 1) ≤ |n| → UnitOf n (.error .overflowError)
  | made {v bits mbtc btc : ℚ} : |n| < 2 ^ 970 * (2 ^ 54 - 1) → Rounded64 n v → Rounded64 (v / 10 ^ 2) bits →
      Rounded64 (v / 10 ^ 5) mbtc → Rounded64 (v / 10 ^ 8) btc → UnitOf n (.ok ⟨n, .fin bits, .fin mbtc, .fin btc⟩)

/-- An amount of so many satoshis, whole or not. -/
inductive Counted (x : Num) : Except Err BtcUnit → Prop
  | fails {e} : WholeOf x (.error e) → Counted x (.error e)
  | whole {n r} : WholeOf x (.ok n) → UnitOf n r → Counted x r

/-- An amount of so many times `c` satoshis. -/
inductive Multiple (c : ℚ) (x : Num) : Except Err BtcUnit → Prop
  | fails {e} : FloatOf x (.error e) → Multiple c x (.error e)
  | times {f g r} : FloatOf x (.ok f) → Product f (.fin c) g → Counted (.float g) r → Multiple c x r

/-- `Unit(satoshis, bits, mbtc, btc)`. -/
inductive AmountMade : Option Num → Option Num → Option Num → Option Num → Except Err BtcUnit → Prop
  | satoshis {x b m t r} : Counted x r → AmountMade (some x) b m t r
  | bits {x m t r} : Multiple (10 ^ 2) x r → AmountMade none (some x) m t r
  | mbtc {x t r} : Multiple (10 ^ 5) x r → AmountMade none none (some x) t r
  | btc {x r} : Multiple (10 ^ 8) x r → AmountMade none none none (some x) r
  | nothing : AmountMade none none none none (.error .valueError)

/-- `Unit.from_fiat(value, rate)`. -/
inductive FiatMade (value rate : Num) : Except Err BtcUnit → Prop
  | rate {e} : FloatOf rate (.error e) → FiatMade value rate (.error e)
  | value {f e} : FloatOf rate (.ok f) → FloatOf value (.error e) → FiatMade value rate (.error e)
  | zero {f g e} : FloatOf rate (.ok f) → FloatOf value (.ok g) → Quotient64 g f (.error e) → FiatMade value rate (.error e)
  | made {f g q r} : FloatOf rate (.ok f) → FloatOf value (.ok g) → Quotient64 g f (.ok q) → Multiple (10 ^ 8) (.float q) r →
      FiatMade value rate r

/-- `unit.at_rate(rate)`. -/
inductive Valued (u : BtcUnit) (rate : Num) : Except Err Float64 → Prop
  | fails {e} : FloatOf rate (.error e) → Valued u rate (.error e)
  | product {f g} : FloatOf rate (.ok f) → Product u.btc f g → Valued u rate (.ok g)

/-! ## Arithmetic -/

/-- There is one rounded number. -/
theorem rounded64_unique {q v w : ℚ} (hv : Rounded64 q v) (hw : Rounded64 q w) : v = w := by
  by_contra hne
  obtain ⟨k, hk⟩ := hv.2 w hw.1 (Ne.symm hne)
  obtain ⟨l, hl⟩ := hw.2 v hv.1 hne
  rw [abs_sub_comm] at hl
  have hd : |w - v| ≠ 0 := abs_ne_zero.2 (sub_ne_zero.2 (Ne.symm hne))
  have h1 : w - v = (2 * (l - k : Int) : Int) * |w - v| := by push_cast; linarith
  rcases abs_choice (w - v) with h | h
  · rw [h] at h1 hd
    have : ((2 * (l - k) : Int) : ℚ) = 1 := by
      have := mul_right_cancel₀ hd ((one_mul (w - v)).trans h1)
      exact this.symm
    have : 2 * (l - k) = 1 := by exact_mod_cast this
    omega
  · rw [h] at h1 hd
    have : ((2 * (l - k) : Int) : ℚ) = -1 := by
      have : (-1 : ℚ) * -(w - v) = ((2 * (l - k) : Int) : ℚ) * -(w - v) := by rw [← h1]; ring
      exact (mul_right_cancel₀ hd this).symm
    have : 2 * (l - k) = -1 := by exact_mod_cast this
    omega

theorem rounds_iff (q : ℚ) (f : Float64) : rnd q = f ↔ Rounds q f := by
  refine graph (f := rnd) (R := Rounds) ?_ ?_ q f
  · rintro q _ (⟨h, hr⟩ | h | h)
    · obtain ⟨v, hv⟩ := (rnd_finite_iff q).2 h
      rw [hv, rounded64_unique (rnd_rounded hv) hr]
    · have := raw_ge h
      have h0 : (0 : ℚ) < raw q := lt_of_lt_of_le (by positivity) this
      rw [rnd_eq, if_neg (by rw [abs_of_pos h0]; exact not_lt.2 this), decide_eq_false (not_lt.2 h0.le)]
    · have := raw_ge (q := -q) (le_neg_of_le_neg h)
      rw [raw_neg] at this
      have h0 : raw q < 0 := neg_pos.1 (lt_of_lt_of_le (by positivity) this)
      rw [rnd_eq, if_neg (by rw [abs_of_neg h0]; exact not_lt.2 this), decide_eq_true h0]
  · intro q
    by_cases h : |q| < 2 ^ 970 * (2 ^ 54 - 1)
    · obtain ⟨v, hv⟩ := (rnd_finite_iff q).2 h
      exact ⟨_, .finite h (rnd_rounded hv)⟩
    · rw [not_lt] at h
      rcases le_abs.1 h with h | h
      · exact ⟨_, .above h⟩
      · exact ⟨_, .below (by linarith)⟩

theorem floatOf_iff (x : Num) (r : Except Err Float64) : x.toFloat = r ↔ FloatOf x r := by
  refine graph (f := Num.toFloat) (R := FloatOf) ?_ ?_ x r
  · rintro x _ (_ | h | h)
    · rfl
    · simp only [Num.toFloat, ofInt, (rounds_iff _ _).2 h]
    · simp only [Num.toFloat, ofInt, (rounds_iff _ _).2 h]
  · intro x
    cases x with
    | float f => exact ⟨_, .float⟩
    | int n =>
      cases h : rnd n with
      | fin v => exact ⟨_, .int ((rounds_iff _ _).1 h)⟩
      | inf b => exact ⟨_, .overflow ((rounds_iff _ _).1 h)⟩
      | nan => cases (rounds_iff _ _).1 h

/-- C126. The product of two floats. -/
theorem C126_product (x y z : Float64) : x.mul y = z ↔ Product x y z := by
  refine graph (f := fun x => x.mul y) (R := fun x z => Product x y z) ?_ ?_ x z
  · intro x z h
    cases h with
    | finite h => exact (rounds_iff _ _).2 h
    | nan_left => cases y <;> rfl
    | nan_right => cases x <;> rfl
    | zero_left => rfl
    | zero_right => rfl
    | @pos_left p b h =>
      have h1 : Float64.fin p ≠ .fin 0 := fun e => h.ne' (Float64.fin.inj e)
      simp [mul, negative, h1, not_lt.2 h.le]
    | @neg_left p b h =>
      have h1 : Float64.fin p ≠ .fin 0 := fun e => h.ne (Float64.fin.inj e)
      simp [mul, negative, h1, h]
    | @pos_right p b h =>
      have h1 : Float64.fin p ≠ .fin 0 := fun e => h.ne' (Float64.fin.inj e)
      simp [mul, negative, h1, not_lt.2 h.le]
    | @neg_right p b h =>
      have h1 : Float64.fin p ≠ .fin 0 := fun e => h.ne (Float64.fin.inj e)
      simp [mul, negative, h1, h]
    | @same b => cases b <;> rfl
    | @opposite b => cases b <;> rfl
  · intro x
    cases x with
    | nan => exact ⟨_, .nan_left⟩
    | fin p =>
      cases y with
      | nan => exact ⟨_, .nan_right⟩
      | fin q => exact ⟨_, .finite ((rounds_iff _ _).1 rfl)⟩
      | inf b =>
        rcases lt_trichotomy p 0 with h | rfl | h
        · exact ⟨_, .neg_left h⟩
        · exact ⟨_, .zero_left⟩
        · exact ⟨_, .pos_left h⟩
    | inf b =>
      cases y with
      | nan => exact ⟨_, .nan_right⟩
      | fin p =>
        rcases lt_trichotomy p 0 with h | rfl | h
        · exact ⟨_, .neg_right h⟩
        · exact ⟨_, .zero_right⟩
        · exact ⟨_, .pos_right h⟩
      | inf c =>
        cases b <;> cases c
        · exact ⟨_, .same⟩
        · exact ⟨_, .opposite⟩
        · exact ⟨_, .opposite⟩
        · exact ⟨_, .same⟩

/-- C126. The quotient of two floats. -/
theorem C126_quotient (x y : Float64) (z : Except Err Float64) : x.div y = z ↔ Quotient64 x y z := by
  refine graph (f := fun x => x.div y) (R := fun x z => Quotient64 x y z) ?_ ?_ x z
  · intro x z h
    cases h with
    | zero => unfold div; rw [if_pos rfl]
    | finite h0 h =>
      unfold div
      rw [if_neg (fun e => h0 (Float64.fin.inj e)), ← (rounds_iff _ _).2 h]
    | nan_left h => unfold div; rw [if_neg h]
    | nan_right => unfold div; rw [if_neg (by simp)]; cases x <;> rfl
    | vanishes => unfold div; rw [if_neg (by simp)]
    | @pos q b h =>
      unfold div; rw [if_neg (fun e => h.ne' (Float64.fin.inj e))]
      simp [not_lt.2 h.le]
    | @neg q b h =>
      unfold div; rw [if_neg (fun e => h.ne (Float64.fin.inj e))]
      simp [h]
    | infinite => unfold div; rw [if_neg (by simp)]
  · intro x
    by_cases hy : y = .fin 0
    · subst hy; exact ⟨_, .zero⟩
    · cases x with
      | nan => exact ⟨_, .nan_left hy⟩
      | fin p =>
        cases y with
        | nan => exact ⟨_, .nan_right⟩
        | fin q => exact ⟨_, .finite (fun e => hy (by rw [e])) ((rounds_iff _ _).1 rfl)⟩
        | inf b => exact ⟨_, .vanishes⟩
      | inf b =>
        cases y with
        | nan => exact ⟨_, .nan_right⟩
        | fin p =>
          rcases lt_trichotomy p 0 with h | rfl | h
          · exact ⟨_, .neg h⟩
          · exact absurd rfl hy
          · exact ⟨_, .pos h⟩
        | inf c => exact ⟨_, .infinite⟩

theorem wholeOf_iff (x : Num) (r : Except Err Int) : x.toInt = r ↔ WholeOf x r := by
  refine graph (f := Num.toInt) (R := WholeOf) ?_ ?_ x r
  · rintro x _ (_ | ⟨h, h1, h2⟩ | ⟨h, h1, h2⟩ | _ | _)
    · rfl
    · simp only [Num.toInt, Float64.toInt]
      rw [if_pos h, Int.floor_eq_iff.2 ⟨h1, h2⟩]
    · simp only [Num.toInt, Float64.toInt]
      rw [if_neg (by linarith), Int.ceil_eq_iff.2 ⟨h1, h2⟩]
    · rfl
    · rfl
  · intro x
    cases x with
    | int n => exact ⟨_, .int⟩
    | float f =>
      cases f with
      | nan => exact ⟨_, .nan⟩
      | inf b => exact ⟨_, .infinite⟩
      | fin q =>
        by_cases h : 0 ≤ q
        · exact ⟨_, .pos h (Int.floor_le q) (Int.lt_floor_add_one q)⟩
        · exact ⟨_, .neg (not_le.1 h) (by have := Int.ceil_lt_add_one q; linarith) (Int.le_ceil q)⟩

/-! ## Amounts -/

/-- Dividing makes no number too large. -/
theorem scaled_ok {q v c : ℚ} (hc : 2 ≤ c) (hv : Rounded64 q v) : ∃ w, rnd (v / c) = .fin w ∧ Rounded64 (v / c) w := by
  have hb := binary64_lt hv.1.1
  obtain ⟨w, hw⟩ := rnd_finite (q := v / c) (by
    rw [abs_div, abs_of_pos (by linarith : (0 : ℚ) < c), div_le_iff₀ (by linarith)]
    have h1 : (2 : ℚ) ^ 1023 * 2 = 2 ^ 1024 := (pow_succ _ _).symm
    have h2 : (2 : ℚ) ^ 1023 * 2 ≤ 2 ^ 1023 * c := mul_le_mul_of_nonneg_left hc (by positivity)
    rw [h1] at h2
    exact le_trans hb.le h2)
  exact ⟨w, hw, rnd_rounded hw⟩

theorem large_iff (n : Int) : |(n : ℚ)| < 2 ^ 970 * (2 ^ 54 - 1) ↔ |n| < 2 ^ 970 * (2 ^ 54 - 1) := by
  rw [show |(n : ℚ)| = ((|n| : Int) : ℚ) by norm_cast]
  generalize |n| = k
  rw [← Int.cast_lt (R := ℚ)]
  push_cast
  rw [show (2 : ℚ) ^ 54 - 1 = 18014398509481983 by norm_num]

theorem unitOf_iff (n : Int) (r : Except Err BtcUnit) : setValues (.int n) = r ↔ UnitOf n r := by
  refine graph (f := fun n => setValues (.int n)) (R := UnitOf) ?_ ?_ n r
  · rintro n _ (h | ⟨h, hv, h1, h2, h3⟩)
    · show setValues (.int n) = _
      simp only [setValues, scaled, Num.toInt, bind, Except.bind, ofInt_error h]
    · show setValues (.int n) = _
      obtain ⟨v', hv'⟩ := (rnd_finite_iff _).2 ((large_iff n).2 h)
      obtain rfl := rounded64_unique (rnd_rounded hv') hv
      obtain ⟨b, hb, hb'⟩ := scaled_ok (c := 10 ^ 2) (by norm_num) hv
      obtain ⟨m, hm, hm'⟩ := scaled_ok (c := 10 ^ 5) (by norm_num) hv
      obtain ⟨t, ht, ht'⟩ := scaled_ok (c := 10 ^ 8) (by norm_num) hv
      obtain rfl := rounded64_unique h1 hb'
      obtain rfl := rounded64_unique h2 hm'
      obtain rfl := rounded64_unique h3 ht'
      rw [setValues_ok (v := v') (by unfold ofInt; rw [hv']), show (100 : ℚ) = 10 ^ 2 by norm_num,
        show (100000 : ℚ) = 10 ^ 5 by norm_num, show (100000000 : ℚ) = 10 ^ 8 by norm_num, hb, hm, ht]
  · intro n
    by_cases h : |n| < 2 ^ 970 * (2 ^ 54 - 1)
    · obtain ⟨v, hv⟩ := (rnd_finite_iff _).2 ((large_iff n).2 h)
      have hv := rnd_rounded hv
      obtain ⟨b, _, hb⟩ := scaled_ok (c := 10 ^ 2) (by norm_num) hv
      obtain ⟨m, _, hm⟩ := scaled_ok (c := 10 ^ 5) (by norm_num) hv
      obtain ⟨t, _, ht⟩ := scaled_ok (c := 10 ^ 8) (by norm_num) hv
      exact ⟨_, .made h hv hb hm ht⟩
    · exact ⟨_, .large (not_lt.1 h)⟩

theorem setValues_whole (x : Num) : setValues x = x.toInt.bind fun n => setValues (.int n) := by
  unfold setValues
  cases x.toInt <;> rfl

theorem counted_iff (x : Num) (r : Except Err BtcUnit) : setValues x = r ↔ Counted x r := by
  refine graph (f := setValues) (R := Counted) ?_ ?_ x r
  · rintro x _ (h | ⟨h, hr⟩)
    · rw [setValues_whole, (wholeOf_iff _ _).2 h]; rfl
    · rw [setValues_whole, (wholeOf_iff _ _).2 h]; exact (unitOf_iff _ _).2 hr
  · intro x
    cases h : x.toInt with
    | error e => exact ⟨_, .fails ((wholeOf_iff _ _).1 h)⟩
    | ok n => exact ⟨_, .whole ((wholeOf_iff _ _).1 h) ((unitOf_iff _ _).1 rfl)⟩

theorem multiple_iff (c : ℚ) (x : Num) (r : Except Err BtcUnit) :
    ((times x (.fin c)).bind fun v => setValues v) = r ↔ Multiple c x r := by
  refine graph (f := fun x => (times x (.fin c)).bind fun v => setValues v) (R := Multiple c) ?_ ?_ x r
  · rintro x _ (h | ⟨h, hp, hr⟩)
    · simp only [times, (floatOf_iff _ _).2 h, bind, Except.bind]
    · simp only [times, (floatOf_iff _ _).2 h, bind, Except.bind, (C126_product _ _ _).2 hp, pure, Except.pure]
      exact (counted_iff _ _).2 hr
  · intro x
    cases h : x.toFloat with
    | error e => exact ⟨_, .fails ((floatOf_iff _ _).1 h)⟩
    | ok f => exact ⟨_, .times ((floatOf_iff _ _).1 h) ((C126_product _ _ _).1 rfl) ((counted_iff _ _).1 rfl)⟩

/-- C126. What `Unit(satoshis, bits, mbtc, btc)` makes of all numbers. -/
theorem C126_amount (s b m t : Option Num) (r : Except Err BtcUnit) : BtcUnit.new s b m t = r ↔ AmountMade s b m t r := by
  have e2 : ((10 : ℚ) ^ 2) = 100 := by norm_num
  have e5 : ((10 : ℚ) ^ 5) = 100000 := by norm_num
  have e8 : ((10 : ℚ) ^ 8) = 100000000 := by norm_num
  cases s with
  | some x => exact (counted_iff x r).trans ⟨.satoshis, fun h => by cases h; assumption⟩
  | none =>
    cases b with
    | some x =>
      refine Iff.trans ?_ ⟨AmountMade.bits, fun h => by cases h; assumption⟩
      rw [← multiple_iff, e2]; rfl
    | none =>
      cases m with
      | some x =>
        refine Iff.trans ?_ ⟨AmountMade.mbtc, fun h => by cases h; assumption⟩
        rw [← multiple_iff, e5]; rfl
      | none =>
        cases t with
        | some x =>
          refine Iff.trans ?_ ⟨AmountMade.btc, fun h => by cases h; assumption⟩
          rw [← multiple_iff, e8]; rfl
        | none => exact ⟨fun h => h ▸ .nothing, fun h => by cases h; rfl⟩

theorem ofBtc_iff (x : Num) (r : Except Err BtcUnit) : ofBtc x = r ↔ Multiple (10 ^ 8) x r :=
  (C126_amount none none none (some x) r).trans ⟨fun h => by cases h; assumption, .btc⟩

/-- C126. What `from_fiat` makes of all numbers. -/
theorem C126_fiat (value rate : Num) (r : Except Err BtcUnit) : fromFiat value rate = r ↔ FiatMade value rate r := by
  refine graph (f := fun value => fromFiat value rate) (R := fun value r => FiatMade value rate r) ?_ ?_ value r
  · rintro value _ (h | ⟨h, hv⟩ | ⟨h, hv, hq⟩ | ⟨h, hv, hq, hr⟩)
    · simp only [fromFiat, (floatOf_iff _ _).2 h, bind, Except.bind]
    · simp only [fromFiat, (floatOf_iff _ _).2 h, (floatOf_iff _ _).2 hv, bind, Except.bind]
    · simp only [fromFiat, (floatOf_iff _ _).2 h, (floatOf_iff _ _).2 hv, bind, Except.bind, (C126_quotient _ _ _).2 hq]
    · simp only [fromFiat, (floatOf_iff _ _).2 h, (floatOf_iff _ _).2 hv, bind, Except.bind, (C126_quotient _ _ _).2 hq]
      exact (ofBtc_iff _ _).2 hr
  · intro value
    cases h : rate.toFloat with
    | error e => exact ⟨_, .rate ((floatOf_iff _ _).1 h)⟩
    | ok f =>
      have h := (floatOf_iff _ _).1 h
      cases hv : value.toFloat with
      | error e => exact ⟨_, .value h ((floatOf_iff _ _).1 hv)⟩
      | ok g =>
        have hv := (floatOf_iff _ _).1 hv
        cases hq : g.div f with
        | error e => exact ⟨_, .zero h hv ((C126_quotient _ _ _).1 hq)⟩
        | ok q => exact ⟨_, .made h hv ((C126_quotient _ _ _).1 hq) ((ofBtc_iff _ _).1 rfl)⟩

/-- C126. What `at_rate` makes of all numbers, for every unit. -/
theorem C126_at_rate (u : BtcUnit) (rate : Num) (r : Except Err Float64) : u.atRate rate = r ↔ Valued u rate r := by
  refine graph (f := fun rate => u.atRate rate) (R := fun rate r => Valued u rate r) ?_ ?_ rate r
  · rintro rate _ (h | ⟨h, hp⟩)
    · simp only [atRate, (floatOf_iff _ _).2 h, bind, Except.bind]
    · simp only [atRate, (floatOf_iff _ _).2 h, bind, Except.bind, (C126_product _ _ _).2 hp, pure, Except.pure]
  · intro rate
    cases h : rate.toFloat with
    | error e => exact ⟨_, .fails ((floatOf_iff _ _).1 h)⟩
    | ok f => exact ⟨_, .product ((floatOf_iff _ _).1 h) ((C126_product _ _ _).1 rfl)⟩

/-- Half a satoshi less than nothing, infinite money, no money at all, nothing at a zero rate, infinitely much of nothing. -/
example : (BtcUnit.new (some (.float (.fin (-1 / 2)))) none none none).toOption.map (·.satoshis) = some 0 ∧
    BtcUnit.new none (some (.float (.inf true))) none none = .error .overflowError ∧
    BtcUnit.new none none none none = .error .valueError ∧
    fromFiat (.int 0) (.int 0) = .error .zeroDivisionError ∧
    (⟨0, .fin 0, .fin 0, .fin 0⟩ : BtcUnit).atRate (.float (.inf false)) = .ok .nan := by decide +kernel

end Bitforge.Amounts
