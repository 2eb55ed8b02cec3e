import Verif.FloatText
import Verif.Spec.Decimal
import Verif.Proofs.Float64
import Verif.Proofs.Unicode

/-! # Decimal literals -/

namespace Bitforge
open Spec

/-! ## Reading -/

theorem digits_iff {t : Text} : Digits t ↔ t.all Char.isDigit = true := by
  rw [List.all_eq_true]
  refine forall₂_congr fun c _ => ?_
  simp only [Char.isDigit, Bool.and_eq_true, decide_eq_true_eq, Char.toNat]
  exact Iff.rfl

theorem decValue_append (a b : Text) : decValue (a ++ b) = decValue a * 10 ^ b.length + decValue b := by
  have key : ∀ (t : Text) (v : Nat), t.foldl (fun v c => 10 * v + (c.toNat - 48)) v = v * 10 ^ t.length + decValue t := by
    intro t
    induction t with
    | nil => intro v; simp [decValue]
    | cons c t ih =>
      intro v
      have h1 := ih (10 * v + (c.toNat - 48))
      have h2 := ih (10 * 0 + (c.toNat - 48))
      unfold decValue at *
      simp only [List.foldl_cons, List.length_cons]
      rw [h1, h2]
      ring
  unfold decValue
  rw [List.foldl_append, key b]
  rfl

theorem decValue_eq (t : Text) : decValue t = digitsValue t := by
  induction t using List.reverseRecOn with
  | nil => rfl
  | append_singleton t c ih =>
    rw [decValue_append, ih]
    unfold digitsValue
    simp only [List.reverse_append, List.reverse_cons, List.reverse_nil, List.nil_append, List.cons_append,
      List.map_cons, Nat.ofDigits_cons, List.length_singleton, pow_one]
    simp [decValue]
    ring

theorem takeWhile_digits {a r : Text} (ha : Digits a) (hr : ∀ c, r.head? = some c → c.isDigit = false) :
    (a ++ r).takeWhile Char.isDigit = a ∧ (a ++ r).dropWhile Char.isDigit = r := by
  rw [digits_iff, List.all_eq_true] at ha
  constructor
  · rw [List.takeWhile_append_of_pos ha]
    cases r with
    | nil => simp
    | cons c r => rw [List.takeWhile_cons, hr c rfl]; simp
  · rw [List.dropWhile_append_of_pos ha]
    cases r with
    | nil => rfl
    | cons c r => rw [List.dropWhile_cons, hr c rfl]; simp

theorem splitSign_digits {d : Text} (hd : Digits d) : splitSign d = (false, d) := by
  unfold splitSign
  split
  · exact absurd (hd '-' (by simp)).1 (by decide)
  · exact absurd (hd '+' (by simp)).1 (by decide)
  · rfl

theorem parseExponent_ok {x : Text} {e : Int} (h : Exponent x e) : parseExponent x = some e := by
  obtain ⟨d, mark, hd, hne, hm, h⟩ := h
  have ha := digits_iff.1 hd
  have hs := splitSign_digits hd
  rcases h with ⟨rfl, rfl⟩ | ⟨rfl | rfl, rfl⟩
  · simp only [parseExponent, hm, if_true, splitSign, ne_eq, hne, not_false_eq_true, ha, and_self, decValue_eq]
  · simp only [parseExponent, hm, if_true, splitSign, ne_eq, hne, not_false_eq_true, ha, and_self, decValue_eq]
    rfl
  · simp only [parseExponent, hm, if_true, hs, ne_eq, hne, not_false_eq_true, ha, and_self, decValue_eq]
    rfl

theorem exponent_head {x : Text} {e : Int} (h : Exponent x e) : ∃ c r, x = c :: r ∧ (c = 'e' ∨ c = 'E') := by
  obtain ⟨d, mark, -, -, hm, h⟩ := h
  rcases h with ⟨rfl, -⟩ | ⟨rfl | rfl, -⟩ <;> exact ⟨_, _, rfl, hm⟩

/-- A plain number followed by an exponent part or by nothing. -/
theorem parseDecimal_ok {m x : Text} {p : ℚ} {e : Int} (hm : PlainDecimal m p)
    (hx : (x = [] ∧ e = 0) ∨ Exponent x e) : parseDecimal (m ++ x) = some (p * 10 ^ e) := by
  obtain ⟨a, b, ha, hb, hne, hmab, rfl⟩ := hm
  have hxh : ∀ c, x.head? = some c → c = 'e' ∨ c = 'E' := by
    intro c hc
    rcases hx with ⟨rfl, -⟩ | hx
    · cases hc
    · obtain ⟨c', r, rfl, h⟩ := exponent_head hx
      simp at hc; rw [← hc]; exact h
  have hxd : ∀ c, x.head? = some c → c.isDigit = false := by
    intro c hc; rcases hxh c hc with rfl | rfl <;> rfl
  have hxe : parseExponent x = some e := by
    rcases hx with ⟨rfl, rfl⟩ | hx
    · rfl
    · exact parseExponent_ok hx
  have hval : ((decValue (a ++ b) : ℚ) * 10 ^ (e - (b.length : Int)))
      = (digitsValue (a ++ b) : ℚ) / 10 ^ b.length * 10 ^ e := by
    rw [decValue_eq, zpow_sub₀ (by norm_num), zpow_natCast]; ring
  unfold parseDecimal
  rcases hmab with rfl | ⟨rfl, rfl⟩
  · obtain ⟨h1, h2⟩ := takeWhile_digits (a := a) (r := '.' :: (b ++ x)) ha (by intro c hc; simp at hc; rw [← hc]; rfl)
    obtain ⟨h3, h4⟩ := takeWhile_digits (a := b) (r := x) hb hxd
    rw [List.append_assoc, List.cons_append, h1, h2]
    simp only [splitFraction, h3, h4, hxe]
    rw [if_neg (by intro h; apply hne; rw [h.1, h.2]; rfl), hval]
  · obtain ⟨h1, h2⟩ := takeWhile_digits (a := m) (r := x) ha hxd
    have hsf : splitFraction x = ([], x) := by
      unfold splitFraction
      split
      · rcases hxh '.' rfl with h | h <;> exact absurd h (by decide)
      · rfl
    rw [h1, h2]
    simp only [hsf, hxe]
    rw [if_neg (by intro h; apply hne; rw [h.1]; rfl)]
    have := hval
    simp only [List.append_nil, List.length_nil] at this ⊢
    rw [this]

theorem parseDecimal_literal {t : Text} {q : ℚ} (h : Literal t q) : parseDecimal t = some q := by
  rcases h with h | ⟨m, x, p, e, rfl, hm, hx, rfl⟩
  · have := parseDecimal_ok (x := []) (e := 0) h (.inl ⟨rfl, rfl⟩)
    simpa using this
  · exact parseDecimal_ok hm (.inr hx)

/-- The characters of a literal. -/
theorem plain_chars {t : Text} {q : ℚ} (h : PlainDecimal t q) : ∀ c ∈ t, c.isDigit ∨ c = '.' := by
  obtain ⟨a, b, ha, hb, -, h, -⟩ := h
  rw [digits_iff, List.all_eq_true] at ha hb
  intro c hc
  rcases h with rfl | ⟨-, rfl⟩
  · simp only [List.mem_append, List.mem_cons] at hc
    rcases hc with hc | hc | hc
    · exact .inl (ha c hc)
    · exact .inr hc
    · exact .inl (hb c hc)
  · exact .inl (ha c hc)

def literalChar (c : Char) : Bool := c.isDigit || c = '.' || c = 'e' || c = 'E' || c = '-' || c = '+'

theorem literal_chars {t : Text} {q : ℚ} (h : Literal t q) : ∀ c ∈ t, literalChar c = true := by
  intro c hc
  rcases h with h | ⟨m, x, p, e, rfl, hm, hx, -⟩
  · rcases plain_chars h c hc with h | rfl
    · simp [literalChar, h]
    · rfl
  · rcases List.mem_append.1 hc with hc | hc
    · rcases plain_chars hm c hc with h | rfl
      · simp [literalChar, h]
      · rfl
    · obtain ⟨d, mark, hd, -, hmark, h⟩ := hx
      rw [digits_iff, List.all_eq_true] at hd
      have hmk : literalChar mark = true := by rcases hmark with rfl | rfl <;> rfl
      rcases h with ⟨rfl, -⟩ | ⟨rfl | rfl, -⟩ <;> simp only [List.mem_cons] at hc
      · rcases hc with rfl | rfl | hc
        · exact hmk
        · rfl
        · simp [literalChar, hd c hc]
      · rcases hc with rfl | rfl | hc
        · exact hmk
        · rfl
        · simp [literalChar, hd c hc]
      · rcases hc with rfl | hc
        · exact hmk
        · simp [literalChar, hd c hc]

theorem plain_head {t : Text} {q : ℚ} (h : PlainDecimal t q) : ∃ c r, t = c :: r := by
  obtain ⟨a, b, ha, hb, hne, h, -⟩ := h
  rcases h with rfl | ⟨rfl, rfl⟩
  · cases a <;> exact ⟨_, _, rfl⟩
  · cases t with
    | nil => simp at hne
    | cons c r => exact ⟨c, r, rfl⟩

theorem literal_head {t : Text} {q : ℚ} (h : Literal t q) : ∃ c r, t = c :: r ∧ (c.isDigit ∨ c = '.') := by
  rcases h with h | ⟨m, x, p, e, rfl, hm, -, -⟩
  · obtain ⟨c, r, rfl⟩ := plain_head h
    exact ⟨c, r, rfl, plain_chars h c (by simp)⟩
  · obtain ⟨c, r, rfl⟩ := plain_head hm
    exact ⟨c, r ++ x, rfl, plain_chars hm c (by simp)⟩

theorem literalChar_nat {c : Char} (h : literalChar c = true) : 33 ≤ c.toNat ∧ c.toNat < 128 := by
  unfold literalChar at h
  simp only [Bool.or_eq_true, decide_eq_true_eq] at h
  rcases h with ((((h | rfl) | rfl) | rfl) | rfl) | rfl
  · simp only [Char.isDigit, Bool.and_eq_true, decide_eq_true_eq] at h
    have h1 : 48 ≤ c.toNat := h.1
    have h2 : c.toNat ≤ 57 := h.2
    omega
  all_goals decide

theorem stripText_id {t : Text} (h : ∀ c ∈ t, c ≠ ' ') : stripText t = t := by
  have key : ∀ s : Text, (∀ c ∈ s, c ≠ ' ') → s.dropWhile (· = ' ') = s := by
    intro s hs
    cases s with
    | nil => rfl
    | cons c s => rw [List.dropWhile_cons, decide_eq_false (hs c (by simp))]; simp
  unfold stripText
  rw [key t h, key _ (by intro c hc; exact h c (List.mem_reverse.1 hc)), List.reverse_reverse]

/-- `float(text)` of a literal. -/
theorem parseFloat_signed {t : Text} {q : ℚ} (h : SignedLiteral t q) : parseFloat t = .ok (Float64.rnd q) := by
  have main : ∀ (pre m : Text) (neg : Bool) (p : ℚ), t = pre ++ m → (∀ c ∈ pre, literalChar c = true) →
      splitSign t = (neg, m) → Literal m p → parseFloat t = .ok (Float64.rnd (if neg then -p else p)) := by
    intro pre m neg p ht hpre hs hm
    have hlit : ∀ c ∈ t, literalChar c = true := by
      intro c hc
      rw [ht] at hc
      rcases List.mem_append.1 hc with hc | hc
      · exact hpre c hc
      · exact literal_chars hm c hc
    unfold parseFloat
    rw [encodeDecimal_ascii fun c hc => literalChar_nat (hlit c hc)]
    simp only
    · rw [stripText_id fun c hc => by rintro rfl; exact absurd (hlit _ hc) (by decide), hs]
      obtain ⟨c, r, rfl, hc⟩ := literal_head hm
      have hc' : c.toLower = c ∧ c ≠ 'i' ∧ c ≠ 'n' := by
        rcases hc with hc | rfl
        · simp only [Char.isDigit, Bool.and_eq_true, decide_eq_true_eq] at hc
          have h2 : c.toNat ≤ 57 := hc.2
          refine ⟨?_, ?_, ?_⟩
          · unfold Char.toLower
            rw [dif_neg]
            intro h
            have : 65 ≤ c.toNat := h.1
            omega
          · rintro rfl; exact absurd h2 (by decide)
          · rintro rfl; exact absurd h2 (by decide)
        · decide
      simp only [List.map_cons, hc'.1, parseDecimal_literal hm]
      rw [if_neg, if_neg]
      · intro h
        have : c = 'n' := by injection h
        exact hc'.2.2 this
      · rintro (h | h) <;> · have : c = 'i' := by injection h
                             exact hc'.2.1 this
  rcases h with h | ⟨m, rfl, h⟩
  · have hs : splitSign t = (false, t) := by
      obtain ⟨c, r, rfl, hc⟩ := literal_head h
      unfold splitSign
      split
      · rename_i heq; injection heq with h1 _; rw [h1] at hc; exact absurd hc (by decide)
      · rename_i heq; injection heq with h1 _; rw [h1] at hc; exact absurd hc (by decide)
      · rfl
    simpa using main [] t false q rfl (by simp) hs h
  · have := main ['-'] m true (-q) rfl (by simp [literalChar]) rfl h
    simpa using this

/-! ## Writing -/

/-- The value of the 12 digits. -/
def sig12Value (q : ℚ) : ℚ := (sig12 q).1 * (10 : ℚ) ^ (sig12 q).2

theorem ten_zpow_pos (e : Int) : (0 : ℚ) < 10 ^ e := zpow_pos (by norm_num) e

theorem sig12_scaled {q : ℚ} (h : 0 < q) :
    (10 : ℚ) ^ 11 ≤ q / 10 ^ (Int.log 10 q - 11) ∧ q / 10 ^ (Int.log 10 q - 11) < 10 ^ 12 := by
  have hp := ten_zpow_pos (Int.log 10 q - 11)
  have h1 := Int.zpow_log_le_self (b := 10) (by norm_num) h
  have h2 := Int.lt_zpow_succ_log_self (b := 10) (by norm_num) q
  push_cast at h1 h2
  constructor
  · rw [le_div_iff₀ hp, ← zpow_natCast, ← zpow_add₀ (by norm_num)]
    convert h1 using 2
    push_cast; ring
  · rw [div_lt_iff₀ hp, ← zpow_natCast, ← zpow_add₀ (by norm_num)]
    convert h2 using 2
    push_cast; ring

theorem roundEven_mono_bounds {x : ℚ} {a b : Int} (h1 : (a : ℚ) ≤ x) (h2 : x ≤ b) : a ≤ roundEven x ∧ roundEven x ≤ b := by
  constructor
  · exact le_trans (Int.le_floor.2 h1) (floor_le_roundEven x)
  · have h3 : -b ≤ roundEven (-x) :=
      le_trans (Int.le_floor.2 (by push_cast; linarith)) (floor_le_roundEven (-x))
    rw [roundEven_neg] at h3
    omega

theorem sig12_round {q : ℚ} (h : 0 < q) :
    10 ^ 11 ≤ roundEven (q / 10 ^ (Int.log 10 q - 11)) ∧ roundEven (q / 10 ^ (Int.log 10 q - 11)) ≤ 10 ^ 12 := by
  obtain ⟨h1, h2⟩ := sig12_scaled h
  exact roundEven_mono_bounds (by push_cast; exact h1) (by push_cast; exact h2.le)

theorem sig12_bounds {q : ℚ} (h : 0 < q) : 10 ^ 11 ≤ (sig12 q).1 ∧ (sig12 q).1 < 10 ^ 12 := by
  obtain ⟨h1, h2⟩ := sig12_round h
  unfold sig12
  simp only
  split
  · norm_num
  · simp only; omega

theorem sig12Value_eq {q : ℚ} (h : 0 < q) : sig12Value q =
    roundEven (q / 10 ^ (Int.log 10 q - 11)) * (10 : ℚ) ^ (Int.log 10 q - 11) := by
  obtain ⟨h1, h2⟩ := sig12_round h
  have hz : (((roundEven (q / 10 ^ (Int.log 10 q - 11))).toNat : Nat) : ℚ)
      = roundEven (q / 10 ^ (Int.log 10 q - 11)) := by
    have : (((roundEven (q / 10 ^ (Int.log 10 q - 11))).toNat : Nat) : Int)
      = roundEven (q / 10 ^ (Int.log 10 q - 11)) := Int.toNat_of_nonneg (by omega)
    exact_mod_cast congrArg (fun z : Int => (z : ℚ)) this
  unfold sig12Value sig12
  simp only
  split
  · next he =>
    rw [← hz, he, zpow_add₀ (by norm_num)]
    push_cast
    ring
  · simp only [hz]

theorem decimal12_sig12 {q : ℚ} (h : 0 < q) : Decimal12 (sig12Value q) :=
  ⟨(sig12 q).1, (sig12 q).2, by rw [abs_of_nonneg (by positivity)]; exact_mod_cast (sig12_bounds h).2, by
    unfold sig12Value; push_cast; ring⟩

/-- The 12 digits are a closest decimal number of 12 digits. -/
theorem sig12_nearest {q : ℚ} (h : 0 < q) (d : ℚ) (hd : Decimal12 d) : |sig12Value q - q| ≤ |d - q| := by
  have hp := ten_zpow_pos (Int.log 10 q - 11)
  have hmul : ∀ z : Int, |sig12Value q - q| ≤ |(z : ℚ) * 10 ^ (Int.log 10 q - 11) - q| := by
    intro z
    have h0 := roundEven_nearest (q / 10 ^ (Int.log 10 q - 11)) z
    have e1 : sig12Value q - q = ((roundEven (q / 10 ^ (Int.log 10 q - 11)) : ℚ) - q / 10 ^ (Int.log 10 q - 11))
        * 10 ^ (Int.log 10 q - 11) := by
      rw [sig12Value_eq h]; field_simp
    have e2 : (z : ℚ) * 10 ^ (Int.log 10 q - 11) - q = ((z : ℚ) - q / 10 ^ (Int.log 10 q - 11))
        * 10 ^ (Int.log 10 q - 11) := by field_simp
    rw [e1, e2, abs_mul, abs_mul]
    exact mul_le_mul_of_nonneg_right h0 (abs_nonneg _)
  obtain ⟨m, e, hm, rfl⟩ := hd
  by_cases hle : Int.log 10 q - 11 ≤ e
  · obtain ⟨k, rfl⟩ : ∃ k : Nat, e = Int.log 10 q - 11 + k := ⟨(e - (Int.log 10 q - 11)).toNat, by omega⟩
    have := hmul (m * 10 ^ k)
    rw [zpow_add₀ (by norm_num), zpow_natCast]
    push_cast at this
    calc _ ≤ _ := this
      _ = _ := by congr 1; ring
  · have hlow : (10 : ℚ) ^ 11 * 10 ^ (Int.log 10 q - 11) ≤ q := by
      have := (sig12_scaled h).1
      rwa [le_div_iff₀ hp] at this
    have hd : |(m : ℚ) * 10 ^ e| ≤ 10 ^ 11 * 10 ^ (Int.log 10 q - 11) := by
      rw [abs_mul, abs_of_pos (ten_zpow_pos e)]
      have h1 : |(m : ℚ)| ≤ 10 ^ 12 := by exact_mod_cast hm.le
      have h2 : (10 : ℚ) ^ e ≤ 10 ^ (Int.log 10 q - 11 - 1) := zpow_le_zpow_right₀ (by norm_num) (by omega)
      rw [zpow_sub₀ (by norm_num), zpow_one] at h2
      calc _ ≤ (10 : ℚ) ^ 12 * (10 ^ (Int.log 10 q - 11) / 10) :=
            mul_le_mul h1 h2 (ten_zpow_pos e).le (by positivity)
        _ = _ := by ring
    have hz := hmul (10 ^ 11)
    push_cast at hz
    rw [show (100000000000 : ℚ) = 10 ^ 11 by norm_num, abs_of_nonpos (a := (10 : ℚ) ^ 11 * _ - q) (by linarith)] at hz
    have := neg_abs_le ((m : ℚ) * 10 ^ e - q)
    have := le_abs_self ((m : ℚ) * 10 ^ e)
    linarith

theorem roundEven_of_near {y : ℚ} {z : Int} (h : |y - z| < 1 / 2) : roundEven y = z := by
  have h1 := roundEven_near y
  have h2 : |(roundEven y : ℚ) - z| ≤ |(roundEven y : ℚ) - y| + |y - z| := abs_sub_le _ _ _
  have h3 : |(roundEven y : ℚ) - z| < 1 := by linarith
  have h4 : |roundEven y - z| < 1 := by exact_mod_cast h3
  have := Int.abs_lt_one_iff.1 h4
  omega

/-- A number very close to a decimal number of 12 digits has these 12 digits. -/
theorem sig12_exact {q x : ℚ} (hx : 0 < x) (h12 : Decimal12 x) (h : |q - x| ≤ x / 2 ^ 53) :
    0 < q ∧ sig12Value q = x := by
  -- normalise the digits
  obtain ⟨a, j, ha1, ha2, hxa⟩ : ∃ (a : Int) (j : Int), 10 ^ 11 ≤ a ∧ a < 10 ^ 12 ∧ x = a * (10 : ℚ) ^ j := by
    have heq : sig12Value x = x := by
      have := sig12_nearest hx x h12
      rw [sub_self, abs_zero] at this
      exact sub_eq_zero.1 (abs_nonpos_iff.1 this)
    refine ⟨(sig12 x).1, (sig12 x).2, by exact_mod_cast (sig12_bounds hx).1, by exact_mod_cast (sig12_bounds hx).2, ?_⟩
    refine heq.symm.trans ?_
    unfold sig12Value
    push_cast
    rfl
  have hP := ten_zpow_pos j
  have ha1' : (10 : ℚ) ^ 11 ≤ a := by exact_mod_cast ha1
  have ha2' : (a : ℚ) ≤ 10 ^ 12 - 1 := by
    have : a ≤ 10 ^ 12 - 1 := by omega
    exact_mod_cast this
  obtain ⟨hl, hr⟩ := abs_le.1 h
  have hsmall : x / 2 ^ 53 ≤ x / 2 := div_le_div_of_nonneg_left hx.le (by norm_num) (by norm_num)
  have hq : 0 < q := by linarith
  refine ⟨hq, ?_⟩
  have herr : |q / 10 ^ j - a| < 1 / 20 := by
    have e : q / 10 ^ j - a = (q - x) / 10 ^ j := by rw [hxa]; field_simp
    rw [e, abs_div, abs_of_pos hP, div_lt_iff₀ hP]
    refine lt_of_le_of_lt h ?_
    rw [hxa, mul_div_right_comm]
    exact mul_lt_mul_of_pos_right (by rw [div_lt_iff₀ (by positivity)]; norm_num at ha2' ⊢; linarith) hP
  obtain ⟨he1, he2⟩ := abs_lt.1 herr
  have hup : Int.log 10 q < j + 12 := by
    rw [← Int.lt_zpow_iff_log_lt (by norm_num) hq]
    push_cast
    rw [zpow_add₀ (by norm_num), mul_comm, ← div_lt_iff₀ hP, show (10 : ℚ) ^ (12 : Int) = 10 ^ 12 by norm_cast]
    linarith
  have hdown : j + 10 ≤ Int.log 10 q := by
    rw [← Int.zpow_le_iff_le_log (by norm_num) hq]
    push_cast
    rw [zpow_add₀ (by norm_num), mul_comm, ← le_div_iff₀ hP, show (10 : ℚ) ^ (10 : Int) = 10 ^ 10 by norm_cast]
    norm_num at ha1' ⊢
    linarith
  rw [sig12Value_eq hq]
  rcases (by omega : Int.log 10 q = j + 11 ∨ Int.log 10 q = j + 10) with hL | hL
  · rw [hL, show j + 11 - 11 = j by ring, roundEven_of_near (z := a) (by linarith), hxa]
  · have e : q / 10 ^ (j - 1) = 10 * (q / 10 ^ j) := by
      rw [zpow_sub₀ (by norm_num), zpow_one]; field_simp
    rw [hL, show j + 10 - 11 = j - 1 by ring, roundEven_of_near (z := 10 * a), hxa, zpow_sub₀ (by norm_num), zpow_one]
    · push_cast; ring
    · rw [e]; push_cast
      rw [← mul_sub, abs_mul, abs_of_pos (by norm_num : (0 : ℚ) < 10)]
      linarith

/-! ## The layout -/

theorem digitChar_digit (d : Nat) : (digitChar d).isDigit = true ∧ (digitChar d).toNat = 48 + d % 10 := by
  have : d % 10 < 10 := Nat.mod_lt _ (by norm_num)
  unfold digitChar
  generalize d % 10 = k at this
  have h : ∀ k : Fin 10, (Char.ofNat (48 + k.val)).isDigit = true ∧ (Char.ofNat (48 + k.val)).toNat = 48 + k.val := by
    decide
  exact h ⟨k, this⟩

theorem digits_append {a b : Text} : Digits (a ++ b) ↔ Digits a ∧ Digits b := by
  unfold Digits
  simp only [List.mem_append]
  constructor
  · intro h; exact ⟨fun c hc => h c (.inl hc), fun c hc => h c (.inr hc)⟩
  · rintro ⟨h1, h2⟩ c (hc | hc)
    · exact h1 c hc
    · exact h2 c hc

theorem fixedDigits_spec (k d : Nat) : Digits (fixedDigits k d) ∧ (fixedDigits k d).length = k ∧
    digitsValue (fixedDigits k d) = d % 10 ^ k := by
  induction k generalizing d with
  | zero => exact ⟨by simp [fixedDigits, Digits], rfl, by simp [fixedDigits, digitsValue, Nat.mod_one]⟩
  | succ k ih =>
    obtain ⟨h1, h2, h3⟩ := ih (d / 10)
    obtain ⟨hd, hn⟩ := digitChar_digit d
    refine ⟨?_, by simp [fixedDigits, h2], ?_⟩
    · unfold fixedDigits
      rw [digits_append]
      exact ⟨h1, digits_iff.2 (by simp [hd])⟩
    · rw [← decValue_eq] at h3 ⊢
      unfold fixedDigits
      rw [decValue_append, h3]
      simp only [decValue, List.length_singleton, pow_one, List.foldl_cons, List.foldl_nil, hn]
      have := Nat.mod_mul (a := 10) (b := 10 ^ k) (x := d)
      rw [show 10 ^ (k + 1) = 10 * 10 ^ k by ring, this]
      omega

theorem digits_replicate (n : Nat) : Digits (List.replicate n '0') := by
  intro c hc
  rw [(List.mem_replicate.1 hc).2]
  decide

theorem decValue_zeros (n : Nat) : decValue (List.replicate n '0') = 0 := by
  induction n with
  | zero => rfl
  | succ n ih =>
    rw [List.replicate_succ', decValue_append, ih]; rfl

theorem stripZeros_spec (t : Text) : ∃ n, t = stripZeros t ++ List.replicate n '0' := by
  refine ⟨(t.reverse.takeWhile (· = '0')).length, ?_⟩
  have h := List.takeWhile_append_dropWhile (p := (· = '0')) (l := t.reverse)
  have hrep : t.reverse.takeWhile (· = '0') = List.replicate (t.reverse.takeWhile (· = '0')).length '0' := by
    rw [List.eq_replicate_iff]
    refine ⟨rfl, fun c hc => ?_⟩
    have h := List.all_takeWhile (p := fun c : Char => decide (c = '0')) (l := t.reverse)
    rw [List.all_eq_true] at h
    simpa using h c hc
  have h2 := congrArg List.reverse h
  rw [List.reverse_append, List.reverse_reverse] at h2
  unfold stripZeros
  nth_rw 1 [← h2]
  congr 1
  nth_rw 1 [hrep]
  simp

/-- A non-empty list of digits, laid out with the point at the given place. -/
theorem layout_literal {s : Text} {point : Int} (hs : Digits s) (hne : s ≠ []) (hp : -900 ≤ point ∧ point ≤ 900) :
    Literal (layout s point) (digitsValue s * (10 : ℚ) ^ (point - s.length)) := by
  unfold layout
  split
  · -- with an exponent
    right
    obtain ⟨c, r, rfl⟩ := List.exists_cons_of_ne_nil hne
    have hcr : Digits [c] ∧ Digits r := digits_append.1 (by simpa using hs)
    refine ⟨_, _, digitsValue (c :: r) / 10 ^ r.length, point - 1, rfl, ?_, ?_, ?_⟩
    · refine ⟨[c], r, hcr.1, hcr.2, by simp, ?_, rfl⟩
      cases r with
      | nil => right; exact ⟨rfl, rfl⟩
      | cons d r => left; rfl
    · have hb : (point - 1).natAbs < 1000 := by omega
      have hfd : ∀ k, (point - 1).natAbs < 10 ^ k → digitsValue (fixedDigits k (point - 1).natAbs) = (point - 1).natAbs := by
        intro k hk
        rw [(fixedDigits_spec k _).2.2, Nat.mod_eq_of_lt hk]
      have hv : digitsValue (fixedDigits (if (point - 1).natAbs < 100 then 2 else 3) (point - 1).natAbs)
          = (point - 1).natAbs := by
        split
        · next h => exact hfd 2 (by omega)
        · exact hfd 3 (by omega)
      refine ⟨fixedDigits (if (point - 1).natAbs < 100 then 2 else 3) (point - 1).natAbs, 'e', (fixedDigits_spec _ _).1,
        ?_, .inl rfl, ?_⟩
      · intro h
        have := (fixedDigits_spec (if (point - 1).natAbs < 100 then 2 else 3) (point - 1).natAbs).2.1
        rw [h] at this
        split at this <;> simp at this
      · unfold exponentText
        by_cases hneg : point - 1 < 0
        · left; rw [if_pos hneg, hv]; exact ⟨rfl, by omega⟩
        · right; rw [if_neg hneg, hv]; exact ⟨.inl rfl, by omega⟩
    · rw [div_eq_mul_inv, ← zpow_natCast, ← zpow_neg, mul_assoc, ← zpow_add₀ (by norm_num)]
      congr 2
      simp only [List.length_cons]
      push_cast
      ring
  · left
    split
    · next h1 h2 =>
      refine ⟨['0'], List.replicate (-point).toNat '0' ++ s, by simp [Digits], digits_append.2 ⟨digits_replicate _, hs⟩,
        by simp, .inl (by simp), ?_⟩
      rw [← decValue_eq, ← decValue_eq, decValue_append, decValue_append, decValue_zeros]
      rw [show decValue ['0'] = 0 from rfl, div_eq_mul_inv, ← zpow_natCast, ← zpow_neg, List.length_append,
        List.length_replicate]
      push_cast
      rw [zero_mul, zero_mul, zero_add, zero_add]
      congr 2
      omega
    · next h1 h2 =>
      split
      · next h3 =>
        refine ⟨s ++ List.replicate (point - s.length).toNat '0', ['0'],
          digits_append.2 ⟨hs, digits_replicate _⟩, by simp [Digits], by simp, .inl (by simp), ?_⟩
        rw [← decValue_eq, ← decValue_eq, decValue_append, decValue_append, decValue_zeros]
        simp only [decValue, List.foldl_cons, List.foldl_nil, List.length_replicate, List.length_singleton]
        push_cast
        rw [show (10 : ℚ) ^ (point - s.length) = 10 ^ (point - s.length).toNat by
          rw [← zpow_natCast]; congr 1; omega]
        simp
      · next h3 =>
        refine ⟨s.take point.toNat, s.drop point.toNat, ?_, ?_, by simpa using hne, .inl rfl, ?_⟩
        · exact (digits_append.1 (by rw [List.take_append_drop]; exact hs)).1
        · exact ((digits_append (a := s.take point.toNat)).1 (by rw [List.take_append_drop]; exact hs)).2
        · rw [List.take_append_drop, div_eq_mul_inv, ← zpow_natCast, ← zpow_neg, List.length_drop]
          congr 2
          omega

/-- `str(x)` of a positive number is a literal for its 12 significant digits. -/
theorem positiveText_literal {q : ℚ} (h : 0 < q) (hlo : (10 : ℚ) ^ (-800 : Int) ≤ q) (hhi : q < 10 ^ (800 : Int)) :
    Literal (positiveText q) (sig12Value q) := by
  have hexp : (sig12 q).2 = Int.log 10 q - 11 ∨ (sig12 q).2 = Int.log 10 q - 11 + 1 := by
    unfold sig12
    simp only
    split
    · exact .inr rfl
    · exact .inl rfl
  obtain ⟨hb1, hb2⟩ := sig12_bounds h
  have hlog1 : -800 ≤ Int.log 10 q := (Int.zpow_le_iff_le_log (by norm_num) h).1 (by exact_mod_cast hlo)
  have hlog2 : Int.log 10 q < 800 := (Int.lt_zpow_iff_log_lt (by norm_num) h).1 (by exact_mod_cast hhi)
  unfold positiveText sig12Value
  generalize (sig12 q).1 = d at hb1 hb2 ⊢
  generalize (sig12 q).2 = e at hexp ⊢
  obtain ⟨hd, hlen, hval⟩ := fixedDigits_spec 12 d
  rw [Nat.mod_eq_of_lt hb2] at hval
  generalize fixedDigits 12 d = t at hd hlen hval ⊢
  obtain ⟨n, hn⟩ := stripZeros_spec t
  generalize stripZeros t = s at hn ⊢
  subst hn
  rw [digits_append] at hd
  rw [← decValue_eq, decValue_append, decValue_zeros, add_zero, List.length_replicate, decValue_eq] at hval
  rw [List.length_append, List.length_replicate] at hlen
  have hne : s ≠ [] := by
    intro h0
    rw [h0] at hval
    simp [digitsValue] at hval
    omega
  have := layout_literal (point := e + 12) hd.1 hne (by omega)
  convert this using 1
  rw [← hval]
  push_cast
  rw [mul_assoc, ← zpow_natCast, ← zpow_add₀ (by norm_num)]
  congr 2
  omega

/-! ## With and without exponent -/

theorem plain_of_literal {t : Text} {q : ℚ} (h : Literal t q) (h1 : 'e' ∉ t) (h2 : 'E' ∉ t) : PlainDecimal t q := by
  rcases h with h | ⟨m, x, p, e, rfl, -, ⟨d, mark, -, -, hm, hx⟩, -⟩
  · exact h
  · exfalso
    have : mark ∈ x := by rcases hx with ⟨rfl, -⟩ | ⟨rfl | rfl, -⟩ <;> simp
    rcases hm with rfl | rfl
    · exact h1 (by simp [this])
    · exact h2 (by simp [this])

theorem not_plain {t : Text} {q : ℚ} (h : 'e' ∈ t) : ¬ PlainDecimal t q := by
  intro hp
  rcases plain_chars hp _ h with h | h
  · exact absurd h (by decide)
  · exact absurd h (by decide)

theorem layout_chars {s : Text} {point : Int} (h : -4 < point ∧ point ≤ 11) :
    ∀ c ∈ layout s point, c ∈ s ∨ c = '0' ∨ c = '.' := by
  intro c hc
  unfold layout at hc
  rw [if_neg (by omega)] at hc
  have take : ∀ k, c ∈ s.take k → c ∈ s := fun k hk => List.mem_of_mem_take hk
  have drop : ∀ k, c ∈ s.drop k → c ∈ s := fun k hk => List.mem_of_mem_drop hk
  split_ifs at hc <;> simp only [List.mem_append, List.mem_cons, List.mem_replicate, List.not_mem_nil, or_false] at hc
  · rcases hc with (h | h | h) | h
    · exact .inr (.inl h)
    · exact .inr (.inr h)
    · exact .inr (.inl h.2)
    · exact .inl h
  · rcases hc with (h | h) | h | h
    · exact .inl h
    · exact .inr (.inl h.2)
    · exact .inr (.inr h)
    · exact .inr (.inl h)
  · rcases hc with h | h | h
    · exact .inl (take _ h)
    · exact .inr (.inr h)
    · exact .inl (drop _ h)

theorem sig12_point {q : ℚ} (h : 0 < q) :
    (10 : ℚ) ^ ((sig12 q).2 + 11) ≤ sig12Value q ∧ sig12Value q < 10 ^ ((sig12 q).2 + 12) := by
  obtain ⟨h1, h2⟩ := sig12_bounds h
  have h1' : (10 : ℚ) ^ 11 ≤ (sig12 q).1 := by exact_mod_cast h1
  have h2' : ((sig12 q).1 : ℚ) < 10 ^ 12 := by exact_mod_cast h2
  have hp := ten_zpow_pos (sig12 q).2
  unfold sig12Value
  rw [zpow_add₀ (by norm_num), zpow_add₀ (by norm_num), mul_comm _ ((10 : ℚ) ^ (11 : Int)),
    mul_comm _ ((10 : ℚ) ^ (12 : Int)), show (10 : ℚ) ^ (11 : Int) = 10 ^ 11 by norm_cast,
    show (10 : ℚ) ^ (12 : Int) = 10 ^ 12 by norm_cast]
  exact ⟨mul_le_mul_of_nonneg_right h1' hp.le, mul_lt_mul_of_pos_right h2' hp⟩

/-- From `10^-4` to `10^11` there is no exponent. -/
theorem positiveText_plain {q : ℚ} (h : 0 < q) (h1 : (10 : ℚ) ^ (-4 : Int) ≤ sig12Value q)
    (h2 : sig12Value q < 10 ^ (11 : Int)) (hlit : Literal (positiveText q) (sig12Value q)) :
    PlainDecimal (positiveText q) (sig12Value q) := by
  obtain ⟨p1, p2⟩ := sig12_point h
  have e1 : -4 < (sig12 q).2 + 12 := (zpow_lt_zpow_iff_right₀ (by norm_num : (1 : ℚ) < 10)).1 (lt_of_le_of_lt h1 p2)
  have e2 : (sig12 q).2 + 11 < 11 := (zpow_lt_zpow_iff_right₀ (by norm_num : (1 : ℚ) < 10)).1 (lt_of_le_of_lt p1 h2)
  have hd : ∀ c ∈ stripZeros (fixedDigits 12 (sig12 q).1), '0'.toNat ≤ c.toNat ∧ c.toNat ≤ '9'.toNat := by
    obtain ⟨hd, -, -⟩ := fixedDigits_spec 12 (sig12 q).1
    obtain ⟨n, hn⟩ := stripZeros_spec (fixedDigits 12 (sig12 q).1)
    rw [hn, digits_append] at hd
    exact hd.1
  have hno : ∀ c, '9'.toNat < c.toNat → c ∉ positiveText q := by
    intro c hc hm
    unfold positiveText at hm
    rcases layout_chars (by omega) c hm with h | rfl | rfl
    · have := (hd c h).2; omega
    · exact absurd hc (by decide)
    · exact absurd hc (by decide)
  exact plain_of_literal hlit (hno _ (by decide)) (hno _ (by decide))

/-- Below `10^-4` there is one. -/
theorem positiveText_exponent {q : ℚ} (h : 0 < q) (h1 : sig12Value q < (10 : ℚ) ^ (-4 : Int)) : 'e' ∈ positiveText q := by
  obtain ⟨p1, p2⟩ := sig12_point h
  have e1 : (sig12 q).2 + 11 < -4 := (zpow_lt_zpow_iff_right₀ (by norm_num : (1 : ℚ) < 10)).1 (lt_of_le_of_lt p1 h1)
  unfold positiveText layout
  rw [if_pos (by omega)]
  simp

/-- The relative error of 12 digits. -/
theorem sig12_error {q : ℚ} (h : 0 < q) : |sig12Value q - q| ≤ q / (2 * 10 ^ 11) := by
  have hp := ten_zpow_pos (Int.log 10 q - 11)
  obtain ⟨h1, -⟩ := sig12_scaled h
  have hq : (10 : ℚ) ^ 11 * 10 ^ (Int.log 10 q - 11) ≤ q := (le_div_iff₀ hp).1 h1
  have := sig12_nearest h (roundEven (q / 10 ^ (Int.log 10 q - 11)) * (10 : ℚ) ^ (Int.log 10 q - 11)) (by
    obtain ⟨a1, a2⟩ := sig12_round h
    by_cases ht : (roundEven (q / 10 ^ (Int.log 10 q - 11))) = 10 ^ 12
    · exact ⟨10 ^ 11, Int.log 10 q - 11 + 1, by norm_num, by
        rw [ht, zpow_add₀ (by norm_num)]; push_cast; ring⟩
    · refine ⟨_, _, ?_, rfl⟩
      rw [abs_lt]
      omega)
  refine this.trans ?_
  have hn := roundEven_near (q / 10 ^ (Int.log 10 q - 11))
  have e : (roundEven (q / 10 ^ (Int.log 10 q - 11)) : ℚ) * 10 ^ (Int.log 10 q - 11) - q =
      ((roundEven (q / 10 ^ (Int.log 10 q - 11)) : ℚ) - q / 10 ^ (Int.log 10 q - 11)) * 10 ^ (Int.log 10 q - 11) := by
    field_simp
  rw [e, abs_mul, abs_of_pos hp]
  calc _ ≤ 1 / 2 * (10 : ℚ) ^ (Int.log 10 q - 11) := mul_le_mul_of_nonneg_right hn hp.le
    _ ≤ q / (2 * 10 ^ 11) := by rw [le_div_iff₀ (by norm_num)]; linarith

end Bitforge
