import Verif.Spec.Reference
import Verif.Proofs.Interp
import Verif.Proofs.ScriptNum
import Verif.Props.InterpOps
import Verif.Proofs.Tx

/-! # Lemmas for C80: numbers, truth values and single opcodes of the reference client -/

namespace Bitforge
open Spec
namespace Interpreter

theorem minimalNumber_iff (b : Bytes) : Ref.minimalNumber b.reverse = true ↔ MinimalTest b := by
  unfold MinimalTest
  match b.reverse with
  | [] => simp [Ref.minimalNumber]
  | [x] => simp [Ref.minimalNumber]
  | x :: y :: r => simp [Ref.minimalNumber]

theorem number_of_decode {d : Data} {m : Bool} {n : Int} (h : decodeScriptNumber d m = .ok n) :
    Ref.number m d.val = some n := by
  obtain ⟨k, b⟩ := d
  by_cases hl : b.length < 4
  · have hb : decodeScriptNumber ⟨.bytearray, b⟩ m = .ok n := by
      cases k with
      | bytearray => exact h
      | str =>
        by_cases hne : b = []
        · subst hne; exact h
        · rw [decode_str b m 4 hne, if_neg (by omega)] at h; cases h
    unfold Ref.number
    rw [if_neg (by show ¬ b.length > 4; omega)]
    rcases decode_bytearray b m 4 hl with ⟨h1, h2⟩ | ⟨h1, _⟩
    · rw [h1] at hb
      cases hb
      rw [if_neg]
      cases m with
      | false => simp
      | true => simp [(minimalNumber_iff b).2 (h2 rfl)]
    · rw [h1] at hb; cases hb
  · unfold decodeScriptNumber at h
    simp only [show b.length ≥ 4 by omega, if_true] at h
    cases h

theorem decode_of_number {d : Data} {m : Bool} {n : Int} (h : Ref.number m d.val = some n) (hl : d.val.length ≠ 4)
    (hk : d.kind = .str → d.val = [] ∨ 4 < d.val.length) : decodeScriptNumber d m = .ok n := by
  obtain ⟨k, b⟩ := d
  simp only at h hl hk
  unfold Ref.number at h
  split at h
  · cases h
  next h4 =>
  split at h
  · cases h
  next hm =>
  cases h
  have hb : decodeScriptNumber ⟨.bytearray, b⟩ m = .ok (scriptValue b) := by
    rcases decode_bytearray b m 4 (by omega) with ⟨h1, _⟩ | ⟨_, h2, h3⟩
    · exact h1
    · rw [← minimalNumber_iff] at h3
      simp [h2, h3] at hm
  cases k with
  | bytearray => exact hb
  | str =>
    rcases hk rfl with rfl | h'
    · rfl
    · omega

theorem truth_of_cast {b : Bytes} (h : castToBool b = true) : Ref.truth b = true := by
  obtain ⟨x, r, rfl, hx, hne⟩ := (C51_exact b).1 h
  cases r with
  | nil =>
    have : x ≠ 128 := fun e => hne (by rw [e])
    simp [Ref.truth, hx, this]
  | cons y r => simp [Ref.truth, hx]

theorem cast_eq_truth {b : Bytes} (h : b.head? = some 0 → Ref.truth b = false) : castToBool b = Ref.truth b := by
  cases hc : castToBool b with
  | true => exact (truth_of_cast hc).symm
  | false =>
    cases ht : Ref.truth b with
    | false => rfl
    | true =>
      exfalso
      cases b with
      | nil => cases ht
      | cons x r =>
        have hx : x ≠ 0 := by
          rintro rfl
          rw [h rfl] at ht
          cases ht
        have : castToBool (x :: r) = true := (C51_exact _).2 ⟨x, r, rfl, hx, by
          intro e
          rw [e] at ht
          revert ht
          decide⟩
        rw [hc] at this
        cases this

theorem truth_bool (b : Bool) : castToBool (boolBytes b).val = b := by cases b <;> decide

theorem le_length (w n : Nat) : (le w n).length = w := by
  induction w generalizing n with
  | zero => rfl
  | succ w ih => simp [le, ih]

theorem le_append (w n : Nat) : le (w + 1) n = le w n ++ [byte (n / 256 ^ w)] := by
  induction w generalizing n with
  | zero => simp [le, byte, Fin.ofNat]
  | succ w ih =>
    rw [le, ih]
    conv_rhs => rw [le]
    rw [List.cons_append, Nat.div_div_eq_div_mul, ← pow_succ']

theorem leValue_le (w n : Nat) : leValue (le w n) = n % 256 ^ w := by
  induction w generalizing n with
  | zero => simp [le, leValue, Nat.mod_one]
  | succ w ih =>
    simp only [le, leValue, ih]
    rw [pow_succ', Nat.mod_mul]

/-- The two descriptions of the shortest encoding agree. -/
theorem serialize_eq (n : Int) : Ref.serialize n = encodeScriptNumber n := by
  by_cases h0 : n = 0
  · subst h0; rfl
  unfold Ref.serialize
  rw [if_neg h0]
  simp only [Nat.add_sub_cancel]
  set a := n.natAbs with ha
  have ha0 : a ≠ 0 := by omega
  set q := (Nat.log2 a + 1) / 8 with hq
  have hlo : 2 ^ Nat.log2 a ≤ a := Nat.log2_self_le ha0
  have hhi : a < 2 ^ (Nat.log2 a + 1) := Nat.lt_log2_self
  have hp : (256 : Nat) ^ q = 2 ^ (8 * q) := by rw [pow_mul]; norm_num
  have h1 : a < 128 * 256 ^ q := by
    refine lt_of_lt_of_le hhi ?_
    rw [hp, show (128 : Nat) = 2 ^ 7 by norm_num, ← pow_add]
    exact Nat.pow_le_pow_right (by omega) (by omega)
  have h2 : q ≠ 0 → 128 * 256 ^ (q - 1) ≤ a := by
    intro hq0
    refine le_trans ?_ hlo
    rw [show (256 : Nat) = 2 ^ 8 by norm_num, ← pow_mul, show (128 : Nat) = 2 ^ 7 by norm_num, ← pow_add]
    exact Nat.pow_le_pow_right (by omega) (by omega)
  clear_value q
  have hpos : 0 < 256 ^ q := by positivity
  set v := a + (if n < 0 then 128 * 256 ^ q else 0) with hv
  have hdiv : v / 256 ^ q = a / 256 ^ q + (if n < 0 then 128 else 0) := by
    rw [hv]
    split
    · rw [Nat.add_mul_div_right _ _ hpos]
    · simp
  have hmod : v % 256 ^ q = a % 256 ^ q := by
    rw [hv]
    split
    · rw [Nat.add_mul_mod_self_right]
    · simp
  have had : a / 256 ^ q < 128 := Nat.div_lt_of_lt_mul (by rw [mul_comm]; exact h1)
  have hb : (byte (v / 256 ^ q)).val = a / 256 ^ q + (if n < 0 then 128 else 0) := by
    rw [byte_val, hdiv]
    generalize a / 256 ^ q = c at had
    split <;> omega
  have hsv : scriptValue (le (q + 1) v) = n := by
    rw [le_append, scriptValue_concat, hb, le_length, leValue_le, hmod]
    have hdm := Nat.mod_add_div a (256 ^ q)
    by_cases hn : n < 0
    · rw [if_pos hn, if_neg (Nat.not_lt.2 (Nat.le_add_left _ _)), Nat.add_mod_right, Nat.mod_eq_of_lt had, hdm]
      omega
    · rw [if_neg hn, Nat.add_zero, if_pos had, Nat.mod_eq_of_lt had, hdm]
      omega
  have hmin : MinimalTest (le (q + 1) v) := by
    unfold MinimalTest
    rw [le_append, List.reverse_append, List.reverse_singleton, List.singleton_append]
    simp only []
    by_cases hz : a / 256 ^ q = 0
    · right
      have hlt : a < 256 ^ q := by
        by_contra hc
        have := Nat.div_pos (not_lt.1 hc) hpos
        omega
      cases q with
      | zero => simp at hlt; omega
      | succ q =>
        have h2' := h2 (by omega)
        rw [Nat.add_sub_cancel] at h2'
        refine ⟨byte (v / 256 ^ q), (le q v).reverse, by rw [le_append]; simp, ?_⟩
        have e : v / 256 ^ q % 256 = a / 256 ^ q % 256 := by
          rw [← Nat.mod_mul_right_div_self, ← Nat.mod_mul_right_div_self a, ← pow_succ, hmod]
        rw [byte_val, e]
        have l1 : 128 ≤ a / 256 ^ q := (Nat.le_div_iff_mul_le (by positivity)).2 h2'
        have l2 : a / 256 ^ q < 256 := Nat.div_lt_of_lt_mul (by rw [← pow_succ]; exact hlt)
        omega
    · left
      rw [hb]
      generalize a / 256 ^ q = c at had hz
      split <;> omega
  have := encode_scriptValue _ hmin
  rw [hsv] at this
  exact this.symm

end Interpreter
end Bitforge
