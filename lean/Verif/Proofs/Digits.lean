import Mathlib.Data.Nat.Digits.Lemmas
import Mathlib.Tactic.Ring
import Verif.Encoding
import Verif.Spec.Codec

/-! Helper lemmas on positional notation. -/

namespace Bitforge
open Spec

@[simp] theorem byte_val (n : Nat) : (byte n).val = n % 256 := rfl

theorem byte_of_val (b : Byte) : byte b.val = b := by
  apply Fin.ext; simp [Nat.mod_eq_of_lt b.isLt]

theorem fromLongLoop_eq {α : Type} (base : Nat) (hb : 1 < base) (cs : Nat → α) :
    ∀ fuel v, v ≤ fuel → fromLongLoop base cs fuel v = (Nat.digits base v).map cs := by
  intro fuel
  induction fuel with
  | zero => intro v hv; have : v = 0 := by omega
            subst this; simp [fromLongLoop]
  | succ f ih =>
    intro v hv
    unfold fromLongLoop
    split
    · next h => subst h; simp
    · next h =>
      rw [Nat.digits_def' hb (by omega)]
      have : v / base < v := Nat.div_lt_self (by omega) hb
      simp [ih (v / base) (by omega)]

theorem leDigitsAux_eq : ∀ fuel n, n ≤ fuel → leDigitsAux fuel n = (Nat.digits 256 n).map byte := by
  intro fuel
  induction fuel with
  | zero => intro v hv; have : v = 0 := by omega
            subst this; simp [leDigitsAux]
  | succ f ih =>
    intro v hv
    unfold leDigitsAux
    split
    · next h => subst h; simp
    · next h =>
      rw [Nat.digits_def' (by omega) (by omega)]
      simp [ih (v / 256) (by omega)]

theorem leDigits_eq (n : Nat) : leDigits n = (Nat.digits 256 n).map byte :=
  leDigitsAux_eq n n (Nat.le_refl n)

theorem leValue_eq_ofDigits (b : Bytes) : leValue b = Nat.ofDigits 256 (b.map Fin.val) := by
  induction b with
  | nil => rfl
  | cons a b ih => simp [leValue, Nat.ofDigits_cons, ih]

theorem map_val_leDigits (n : Nat) : (leDigits n).map Fin.val = Nat.digits 256 n := by
  rw [leDigits_eq, List.map_map]
  conv_rhs => rw [← List.map_id (Nat.digits 256 n)]
  apply List.map_congr_left
  intro d hd
  have := Nat.digits_lt_base (by omega) hd
  simp [Nat.mod_eq_of_lt this]

@[simp] theorem leValue_leDigits (n : Nat) : leValue (leDigits n) = n := by
  rw [leValue_eq_ofDigits, map_val_leDigits, Nat.ofDigits_digits]

theorem leValue_append (a b : Bytes) : leValue (a ++ b) = leValue a + 256 ^ a.length * leValue b := by
  induction a with
  | nil => simp [leValue]
  | cons x a ih => simp only [List.cons_append, leValue, ih, List.length_cons, pow_succ]; ring

@[simp] theorem leValue_replicate_zero (n : Nat) : leValue (List.replicate n 0) = 0 := by
  induction n with
  | zero => rfl
  | succ n ih => simp [List.replicate_succ, leValue, ih]

theorem leValue_lt (b : Bytes) : leValue b < 256 ^ b.length := by
  induction b with
  | nil => simp [leValue]
  | cons x b ih =>
    have := x.isLt
    simp only [leValue, List.length_cons, pow_succ]; omega

/-- Two byte strings of the same length and value are equal. -/
theorem leValue_inj : ∀ (a b : Bytes), a.length = b.length → leValue a = leValue b → a = b := by
  intro a
  induction a with
  | nil => intro b h _; exact (List.eq_nil_of_length_eq_zero (by simpa using h.symm)).symm
  | cons x a ih =>
    intro b h hv
    cases b with
    | nil => simp at h
    | cons y b =>
      simp only [leValue] at hv
      have := x.isLt
      have := y.isLt
      have h1 : x = y := Fin.ext (by omega)
      have h2 : a = b := ih b (by simpa using h) (by omega)
      rw [h1, h2]

theorem beValue_inj (a b : Bytes) (h : a.length = b.length) (hv : beValue a = beValue b) : a = b := by
  have := leValue_inj a.reverse b.reverse (by simpa using h) hv
  simpa using this

theorem leDigits_length_le {n L : Nat} (h : n < 256 ^ L) : (leDigits n).length ≤ L := by
  rw [leDigits_eq, List.length_map]
  rw [Nat.digits_length_le_iff (by omega)]
  exact h

theorem leDigits_zero : leDigits 0 = [] := rfl

theorem leDigits_ne_nil {n : Nat} (h : n ≠ 0) : leDigits n ≠ [] := by
  intro e
  have := leValue_leDigits n
  rw [e] at this
  exact h this.symm

theorem leDigits_getLast_ne_zero {n : Nat} (h : leDigits n ≠ []) : (leDigits n).getLast h ≠ 0 := by
  have hn : n ≠ 0 := by rintro rfl; exact h rfl
  have h1 := Nat.getLast_digit_ne_zero 256 hn
  intro e
  apply h1
  have h2 : ((leDigits n).map Fin.val).getLast (by simpa using h) = 0 := by
    rw [List.getLast_map, e]; rfl
  simpa [map_val_leDigits] using h2

theorem leValue_take (b : Bytes) (L : Nat) : leValue (b.take L) = leValue b % 256 ^ L := by
  by_cases hL : L ≤ b.length
  · conv_rhs => rw [← List.take_append_drop L b, leValue_append]
    have hl : (b.take L).length = L := by simp [hL]
    rw [hl, Nat.add_mul_mod_self_left, Nat.mod_eq_of_lt]
    have := leValue_lt (b.take L)
    rwa [hl] at this
  · rw [List.take_of_length_le (by omega), Nat.mod_eq_of_lt]
    exact lt_of_lt_of_le (leValue_lt b) (Nat.pow_le_pow_right (by omega) (by omega))

theorem foldl_value (b : Bytes) (a : Nat) :
    b.foldl (fun v c => v * 256 + c.val) a = a * 256 ^ b.length + beValue b := by
  induction b generalizing a with
  | nil => simp [beValue, leValue]
  | cons x b ih =>
    simp only [List.foldl_cons, ih, beValue, List.reverse_cons, leValue_append, List.length_cons,
      List.length_reverse, leValue, pow_succ]; ring

theorem decodeInt_big (b : Bytes) : decodeInt b = beValue b := by
  show b.foldl (fun v c => v * 256 + c.val) 0 = _
  rw [foldl_value]; simp

theorem decodeInt_little (b : Bytes) : decodeInt b (bigEndian := false) = leValue b := by
  show b.reverse.foldl (fun v c => v * 256 + c.val) 0 = _
  rw [foldl_value]; simp [beValue]

/-- The value of the fixed-width little-endian encoding. -/
theorem encodeInt_little_length (n : Int) (L : Nat) : (encodeInt n false (some L)).length = L := by
  unfold encodeInt
  split <;> simp

theorem encodeInt_big_eq (n : Int) (L : Nat) :
    encodeInt n true (some L) = (encodeInt n false (some L)).reverse := by
  unfold encodeInt
  split <;> simp

theorem encodeInt_big_none (n : Int) : encodeInt n true none = (encodeInt n false none).reverse := by
  unfold encodeInt
  split <;> simp

theorem encodeInt_length (n : Int) (be : Bool) (L : Nat) : (encodeInt n be (some L)).length = L := by
  cases be
  · exact encodeInt_little_length n L
  · rw [encodeInt_big_eq, List.length_reverse, encodeInt_little_length]

theorem leValue_encodeInt (n : Int) (L : Nat) :
    leValue (encodeInt n false (some L)) = n.toNat % 256 ^ L := by
  unfold encodeInt
  split
  · next h => subst h; simp
  · simp only [Bool.false_eq_true, if_false, leValue_take, leValue_append, leValue_leDigits,
      leValue_replicate_zero, Nat.mul_zero, Nat.add_zero]

theorem beValue_encodeInt (n : Int) (L : Nat) :
    beValue (encodeInt n true (some L)) = n.toNat % 256 ^ L := by
  rw [encodeInt_big_eq, beValue, List.reverse_reverse, leValue_encodeInt]

theorem leValue_encodeInt_none (n : Int) : leValue (encodeInt n false none) = n.toNat := by
  unfold encodeInt
  split
  · next h => subst h; simp [leValue]
  · simp

theorem decodeInt_encodeInt (n : Int) (be : Bool) (L : Nat) :
    decodeInt (encodeInt n be (some L)) be = n.toNat % 256 ^ L := by
  cases be
  · rw [decodeInt_little, leValue_encodeInt]
  · rw [decodeInt_big, beValue_encodeInt]

theorem decodeInt_encodeInt_none (n : Int) (be : Bool) :
    decodeInt (encodeInt n be none) be = n.toNat := by
  cases be
  · rw [decodeInt_little, leValue_encodeInt_none]
  · rw [decodeInt_big, encodeInt_big_none, beValue, List.reverse_reverse, leValue_encodeInt_none]

theorem decodeInt_lt (b : Bytes) (be : Bool) : decodeInt b be < 256 ^ b.length := by
  cases be
  · rw [decodeInt_little]; exact leValue_lt b
  · rw [decodeInt_big]; have := leValue_lt b.reverse; simpa [beValue] using this

theorem decodeInt_inj (a b : Bytes) (be : Bool) (h : a.length = b.length)
    (hv : decodeInt a be = decodeInt b be) : a = b := by
  cases be
  · rw [decodeInt_little, decodeInt_little] at hv; exact leValue_inj a b h hv
  · rw [decodeInt_big, decodeInt_big] at hv; exact beValue_inj a b h hv

theorem encodeInt_decodeInt (b : Bytes) (be : Bool) :
    encodeInt (decodeInt b be) be (some b.length) = b := by
  apply decodeInt_inj _ _ be (encodeInt_length _ _ _)
  rw [decodeInt_encodeInt, Int.toNat_natCast, Nat.mod_eq_of_lt (decodeInt_lt b be)]

end Bitforge
