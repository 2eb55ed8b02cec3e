import Verif.Spec.TextKind
import Verif.Proofs.Der
import Verif.Proofs.Base58
import Mathlib.Data.Nat.Digits.Lemmas

/-! Helper lemmas on the leading digits of base-58 texts. -/

namespace Bitforge
open Spec

theorem horner_split (k : Nat) (ds : List Nat) (hk : 1 < k) (hd : ∀ d ∈ ds, d < k) (j : Nat) (hj : j ≤ ds.length) :
    hornerValue k (ds.take j) = hornerValue k ds / k ^ (ds.length - j) := by
  have e : hornerValue k ds = hornerValue k (ds.drop j) + k ^ (ds.length - j) * hornerValue k (ds.take j) := by
    conv_lhs => rw [← List.take_append_drop j ds]
    rw [hornerValue_eq, hornerValue_eq, hornerValue_eq, List.reverse_append, Nat.ofDigits_append]
    simp
  have hlt : hornerValue k (ds.drop j) < k ^ (ds.length - j) := by
    rw [hornerValue_eq]
    have := Nat.ofDigits_lt_base_pow_length (b := k) (l := (ds.drop j).reverse) hk (fun x hx =>
      hd x (List.mem_of_mem_drop (List.mem_reverse.1 hx)))
    simpa using this
  rw [e, Nat.add_mul_div_left _ _ (by positivity), Nat.div_eq_of_lt hlt, Nat.zero_add]

theorem digits58_length {t : Text} {ds : List Nat} (h : Digits58 t ds) : t.length = ds.length := h.length_eq

/-- The length of a base-58 text: leading zeros and the digits of the number. -/
theorem base58_length {b : Bytes} {t : Text} (h : Base58 b t) :
    t.length = leadingZeros (b.map Fin.val) + (Nat.digits 58 (beValue b)).length := by
  obtain ⟨ds, hd, hz, hv⟩ := h
  have := congrArg List.length (digits_canonical 58 (by decide) ds (digits58_lt hd))
  rw [digits58_length hd, ← this, hz, hv]
  simp

theorem beValue_zeros (b : Bytes) : beValue b < 256 ^ (b.length - leadingZeros (b.map Fin.val)) := by
  have h := congrArg List.length (bytes_canonical b)
  simp only [List.length_append, List.length_replicate, List.length_map, List.length_reverse] at h
  rw [show b.length - leadingZeros (b.map Fin.val) = (Nat.digits 256 (beValue b)).length by omega]
  exact Nat.lt_base_pow_length_digits (by decide)

/-- Base 58 is not shorter than base 256. -/
theorem base58_longer {b : Bytes} {t : Text} (h : Base58 b t) : b.length ≤ t.length := by
  have hb := congrArg List.length (bytes_canonical b)
  simp only [List.length_append, List.length_replicate, List.length_map, List.length_reverse] at hb
  rw [base58_length h]
  have : (Nat.digits 256 (beValue b)).length ≤ (Nat.digits 58 (beValue b)).length := by
    rw [Nat.digits_length_le_iff (by decide)]
    calc beValue b < 58 ^ (Nat.digits 58 (beValue b)).length := Nat.lt_base_pow_length_digits (by decide)
      _ ≤ 256 ^ _ := Nat.pow_le_pow_left (by decide) _
  omega

/-- A string without leading zeros, its value known to lie between powers of 58. -/
theorem base58_start {b : Bytes} {t : Text} (h : Base58 b t) (hz : leadingZeros (b.map Fin.val) = 0) (n j : Nat)
    (h1 : 58 ^ n ≤ beValue b) (h2 : beValue b < 58 ^ (n + 1)) (hj : j ≤ n + 1) :
    t.length = n + 1 ∧ ∃ ds, Digits58 (t.take j) ds ∧ ds.length = j ∧ hornerValue 58 ds = beValue b / 58 ^ (n + 1 - j) := by
  have hl : t.length = n + 1 := by
    rw [base58_length h, hz, Nat.zero_add]
    have a := (Nat.digits_length_le_iff (b := 58) (k := n + 1) (by decide) (beValue b)).2 h2
    have c := (Nat.digits_length_le_iff (b := 58) (k := n) (by decide) (beValue b)).not.2 (by omega)
    omega
  obtain ⟨ds, hd, -, hv⟩ := h
  have hdl : ds.length = n + 1 := by rw [← digits58_length hd, hl]
  refine ⟨hl, ds.take j, List.forall₂_take j hd, by rw [List.length_take]; omega, ?_⟩
  rw [horner_split 58 ds (by decide) (digits58_lt hd) j (by omega), hv, hdl]

/-- The first digit. -/
theorem base58_first {b : Bytes} {t : Text} (h : Base58 b t) (hz : leadingZeros (b.map Fin.val) = 0) (n : Nat)
    (h1 : 58 ^ n ≤ beValue b) (h2 : beValue b < 58 ^ (n + 1)) :
    t.length = n + 1 ∧ ∃ c rest, t = c :: rest ∧ alphabet58[beValue b / 58 ^ n]? = some c := by
  obtain ⟨hl, ds, hd, hdl, hv⟩ := base58_start h hz n 1 h1 h2 (by omega)
  refine ⟨hl, ?_⟩
  match t, ds, hd, hdl, hv with
  | c :: rest, [d], hd, _, hv =>
    refine ⟨c, rest, rfl, ?_⟩
    simp only [List.take_succ_cons, List.take_zero] at hd
    cases hd with
    | cons h _ =>
      rw [show d = beValue b / 58 ^ n from (by simpa [hornerValue] using hv)] at h
      exact h

theorem leadingZeros_cons {x : Byte} (rest : Bytes) (h : x.val ≠ 0) : leadingZeros ((x :: rest).map Fin.val) = 0 := by
  simp [leadingZeros, h]

end Bitforge
