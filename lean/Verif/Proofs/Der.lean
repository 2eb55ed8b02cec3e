import Verif.Signature
import Verif.Spec.Der
import Verif.Proofs.Digits

/-! # Strict DER: the checks of `validate_signature` and the format -/

namespace Bitforge
open Spec

theorem beValue_cons (x : Byte) (b : Bytes) : beValue (x :: b) = x.val * 256 ^ b.length + beValue b := by
  simp [beValue, leValue_append, leValue]; ring

theorem beValue_lt (b : Bytes) : beValue b < 256 ^ b.length := by
  have := leValue_lt b.reverse; simpa [beValue] using this

theorem twosComplement_nonneg {b : Bytes} {n : Int} (hn : 0 ≤ n) :
    TwosComplement b n ↔ b ≠ [] ∧ n = beValue b ∧ 2 * beValue b < 256 ^ b.length := by
  unfold TwosComplement
  have hlt := beValue_lt b
  constructor
  · rintro ⟨h, e⟩
    split at e
    · next h2 => exact ⟨h, e, h2⟩
    · exfalso
      have : (beValue b : Int) < 256 ^ b.length := by exact_mod_cast hlt
      omega
  · rintro ⟨h, e, h2⟩
    exact ⟨h, by rw [if_pos h2]; exact e⟩

/-- The first two bytes tell whether a byte string is the shortest form of a non-negative integer. -/
theorem derNat_iff (b : Bytes) : DerNat b ↔ ∃ (x : Byte) (t : Bytes), b = x :: t ∧ x.val < 128 ∧
    (x.val = 0 → ∀ (y : Byte) (u : Bytes), t = y :: u → 128 ≤ y.val) := by
  constructor
  · rintro ⟨n, hn, hb, hm⟩
    obtain ⟨hne, e, h2⟩ := (twosComplement_nonneg hn).mp hb
    obtain ⟨x, t, rfl⟩ : ∃ x t, b = x :: t := by cases b with
      | nil => exact absurd rfl hne
      | cons x t => exact ⟨x, t, rfl⟩
    rw [beValue_cons, List.length_cons, pow_succ] at h2
    have hp : 0 < 256 ^ t.length := Nat.pos_of_ne_zero (by positivity)
    refine ⟨x, t, rfl, ?_, ?_⟩
    · by_contra hx
      have : 128 * 256 ^ t.length ≤ x.val * 256 ^ t.length := Nat.mul_le_mul_right _ (by omega)
      omega
    · intro hx y u ht
      by_contra hy
      have h3 : TwosComplement t n := by
        refine (twosComplement_nonneg hn).mpr ⟨by simp [ht], ?_, ?_⟩
        · rw [e, beValue_cons, hx]; simp
        · subst ht
          have := beValue_lt u
          rw [beValue_cons, List.length_cons, pow_succ]
          have : y.val * 256 ^ u.length ≤ 127 * 256 ^ u.length := Nat.mul_le_mul_right _ (by omega)
          omega
      have := hm t h3
      simp at this
  · rintro ⟨x, t, rfl, hx, hy⟩
    have hp : 0 < 256 ^ t.length := Nat.pos_of_ne_zero (by positivity)
    have hlt := beValue_lt t
    refine ⟨beValue (x :: t), by omega, (twosComplement_nonneg (by omega)).mpr ⟨by simp, rfl, ?_⟩, ?_⟩
    · rw [beValue_cons, List.length_cons, pow_succ]
      have : x.val * 256 ^ t.length ≤ 127 * 256 ^ t.length := Nat.mul_le_mul_right _ (by omega)
      omega
    · intro b' hb'
      obtain ⟨hne, e, h2⟩ := (twosComplement_nonneg (by omega)).mp hb'
      have e' : beValue (x :: t) = beValue b' := by exact_mod_cast e
      by_contra hl
      have hl' : b'.length ≤ t.length := by simp at hl; omega
      have hpow : 256 ^ b'.length ≤ 256 ^ t.length := Nat.pow_le_pow_right (by omega) hl'
      rw [← e', beValue_cons] at h2
      by_cases h0 : x.val = 0
      · cases t with
        | nil =>
          simp at hl'
          exact hne hl'
        | cons y u =>
          have := hy h0 y u rfl
          rw [h0, beValue_cons, List.length_cons, pow_succ] at h2
          rw [List.length_cons, pow_succ] at hpow
          have : 128 * 256 ^ u.length ≤ y.val * 256 ^ u.length := Nat.mul_le_mul_right _ (by omega)
          omega
      · have : 1 * 256 ^ t.length ≤ x.val * 256 ^ t.length := Nat.mul_le_mul_right _ (by omega)
        omega

/-- `sig[i]` for an index that is in range. -/
def sigByte (sig : Bytes) (i : Nat) : Nat := (sig.getD i 0).val

theorem listItem_eq (sig : Bytes) (i : Nat) (h : i < sig.length) :
    listItem (sig.map Fin.val) i = .ok (sigByte sig i) := by
  simp [listItem, sigByte, List.getElem?_eq_getElem h]

/-- The checks of `validate_signature` on a signature long enough for all of them. -/
def Checks (g : Nat → Nat) (n : Nat) : Prop :=
  9 ≤ n ∧ n ≤ 73 ∧ g 0 = 0x30 ∧ g 1 = n - 3 ∧ 5 + g 3 < n ∧ g 3 + g (5 + g 3) + 7 = n ∧ g 2 = 2 ∧
    g 3 ≠ 0 ∧ g 4 < 128 ∧ (1 < g 3 → g 4 = 0 → 128 ≤ g 5) ∧ g (g 3 + 4) = 2 ∧ g (5 + g 3) ≠ 0 ∧
    g (g 3 + 6) < 128 ∧ (1 < g (5 + g 3) → g (g 3 + 6) = 0 → 128 ≤ g (g 3 + 7))

theorem padded_eq (sig : Bytes) (length i : Nat) (h : i + length < sig.length) :
    ∃ b, padded (sig.map Fin.val) length i = .ok b ∧
      (b = true ↔ ¬ (1 < length → sigByte sig i = 0 → 128 ≤ sigByte sig (i + 1))) := by
  unfold padded
  by_cases h1 : 1 < length
  · rw [if_pos h1, listItem_eq sig i (by omega), listItem_eq sig (i + 1) (by omega)]
    by_cases h2 : sigByte sig i = 0
    · refine ⟨!bit7 (sigByte sig (i + 1)), by simp [h2, bind, Except.bind, pure, Except.pure], ?_⟩
      simp [bit7, h1, h2]
    · exact ⟨false, by simp [h2, bind, Except.bind, pure, Except.pure], by simp [h2]⟩
  · exact ⟨false, by simp [h1], by simp [h1]⟩

theorem validate_eq (sig : Bytes) : ∃ b, validateSignature ⟨.str, sig⟩ = .ok b ∧
    (b = true ↔ Checks (sigByte sig) sig.length) := by
  have hm : mapOrd ⟨.str, sig⟩ = .ok (sig.map Fin.val) := by cases sig <;> rfl
  unfold validateSignature Checks
  rw [hm]
  simp only [bind, Except.bind, pure, Except.pure, List.length_map]
  by_cases h1 : sig.length < 9
  · exact ⟨false, by simp [h1], by simp; omega⟩
  rw [if_neg h1]
  by_cases h2 : sig.length > 73
  · exact ⟨false, by simp [h2], by simp; omega⟩
  rw [if_neg h2, listItem_eq sig 0 (by omega), listItem_eq sig 1 (by omega), listItem_eq sig 2 (by omega),
    listItem_eq sig 3 (by omega), listItem_eq sig 4 (by omega)]
  simp only
  by_cases h3 : sigByte sig 0 = 0x30
  swap
  · exact ⟨false, by simp [h3], by simp [h3]⟩
  rw [if_neg (by simp [h3])]
  by_cases h4 : sigByte sig 1 = sig.length - 3
  swap
  · exact ⟨false, by simp [h4], by simp [h4]⟩
  rw [if_neg (by simp [h4])]
  by_cases h5 : 5 + sigByte sig 3 ≥ sig.length
  · exact ⟨false, by simp [h5], by simp; omega⟩
  rw [if_neg h5, listItem_eq sig (5 + sigByte sig 3) (by omega)]
  simp only
  by_cases h6 : sigByte sig 3 + sigByte sig (5 + sigByte sig 3) + 7 = sig.length
  swap
  · exact ⟨false, by simp [h6], by simp [h6]⟩
  rw [if_neg (by simp [h6])]
  by_cases h7 : sigByte sig 2 = 2
  swap
  · exact ⟨false, by simp [h7], by simp [h7]⟩
  rw [if_neg (by simp [h7])]
  by_cases h8 : sigByte sig 3 = 0
  · exact ⟨false, by simp [h8], by simp [h8]⟩
  rw [if_neg h8]
  by_cases h9 : bit7 (sigByte sig 4) = true
  · exact ⟨false, by simp [h9], by simp [bit7] at h9; simp; omega⟩
  rw [if_neg h9]
  obtain ⟨b1, e1, hb1⟩ := padded_eq sig (sigByte sig 3) 4 (by omega)
  rw [e1]
  simp only
  cases b1 with
  | true =>
    have := hb1.mp rfl
    exact ⟨false, by simp, by simp only [Bool.false_eq_true, false_iff]; tauto⟩
  | false =>
  have hb1' : 1 < sigByte sig 3 → sigByte sig 4 = 0 → 128 ≤ sigByte sig 5 := by
    by_contra h; exact Bool.noConfusion (hb1.mpr h)
  rw [if_neg (by simp), listItem_eq sig (sigByte sig 3 + 4) (by omega)]
  simp only
  by_cases h10 : sigByte sig (sigByte sig 3 + 4) = 2
  swap
  · exact ⟨false, by simp [h10], by simp [h10]⟩
  rw [if_neg (by simp [h10])]
  by_cases h11 : sigByte sig (5 + sigByte sig 3) = 0
  · exact ⟨false, by simp [h11], by simp [h11]⟩
  rw [if_neg h11, listItem_eq sig (sigByte sig 3 + 6) (by omega)]
  simp only
  by_cases h12 : bit7 (sigByte sig (sigByte sig 3 + 6)) = true
  · refine ⟨false, by simp [h12], ?_⟩
    simp only [bit7, decide_eq_true_eq] at h12
    simp only [Bool.false_eq_true, false_iff]
    intro h; have := h.2.2.2.2.2.2.2.2.2.2.2.2.1; omega
  rw [if_neg h12]
  obtain ⟨b2, e2, hb2⟩ := padded_eq sig (sigByte sig (5 + sigByte sig 3)) (sigByte sig 3 + 6) (by omega)
  rw [e2]
  simp only
  cases b2 with
  | true =>
    have := hb2.mp rfl
    exact ⟨false, by simp, by simp only [Bool.false_eq_true, false_iff]; tauto⟩
  | false =>
  have hb2' : 1 < sigByte sig (5 + sigByte sig 3) → sigByte sig (sigByte sig 3 + 6) = 0 →
      128 ≤ sigByte sig (sigByte sig 3 + 7) := by
    by_contra h; exact Bool.noConfusion (hb2.mpr h)
  refine ⟨true, by simp, by simp only [true_iff]; simp only [bit7, decide_eq_true_eq] at h9 h12; exact
    ⟨by omega, by omega, h3, h4, by omega, h6, h7, h8, by omega, hb1', h10, h11, by omega, hb2'⟩⟩

theorem sigByte_append_right (a b : Bytes) (i : Nat) : sigByte (a ++ b) (a.length + i) = sigByte b i := by
  simp [sigByte, List.getD_eq_getElem?_getD, List.getElem?_append_right]

theorem sigByte_append_left (a b : Bytes) (i : Nat) (h : i < a.length) : sigByte (a ++ b) i = sigByte a i := by
  simp [sigByte, List.getD_eq_getElem?_getD, List.getElem?_append_left h]

@[simp] theorem sigByte_zero (x : Byte) (b : Bytes) : sigByte (x :: b) 0 = x.val := rfl
@[simp] theorem sigByte_succ (x : Byte) (b : Bytes) (i : Nat) : sigByte (x :: b) (i + 1) = sigByte b i := rfl

/-- The two-byte test on a part of a longer byte string. -/
theorem derNat_part (r t : Bytes) (hr : r ≠ []) : DerNat r ↔ sigByte (r ++ t) 0 < 128 ∧
    (1 < r.length → sigByte (r ++ t) 0 = 0 → 128 ≤ sigByte (r ++ t) 1) := by
  rw [derNat_iff]
  match r, hr with
  | [x], _ => simp
  | x :: y :: u, _ =>
    simp only [List.cons.injEq, exists_and_left, List.cons_append, sigByte_zero, List.length_cons,
      sigByte_succ x _ 0]
    constructor
    · rintro ⟨_, _, ⟨rfl, rfl⟩, h1, h2⟩
      exact ⟨h1, fun _ h0 => h2 h0 y u rfl⟩
    · rintro ⟨h1, h2⟩
      refine ⟨x, y :: u, ⟨rfl, rfl⟩, h1, fun h0 y' u' e => ?_⟩
      injection e with e1 e2
      subst e1
      exact h2 (by omega) h0

/-- The layout of a signature: all the checks, on the parts. -/
theorem checks_layout (a b c d e f h : Byte) (r s : Bytes) (hd : d.val = r.length) (hf : f.val = s.length) :
    Checks (sigByte (a :: b :: c :: d :: (r ++ e :: f :: (s ++ [h]))))
      (a :: b :: c :: d :: (r ++ e :: f :: (s ++ [h]))).length ↔
    r.length + s.length + 7 ≤ 73 ∧ a.val = 0x30 ∧ b.val = r.length + s.length + 4 ∧ c.val = 2 ∧
      DerNat r ∧ e.val = 2 ∧ DerNat s := by
  have hlen : (a :: b :: c :: d :: (r ++ e :: f :: (s ++ [h]))).length = r.length + s.length + 7 := by
    simp; omega
  rw [hlen]
  set sig := a :: b :: c :: d :: (r ++ e :: f :: (s ++ [h])) with hs
  have g0 : sigByte sig 0 = a.val := rfl
  have g1 : sigByte sig 1 = b.val := rfl
  have g2 : sigByte sig 2 = c.val := rfl
  have g3 : sigByte sig 3 = r.length := hd
  have g4 : sigByte sig 4 = sigByte (r ++ e :: f :: (s ++ [h])) 0 := rfl
  have g5 : sigByte sig 5 = sigByte (r ++ e :: f :: (s ++ [h])) 1 := rfl
  have gt : ∀ i, sigByte sig (r.length + 4 + i) = sigByte (e :: f :: (s ++ [h])) i := by
    intro i
    rw [show r.length + 4 + i = (r.length + i) + 1 + 1 + 1 + 1 by omega]
    simp only [hs, sigByte_succ]
    exact sigByte_append_right r _ i
  have k4 : sigByte sig (r.length + 4) = e.val := gt 0
  have k5 : sigByte sig (5 + r.length) = s.length := by
    rw [show 5 + r.length = r.length + 4 + 1 by omega, gt]; exact hf
  have k6 : sigByte sig (r.length + 6) = sigByte (s ++ [h]) 0 := gt 2
  have k7 : sigByte sig (r.length + 7) = sigByte (s ++ [h]) 1 := gt 3
  unfold Checks
  rw [g0, g1, g2, g3, g4, g5, k4, k5, k6, k7]
  constructor
  · rintro ⟨h1, h2, h3, h4, h5, h6, h7, h8, h9, h10, h11, h12, h13, h14⟩
    have hr : r ≠ [] := by rintro rfl; simp at h8
    have hs' : s ≠ [] := by rintro rfl; simp at h12
    exact ⟨h2, h3, by omega, h7, (derNat_part r _ hr).mpr ⟨h9, h10⟩, h11, (derNat_part s _ hs').mpr ⟨h13, h14⟩⟩
  · rintro ⟨h1, h2, h3, h4, h5, h6, h7⟩
    have hr : r ≠ [] := by obtain ⟨x, t, rfl, _⟩ := (derNat_iff r).mp h5; simp
    have hs' : s ≠ [] := by obtain ⟨x, t, rfl, _⟩ := (derNat_iff s).mp h7; simp
    have hr' : 0 < r.length := List.length_pos_iff.mpr hr
    have hs'' : 0 < s.length := List.length_pos_iff.mpr hs'
    obtain ⟨h9, h10⟩ := (derNat_part r (e :: f :: (s ++ [h])) hr).mp h5
    obtain ⟨h13, h14⟩ := (derNat_part s [h] hs').mp h7
    exact ⟨by omega, h1, h2, by omega, by omega, by omega, h4, by omega, h9, h10, h6, by omega, h13, h14⟩

theorem checks_iff (sig : Bytes) : Checks (sigByte sig) sig.length ↔ StrictDer sig := by
  constructor
  · intro hc
    have hn := hc.1
    have h5 := hc.2.2.2.2.1
    have h6 := hc.2.2.2.2.2.1
    match sig, hn with
    | a :: b :: c :: d :: t, hn =>
      have hd : sigByte (a :: b :: c :: d :: t) 3 = d.val := rfl
      rw [hd] at h5 h6
      simp only [List.length_cons] at h5 h6
      obtain ⟨r, t', rfl, hr⟩ : ∃ r t', t = r ++ t' ∧ r.length = d.val :=
        ⟨t.take d.val, t.drop d.val, (List.take_append_drop _ _).symm, by simp; omega⟩
      rw [show 5 + d.val = (r.length + 1) + 1 + 1 + 1 + 1 by omega] at h6
      simp only [sigByte_succ, sigByte_append_right, List.length_append] at h6
      match t', h6 with
      | [], h6 => simp [sigByte] at h6; omega
      | [e], h6 => simp [sigByte] at h6; omega
      | e :: f :: u, h6 =>
        have hf : sigByte (e :: f :: u) 1 = f.val := rfl
        rw [hf] at h6
        simp only [List.length_cons] at h6
        obtain ⟨s, v, rfl, hs⟩ : ∃ s v, u = s ++ v ∧ s.length = f.val :=
          ⟨u.take f.val, u.drop f.val, (List.take_append_drop _ _).symm, by simp; omega⟩
        rw [List.length_append] at h6
        obtain ⟨h, rfl⟩ : ∃ h, v = [h] := List.length_eq_one_iff.mp (by omega)
        obtain ⟨k1, k2, k3, k4, k5, k6, k7⟩ := (checks_layout a b c d e f h r s hr.symm hs.symm).mp hc
        refine ⟨r, s, _, _, _, h, k5, k7, ⟨d, hr.symm, rfl⟩, ⟨f, hs.symm, rfl⟩, ⟨b, ?_, rfl⟩, ?_, hc.1, hc.2.1⟩
        · simp; omega
        · have ea : a = 0x30 := Fin.ext k2
          have ec : c = 0x02 := Fin.ext k4
          have ee : e = 0x02 := Fin.ext k6
          simp [ea, ec, ee]
  · rintro ⟨r, s, rb, sb, seq, h, hr, hs, ⟨d, hd, rfl⟩, ⟨f, hf, rfl⟩, ⟨b, hb, rfl⟩, rfl, h9, h73⟩
    have e : (0x30 : Byte) :: b :: (((0x02 : Byte) :: d :: r) ++ (0x02 : Byte) :: f :: s) ++ [h] =
        0x30 :: b :: 0x02 :: d :: (r ++ 0x02 :: f :: (s ++ [h])) := by simp
    rw [e] at h73 ⊢
    rw [checks_layout _ b _ d _ f h r s hd hf]
    simp at hb h73
    exact ⟨by omega, rfl, by omega, rfl, hr, rfl, hs⟩

end Bitforge
