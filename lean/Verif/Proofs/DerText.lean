import Verif.KeySign
import Verif.Proofs.Der

/-! # The DER texts of signatures -/

namespace Bitforge
open Spec ExtEcdsa

theorem derOf_beValue {b : Bytes} (h : DerNat b) : DerOf (beValue b) b := by
  obtain ⟨n, hn, ht, hm⟩ := h
  obtain ⟨_, e, _⟩ := (twosComplement_nonneg hn).1 ht
  subst e
  exact ⟨hn, ht, hm⟩

theorem derOf_value {n : Int} {b : Bytes} (h : DerOf n b) : n = beValue b :=
  ((twosComplement_nonneg h.1).1 h.2.1).2.1

theorem derOf_inj {n : Int} {b b' : Bytes} (h : DerOf n b) (h' : DerOf n b') : b = b' := by
  have h1 := h.2.2 _ h'.2.1
  have h2 := h'.2.2 _ h.2.1
  refine beValue_inj _ _ (by omega) ?_
  have := (derOf_value h).symm.trans (derOf_value h')
  exact_mod_cast this

theorem derNat_of {n : Int} {b : Bytes} (h : DerOf n b) : DerNat b := ⟨n, h⟩

theorem val_byte_lt {n : Nat} (h : n < 256) : (byte n).val = n := by
  simp [byte, Nat.mod_eq_of_lt h]

/-- The bytes of a number. -/
theorem encodeInt_parts {r : Int} (h0 : 0 ≤ r) {L : Nat} (h : r < 256 ^ (L + 1)) :
    ∃ (x : Byte) (t : Bytes), encodeInt r = x :: t ∧ t.length ≤ L ∧ (beValue (x :: t) : Int) = r ∧ (x.val = 0 → t = []) := by
  by_cases hr : r = 0
  · subst hr
    exact ⟨0, [], rfl, by simp, rfl, fun _ => rfl⟩
  · have hn : r.toNat ≠ 0 := by omega
    have hb : r.toNat < 256 ^ (L + 1) := by
      have : (r.toNat : Int) < 256 ^ (L + 1) := by rw [Int.toNat_of_nonneg h0]; exact h
      exact_mod_cast this
    have e : encodeInt r = (leDigits r.toNat).reverse := by
      unfold encodeInt
      rw [if_neg hr]
      rfl
    have hl := leDigits_length_le hb
    have hne := leDigits_ne_nil hn
    have hlast := leDigits_getLast_ne_zero hne
    have hv := leValue_leDigits r.toNat
    obtain ⟨l, x, hlx⟩ : ∃ l x, leDigits r.toNat = l ++ [x] := ⟨_, _, (List.dropLast_append_getLast hne).symm⟩
    refine ⟨x, l.reverse, by rw [e, hlx]; simp, ?_, ?_, ?_⟩
    · rw [hlx] at hl
      simpa using hl
    · rw [show beValue (x :: l.reverse) = leValue (l ++ [x]) by simp [beValue], ← hlx, hv, Int.toNat_of_nonneg h0]
    · intro hx
      exfalso
      apply hlast
      simp only [hlx, List.getLast_append_singleton]
      exact Fin.ext hx

/-- `encode_integer` for 256-bit numbers. -/
theorem derInteger_spec {r : Int} (h0 : 0 ≤ r) (h : r < 256 ^ 32) : ∃ c b, derInteger r = .ok b ∧ Tlv 0x02 c b ∧
    DerOf r c ∧ 1 ≤ c.length ∧ c.length ≤ 33 := by
  obtain ⟨x, t, he, hl, hv, hx⟩ := encodeInt_parts h0 (L := 31) h
  unfold derInteger
  rw [if_neg (by omega)]
  simp only [he, List.headD_cons]
  split
  · next h7 =>
    refine ⟨x :: t, 0x02 :: byte (x :: t).length :: x :: t, ?_, ⟨byte (x :: t).length, val_byte_lt (by simp; omega), rfl⟩,
      ?_, by simp, by simp; omega⟩
    · unfold int2byte
      rw [if_pos (by simp; omega)]
      rfl
    · rw [← hv]
      refine derOf_beValue ((derNat_iff _).2 ⟨x, t, rfl, by omega, ?_⟩)
      intro h0 y u e
      rw [hx h0] at e
      cases e
  · next h7 =>
    refine ⟨0 :: x :: t, 0x02 :: byte ((x :: t).length + 1) :: 0 :: x :: t, ?_,
      ⟨byte ((x :: t).length + 1), val_byte_lt (by simp; omega), rfl⟩, ?_, by simp, by simp; omega⟩
    · unfold int2byte
      rw [if_pos (by simp; omega)]
      rfl
    · rw [← hv, show beValue (x :: t) = beValue (0 :: x :: t) by rw [beValue_cons 0]; simp]
      refine derOf_beValue ((derNat_iff _).2 ⟨0, x :: t, rfl, by simp, ?_⟩)
      intro _ y u e
      injection e with e1 e2
      subst e1
      omega

/-- `sigencode_der` for 256-bit numbers. -/
theorem sigencode_spec {r s : Int} (hr : 0 ≤ r) (hr' : r < 256 ^ 32) (hs : 0 ≤ s) (hs' : s < 256 ^ 32) :
    ∃ sig, sigencodeDer (r, s) = .ok sig ∧ SigText sig r s ∧ 8 ≤ sig.length ∧ sig.length ≤ 72 := by
  obtain ⟨rc, rb, h1, ⟨l1, hl1, rfl⟩, h3, h4, h5⟩ := derInteger_spec hr hr'
  obtain ⟨sc, sb, k1, ⟨l2, hl2, rfl⟩, k3, k4, k5⟩ := derInteger_spec hs hs'
  unfold sigencodeDer
  simp only [h1, k1, bind, Except.bind, derSequence, derLength, int2byte]
  have hsum : (List.map List.length [(2 : Byte) :: l1 :: rc, (2 : Byte) :: l2 :: sc]).sum = rc.length + sc.length + 4 := by
    simp; omega
  rw [hsum, if_pos (by omega), if_pos (by omega)]
  refine ⟨_, rfl, ⟨rc, sc, _, _, h3, k3, ⟨l1, hl1, rfl⟩, ⟨l2, hl2, rfl⟩, byte (rc.length + sc.length + 4), ?_, ?_⟩, ?_, ?_⟩
  · rw [val_byte_lt (by omega)]
    simp; omega
  · simp
  · simp; omega
  · simp; omega

theorem readLength_short (l : Byte) (rest : Bytes) (h : l.val < 128) : readLength (l :: rest) = .ok (l.val, 1) := by
  unfold readLength
  simp [h]

theorem removeInteger_raw {x : Byte} {t b : Bytes} (hb : Tlv 0x02 (x :: t) b) (hx : x.val < 128)
    (hl : (x :: t).length < 128) (rest : Bytes) : removeInteger (b ++ rest) = .ok ((beValue (x :: t) : Int), rest) := by
  obtain ⟨l, hl', rfl⟩ := hb
  unfold removeInteger
  simp only [List.cons_append]
  rw [if_neg (by simp), readLength_short _ _ (by omega)]
  have e : ∀ y : Bytes, (l :: x :: (t ++ rest)).drop 1 = (x :: t) ++ rest := fun _ => rfl
  simp only [e []]
  rw [hl', List.take_left, List.drop_left]
  simp only
  rw [if_pos hx, decodeInt_big]

theorem removeInteger_tlv {c b : Bytes} {n : Int} (hb : Tlv 0x02 c b) (hc : DerOf n c) (hl : c.length < 128)
    (rest : Bytes) : removeInteger (b ++ rest) = .ok (n, rest) := by
  obtain ⟨x, t, rfl, hx, _⟩ := (derNat_iff c).1 (derNat_of hc)
  rw [removeInteger_raw hb hx hl, ← derOf_value hc]

/-- `sigdecode_der` on two integers that need not be in the shortest form. -/
theorem sigdecode_raw {sig rb sb t u : Bytes} {x y : Byte} (h3 : Tlv 0x02 (x :: t) rb) (h4 : Tlv 0x02 (y :: u) sb)
    (h5 : Tlv 0x30 (rb ++ sb) sig) (hx : x.val < 128) (hy : y.val < 128) (hl : sig.length < 130) :
    sigdecodeDer sig = .ok ((beValue (x :: t) : Int), (beValue (y :: u) : Int)) := by
  obtain ⟨l, hl', rfl⟩ := h5
  have hlr : (x :: t).length ≤ rb.length := by obtain ⟨_, _, rfl⟩ := h3; simp only [List.length_cons]; omega
  have hls : (y :: u).length ≤ sb.length := by obtain ⟨_, _, rfl⟩ := h4; simp only [List.length_cons]; omega
  simp only [List.length_cons, List.length_append] at hl hl'
  unfold sigdecodeDer removeSequence
  simp only [ne_eq, not_true_eq_false, if_false]
  rw [readLength_short _ _ (by omega)]
  simp only [Except.map, bind, Except.bind, List.drop_one, List.tail_cons, hl']
  rw [List.drop_of_length_le (by simp), List.take_of_length_le (by simp)]
  simp only [not_true_eq_false, if_false]
  rw [removeInteger_raw h3 hx (by omega)]
  simp only
  have := removeInteger_raw h4 hy (by omega) []
  rw [List.append_nil] at this
  rw [this]
  simp

/-- `sigdecode_der` inverts `sigencode_der`. -/
theorem sigdecode_text {sig : Bytes} {r s : Int} (h : SigText sig r s) (hl : sig.length < 130) :
    sigdecodeDer sig = .ok (r, s) := by
  obtain ⟨rc, sc, rb, sb, h1, h2, h3, h4, h5⟩ := h
  obtain ⟨x, t, rfl, hx, _⟩ := (derNat_iff rc).1 (derNat_of h1)
  obtain ⟨y, u, rfl, hy, _⟩ := (derNat_iff sc).1 (derNat_of h2)
  rw [sigdecode_raw h3 h4 h5 hx hy hl, ← derOf_value h1, ← derOf_value h2]

end Bitforge
