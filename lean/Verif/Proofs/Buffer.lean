import Verif.Proofs.Digits
import Verif.Spec.Stream

/-! Helper lemmas on `Buffer`. -/

namespace Bitforge
open Spec

theorem Rd.bind_ok {α β : Type} {m : Rd α} {f : α → Rd β} {s s' : Bytes} {a : α} (h : m s = (.ok a, s')) :
    Rd.bind m f s = f a s' := by
  simp [Rd.bind, h]

theorem Rd.bind_err {α β : Type} {m : Rd α} {f : α → Rd β} {s s' : Bytes} {e : Err} (h : m s = (.error e, s')) :
    Rd.bind m f s = (.error e, s') := by
  simp [Rd.bind, h]

theorem Rd.bind_ok_iff {α β : Type} {m : Rd α} {f : α → Rd β} {s s' : Bytes} {b : β} :
    Rd.bind m f s = (.ok b, s') ↔ ∃ a s1, m s = (.ok a, s1) ∧ f a s1 = (.ok b, s') := by
  unfold Rd.bind
  cases hm : m s with
  | mk r s1 => cases r <;> simp

@[simp] theorem Rd.pure_apply {α : Type} (a : α) (s : Bytes) : Rd.pure a s = (.ok a, s) := rfl

theorem read_append (b rest : Bytes) : Buffer.read b.length (b ++ rest) = (.ok b, rest) := by
  simp [Buffer.read]

theorem read_append' (n : Nat) (b rest : Bytes) (h : b.length = n) :
    Buffer.read n (b ++ rest) = (.ok b, rest) := by
  subst h; exact read_append b rest

theorem read_ok_iff (n : Nat) (s b s' : Bytes) :
    Buffer.read n s = (.ok b, s') ↔ s = b ++ s' ∧ b.length = n := by
  constructor
  · intro h
    unfold Buffer.read at h
    split at h
    · simp at h
    · next hl =>
      simp only [Prod.mk.injEq, Except.ok.injEq] at h
      obtain ⟨rfl, rfl⟩ := h
      simp; omega
  · rintro ⟨rfl, rfl⟩
    exact read_append b s'

theorem read_err (n : Nat) (s : Bytes) (h : s.length < n) :
    Buffer.read n s = (.error (.insufficientData s.length n), s) := by
  simp [Buffer.read, h]

theorem encodeVarint_nat (n : Nat) : encodeVarint (n : Int) =
    if n < 253 then [byte n]
    else if n ≤ 0xFFFF then 253 :: encodeInt n false (some 2)
    else if n ≤ 0xFFFFFFFF then 254 :: encodeInt n false (some 4)
    else 255 :: encodeInt n false (some 8) := by
  have e1 : n < 253 → encodeInt (n : Int) = [byte n] := by
    intro h
    by_cases h0 : n = 0
    · subst h0; rfl
    · have : leDigits n = [byte n] := by
        rw [leDigits_eq, Nat.digits_of_lt 256 n h0 (by omega)]; rfl
      simp [encodeInt, h0, this]
  unfold encodeVarint
  by_cases h1 : n < 253
  · rw [if_pos (by omega), if_pos h1, e1 h1]
  · rw [if_neg (by omega), if_neg h1]
    by_cases h2 : n ≤ 0xFFFF
    · rw [if_pos (by omega), if_pos h2]
    · rw [if_neg (by omega), if_neg h2]
      by_cases h3 : n ≤ 0xFFFFFFFF
      · rw [if_pos (by omega), if_pos h3]
      · rw [if_neg (by omega), if_neg h3]

theorem readVarint_cons (x : Byte) (s : Bytes) : Buffer.readVarint (x :: s) =
    if x.val < 253 then (.ok x.val, s)
    else if x.val = 253 then Rd.bind (Buffer.read 2) (fun b => Rd.pure (decodeInt b (bigEndian := false))) s
    else if x.val = 254 then Rd.bind (Buffer.read 4) (fun b => Rd.pure (decodeInt b (bigEndian := false))) s
    else Rd.bind (Buffer.read 8) (fun b => Rd.pure (decodeInt b (bigEndian := false))) s := by
  have h : Buffer.read 1 (x :: s) = (.ok [x], s) := read_append' 1 [x] s rfl
  have hd : decodeInt [x] = x.val := by simp [decodeInt]
  unfold Buffer.readVarint
  rw [Rd.bind_ok h]
  simp only [hd]
  split
  · rfl
  · split
    · rfl
    · split <;> rfl

theorem readVarint_nil : Buffer.readVarint [] = (.error (.insufficientData 0 1), []) := by
  unfold Buffer.readVarint
  rw [Rd.bind_err (read_err 1 [] (by simp))]
  rfl

theorem read_le_pure (L : Nat) (n : Int) (rest : Bytes) :
    Rd.bind (Buffer.read L) (fun b => Rd.pure (decodeInt b (bigEndian := false)))
      (encodeInt n false (some L) ++ rest) = (.ok (n.toNat % 256 ^ L), rest) := by
  rw [Rd.bind_ok (read_append' L _ rest (encodeInt_length n false L))]
  simp [decodeInt_encodeInt]

theorem readVarint_encodeVarint_mod (n : Nat) (rest : Bytes) :
    Buffer.readVarint (encodeVarint n ++ rest) = (.ok (n % 2 ^ 64), rest) := by
  rw [encodeVarint_nat]
  split
  · next h =>
    rw [List.singleton_append, readVarint_cons, if_pos (by rw [byte_val]; omega)]
    congr 2; rw [byte_val]; omega
  · split
    · next h1 h2 =>
      rw [List.cons_append, readVarint_cons, if_neg (by decide), if_pos (by rfl), read_le_pure]
      congr 2; simp only [Int.toNat_natCast]; omega
    · split
      · next h1 h2 h3 =>
        rw [List.cons_append, readVarint_cons, if_neg (by decide), if_neg (by decide), if_pos (by rfl), read_le_pure]
        congr 2; simp only [Int.toNat_natCast]; omega
      · next h1 h2 h3 =>
        rw [List.cons_append, readVarint_cons, if_neg (by decide), if_neg (by decide), if_neg (by decide), read_le_pure]
        congr 2

theorem readVarint_encodeVarint (n : Nat) (h : n < 2 ^ 64) (rest : Bytes) :
    Buffer.readVarint (encodeVarint n ++ rest) = (.ok n, rest) := by
  rw [readVarint_encodeVarint_mod, Nat.mod_eq_of_lt h]

/-- What a successful `read_varint` consumed. -/
theorem readVarint_ok (s s' : Bytes) (n : Nat) (h : Buffer.readVarint s = (.ok n, s')) :
    ∃ pre, s = pre ++ s' ∧ pre ≠ [] ∧ n < 256 ^ 8 ∧
      ((encodeVarint n).length ≤ pre.length) ∧ (pre.length = (encodeVarint n).length → pre = encodeVarint n) := by
  have len : ∀ m : Nat, (encodeVarint (m : Int)).length =
      if m < 253 then 1 else if m ≤ 0xFFFF then 3 else if m ≤ 0xFFFFFFFF then 5 else 9 := by
    intro m; rw [encodeVarint_nat]
    split
    · rfl
    · split
      · simp [encodeInt_length]
      · split <;> simp [encodeInt_length]
  have fixed : ∀ (L : Nat) (s : Bytes),
      Rd.bind (Buffer.read L) (fun b => Rd.pure (decodeInt b (bigEndian := false))) s = (.ok n, s') →
      ∃ b, s = b ++ s' ∧ b.length = L ∧ n < 256 ^ L ∧ encodeInt n false (some L) = b := by
    intro L s h
    obtain ⟨b, s1, h1, h2⟩ := Rd.bind_ok_iff.1 h
    simp only [Rd.pure_apply, Prod.mk.injEq, Except.ok.injEq] at h2
    obtain ⟨rfl, rfl⟩ := h2
    obtain ⟨rfl, hl⟩ := (read_ok_iff _ _ _ _).1 h1
    refine ⟨b, rfl, hl, ?_, ?_⟩
    · rw [← hl]; exact decodeInt_lt b false
    · rw [← hl]; exact encodeInt_decodeInt b false
  cases s with
  | nil => rw [readVarint_nil] at h; simp at h
  | cons x s =>
    rw [readVarint_cons] at h
    have hx := x.isLt
    split at h
    · next h1 =>
      simp only [Prod.mk.injEq, Except.ok.injEq] at h
      obtain ⟨rfl, rfl⟩ := h
      refine ⟨[x], rfl, by simp, by omega, ?_, fun _ => ?_⟩
      · rw [len, if_pos h1]; simp
      · rw [encodeVarint_nat, if_pos h1, byte_of_val]
    · split at h
      · next h1 h2 =>
        obtain ⟨b, rfl, hl, hn, hb⟩ := fixed 2 s h
        refine ⟨x :: b, rfl, by simp, by omega, ?_, ?_⟩
        · rw [len, List.length_cons, hl]; split <;> [omega; (split <;> omega)]
        · rw [len, List.length_cons, hl]
          intro he
          rw [encodeVarint_nat]
          have : x = 253 := Fin.ext h2
          split
          · next h3 => simp [h3] at he
          · split
            · rw [hb, this]
            · omega
      · split at h
        · next h1 h2 h3 =>
          obtain ⟨b, rfl, hl, hn, hb⟩ := fixed 4 s h
          refine ⟨x :: b, rfl, by simp, by omega, ?_, ?_⟩
          · rw [len, List.length_cons, hl]
            split
            · omega
            · split
              · omega
              · split <;> omega
          · rw [len, List.length_cons, hl]
            intro he
            rw [encodeVarint_nat]
            have : x = 254 := Fin.ext h3
            split
            · next h4 => simp [h4] at he
            · split
              · next h4 h5 => simp [h4, h5] at he
              · split
                · rw [hb, this]
                · omega
        · next h1 h2 h3 =>
          obtain ⟨b, rfl, hl, hn, hb⟩ := fixed 8 s h
          refine ⟨x :: b, rfl, by simp, hn, ?_, ?_⟩
          · rw [len, List.length_cons, hl]
            split
            · omega
            · split
              · omega
              · split <;> omega
          · rw [len, List.length_cons, hl]
            intro he
            rw [encodeVarint_nat]
            have : x = 255 := Fin.ext (by show x.val = 255; omega)
            split
            · next h4 => simp [h4] at he
            · split
              · next h4 h5 => simp [h4, h5] at he
              · split
                · next h4 h5 h6 => simp [h4, h5, h6] at he
                · rw [hb, this]

end Bitforge
