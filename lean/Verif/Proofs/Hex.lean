import Verif.Proofs.Digits

/-! Helper lemmas on hexadecimal text. -/

namespace Bitforge
open Spec

theorem hexValue_hexDigit (n : Nat) (h : n < 16) : hexValue (hexDigit n) = some n := by
  have : ∀ m : Fin 16, hexValue (hexDigit m.val) = some m.val := by decide
  exact this ⟨n, h⟩

theorem hexDigit_ascii (n : Nat) (h : n < 16) : (hexDigit n).toNat < 128 := by
  have : ∀ m : Fin 16, (hexDigit m.val).toNat < 128 := by decide
  exact this ⟨n, h⟩

theorem unhexlify_encodeHex (b : Bytes) : unhexlify (encodeHex b) = some b := by
  induction b with
  | nil => rfl
  | cons x b ih =>
    have hx := x.isLt
    have : encodeHex (x :: b) = hexDigit (x.val / 16) :: hexDigit (x.val % 16) :: encodeHex b := rfl
    rw [this, unhexlify, hexValue_hexDigit _ (by omega), hexValue_hexDigit _ (by omega), ih]
    have e : x.val / 16 * 16 + x.val % 16 = x.val := by omega
    simp only [e, byte_of_val]

theorem encodeHex_ascii (b : Bytes) : isAscii (encodeHex b) = true := by
  induction b with
  | nil => rfl
  | cons x b ih =>
    have hx := x.isLt
    have : encodeHex (x :: b) = hexDigit (x.val / 16) :: hexDigit (x.val % 16) :: encodeHex b := rfl
    rw [this]
    simp only [isAscii, List.all_cons, Bool.and_eq_true, decide_eq_true_eq] at ih ⊢
    exact ⟨hexDigit_ascii _ (by omega), hexDigit_ascii _ (by omega), ih⟩

theorem decodeHex_encodeHex (b : Bytes) : decodeHex (encodeHex b) = .ok b := by
  simp [decodeHex, encodeHex_ascii, unhexlify_encodeHex]

theorem encodeHex_length (b : Bytes) : (encodeHex b).length = 2 * b.length := by
  induction b with
  | nil => rfl
  | cons x b ih =>
    have : encodeHex (x :: b) = hexDigit (x.val / 16) :: hexDigit (x.val % 16) :: encodeHex b := rfl
    rw [this]; simp [ih]; omega

theorem encodeHex_append (a b : Bytes) : encodeHex (a ++ b) = encodeHex a ++ encodeHex b := by
  simp [encodeHex]

theorem encodeHex_inj {a b : Bytes} (h : encodeHex a = encodeHex b) : a = b := by
  have := unhexlify_encodeHex a
  rw [h, unhexlify_encodeHex] at this
  simpa using this.symm

end Bitforge

namespace Bitforge

/-- The 22 hexadecimal characters. -/
def hexChars : List Char :=
  ['0','1','2','3','4','5','6','7','8','9','a','b','c','d','e','f','A','B','C','D','E','F']

theorem char_of_toNat (c : Char) : Char.ofNat c.toNat = c := by
  simp

theorem ascii_cases {P : Char → Prop} (h : ∀ n : Fin 128, P (Char.ofNat n.val)) (c : Char) (hc : c.toNat < 128) :
    P c := by
  have := h ⟨c.toNat, hc⟩
  simpa using this

theorem hexValue_some_ascii {c : Char} {v : Nat} (h : hexValue c = some v) : c.toNat < 128 := by
  unfold hexValue at h
  have key : ∀ d : Char, d.toNat < 128 → c ≤ d → c.toNat < 128 := by
    intro d hd hcd
    exact Nat.lt_of_le_of_lt (show c.toNat ≤ d.toNat from hcd) hd
  split at h
  · next h1 => exact key '9' (by decide) h1.2
  · split at h
    · next h1 => exact key 'f' (by decide) h1.2
    · split at h
      · next h1 => exact key 'F' (by decide) h1.2
      · cases h

theorem hexValue_table : ∀ n : Fin 128,
    (hexValue (Char.ofNat n.val) = none ∧ Char.ofNat n.val ∉ hexChars) ∨
    (Char.ofNat n.val ∈ hexChars ∧ ∃ v : Fin 16, hexValue (Char.ofNat n.val) = some v.val ∧
      hexDigit v.val = (Char.ofNat n.val).toLower) := by
  decide +kernel

theorem hexChars_ascii : ∀ c ∈ hexChars, c.toNat < 128 := by decide

theorem hexValue_spec (c : Char) :
    (hexValue c = none ∧ c ∉ hexChars) ∨
    (c ∈ hexChars ∧ ∃ v, v < 16 ∧ hexValue c = some v ∧ hexDigit v = c.toLower) := by
  by_cases hc : c.toNat < 128
  · have := ascii_cases (P := fun c => (hexValue c = none ∧ c ∉ hexChars) ∨
      (c ∈ hexChars ∧ ∃ v : Fin 16, hexValue c = some v.val ∧ hexDigit v.val = c.toLower)) hexValue_table c hc
    rcases this with h | ⟨h1, v, h2, h3⟩
    · exact .inl h
    · exact .inr ⟨h1, v.val, v.isLt, h2, h3⟩
  · left
    refine ⟨?_, fun h => hc (hexChars_ascii c h)⟩
    cases h : hexValue c with
    | none => rfl
    | some v => exact absurd (hexValue_some_ascii h) hc

theorem unhexlify_iff : ∀ (t : Text) (b : Bytes),
    unhexlify t = some b ↔ (∀ c ∈ t, c ∈ hexChars) ∧ encodeHex b = t.map Char.toLower
  | [], b => by
    simp only [unhexlify]
    constructor
    · intro h; simp at h; subst h; simp [encodeHex]
    · rintro ⟨_, h⟩
      cases b with
      | nil => rfl
      | cons x b => simp [encodeHex] at h
  | [c], b => by
    simp only [unhexlify]
    constructor
    · intro h; cases h
    · rintro ⟨_, h⟩
      have := congrArg List.length h
      rw [encodeHex_length] at this
      simp at this
  | x :: y :: rest, b => by
    have ih := unhexlify_iff rest
    unfold unhexlify
    rcases hexValue_spec x with ⟨hx, hx'⟩ | ⟨hx', u, hu, hx, hxd⟩
    · rw [hx]
      simp only
      constructor
      · intro h; cases h
      · rintro ⟨h, _⟩; exact absurd (h x (by simp)) hx'
    · rcases hexValue_spec y with ⟨hy, hy'⟩ | ⟨hy', v, hv, hy, hyd⟩
      · rw [hx, hy]
        simp only
        constructor
        · intro h; cases h
        · rintro ⟨h, _⟩; exact absurd (h y (by simp)) hy'
      · rw [hx, hy]
        have henc : ∀ bs : Bytes, encodeHex (byte (u * 16 + v) :: bs) =
            x.toLower :: y.toLower :: encodeHex bs := by
          intro bs
          have e1 : (u * 16 + v) % 256 / 16 = u := by omega
          have e2 : (u * 16 + v) % 256 % 16 = v := by omega
          simp only [encodeHex, List.flatMap_cons, byte_val, e1, e2, hxd, hyd]
          rfl
        cases hr : unhexlify rest with
        | none =>
          simp only
          constructor
          · intro h; cases h
          · rintro ⟨h, he⟩
            exfalso
            cases b with
            | nil => simp [encodeHex] at he
            | cons z b =>
              have h2 : encodeHex (z :: b) = hexDigit (z.val / 16) :: hexDigit (z.val % 16) :: encodeHex b := rfl
              rw [h2] at he
              simp only [List.map_cons, List.cons.injEq] at he
              have := (ih b).2 ⟨fun c hc => h c (by simp [hc]), he.2.2⟩
              rw [hr] at this; cases this
        | some bs =>
          have ihbs := (ih bs).1 hr
          simp only [Option.some.injEq]
          constructor
          · rintro rfl
            refine ⟨?_, ?_⟩
            · intro c hc
              rcases List.mem_cons.1 hc with rfl | hc
              · exact hx'
              · rcases List.mem_cons.1 hc with rfl | hc
                · exact hy'
                · exact ihbs.1 c hc
            · rw [henc, ihbs.2]; rfl
          · rintro ⟨_, he⟩
            apply encodeHex_inj
            rw [henc, ihbs.2, he]; rfl

theorem decodeHex_iff (t : Text) (b : Bytes) :
    decodeHex t = .ok b ↔ (∀ c ∈ t, c ∈ hexChars) ∧ encodeHex b = t.map Char.toLower := by
  rw [← unhexlify_iff]
  unfold decodeHex
  by_cases ha : isAscii t = true
  · rw [ha]; simp only [if_true]
    cases unhexlify t <;> simp
  · simp only [ha, Bool.false_eq_true, if_false]
    constructor
    · intro h; cases h
    · intro h
      exfalso
      apply ha
      have := ((unhexlify_iff t b).1 h).1
      simp only [isAscii, List.all_eq_true, decide_eq_true_eq]
      intro c hc
      exact hexChars_ascii c (this c hc)

end Bitforge
