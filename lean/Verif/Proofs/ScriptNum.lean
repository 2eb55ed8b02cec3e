import Verif.Proofs.Digits

/-! Helper lemmas on script numbers. -/

namespace Bitforge
open Spec

theorem nil_or_append (b : Bytes) : b = [] ∨ ∃ f x, b = f ++ [x] := by
  rcases List.eq_nil_or_concat b with h | ⟨f, x, h⟩
  · exact .inl h
  · exact .inr ⟨f, x, by simpa using h⟩

theorem and80_ne (b : Byte) : (b.val &&& 0x80 ≠ 0) ↔ 128 ≤ b.val := by
  revert b; decide +kernel
theorem and80_eq (b : Byte) : (b.val &&& 0x80 == 0) = decide (b.val < 128) := by
  revert b; decide +kernel
theorem and7f (b : Byte) : b.val &&& 0x7f = b.val % 128 := by
  revert b; decide +kernel
theorem or80 (b : Byte) (h : b.val < 128) : b.val ||| 0x80 = b.val + 128 := by
  revert b; decide +kernel

theorem encodeInt_byte (n : Nat) (h : n < 256) : encodeInt (n : Int) = [byte n] := by
  by_cases h0 : n = 0
  · subst h0; rfl
  · have : leDigits n = [byte n] := by
      rw [leDigits_eq, Nat.digits_of_lt 256 n h0 h]; rfl
    simp [encodeInt, h0, this]

theorem encodeInt_nat_little (n : Nat) (h : n ≠ 0) : encodeInt (n : Int) false = leDigits n := by
  simp [encodeInt, h]

/-- A byte string without most-significant zero is the canonical encoding of its value. -/
theorem leDigits_leValue (b : Bytes) (h : ∀ hb : b ≠ [], b.getLast hb ≠ 0) : leDigits (leValue b) = b := by
  have hinj : Function.Injective (List.map (Fin.val : Byte → Nat)) :=
    List.map_injective_iff.2 Fin.val_injective
  apply hinj
  rw [map_val_leDigits, leValue_eq_ofDigits]
  apply Nat.digits_ofDigits 256 (by omega)
  · intro l hl; obtain ⟨x, _, rfl⟩ := List.mem_map.1 hl; exact x.isLt
  · intro hne
    rw [List.getLast_map]
    intro h0
    exact h (by simpa using hne) (Fin.ext h0)

theorem leValue_concat (f : Bytes) (x : Byte) : leValue (f ++ [x]) = leValue f + 256 ^ f.length * x.val := by
  simp [leValue_append, leValue]

theorem scriptValue_concat (f : Bytes) (x : Byte) :
    scriptValue (f ++ [x]) =
      if x.val < 128 then ((leValue f + 256 ^ f.length * (x.val % 128) : Nat) : Int)
      else -((leValue f + 256 ^ f.length * (x.val % 128) : Nat) : Int) := by
  simp [scriptValue]

theorem scriptValue_nil : scriptValue [] = 0 := rfl

theorem decode_str (b : Bytes) (m : Bool) (size : Nat) (h : b ≠ []) :
    decodeScriptNumber ⟨.str, b⟩ m size =
      if b.length ≥ size then .error .invalidScriptNumber else .error .typeError := by
  rcases nil_or_append b with hb | ⟨f, x, rfl⟩
  · exact absurd hb h
  · simp [decodeScriptNumber]

/-- The minimality test, as a proposition. -/
def MinimalTest (b : Bytes) : Prop :=
  match b.reverse with
  | [] => True
  | last :: rest => last.val % 128 ≠ 0 ∨ (∃ prev r, rest = prev :: r ∧ 128 ≤ prev.val)

theorem decode_bytearray (b : Bytes) (m : Bool) (size : Nat) (h : b.length < size) :
    (decodeScriptNumber ⟨.bytearray, b⟩ m size = .ok (scriptValue b) ∧ (m = true → MinimalTest b)) ∨
    (decodeScriptNumber ⟨.bytearray, b⟩ m size = .error .invalidMinimalScriptNumber ∧ m = true ∧
      ¬ MinimalTest b) := by
  rcases nil_or_append b with rfl | ⟨f, x, rfl⟩
  · left; simp [decodeScriptNumber, scriptValue, MinimalTest]; simp at h; omega
  · have hsz : ¬ ((f ++ [x]).length ≥ size) := by simpa using h
    have hx := x.isLt
    have hval : (if x.val &&& 0x80 ≠ 0 then
          Except.ok (-(decodeInt (f.reverse.reverse ++ encodeInt ((x.val &&& 0x7f : Nat) : Int)) (bigEndian := false) : Int))
        else .ok (decodeInt (f ++ [x]) (bigEndian := false) : Int) : Except Err Int)
        = .ok (scriptValue (f ++ [x])) := by
      rw [scriptValue_concat]
      by_cases hx' : 128 ≤ x.val
      · rw [if_pos ((and80_ne x).2 hx'), if_neg (by omega), and7f, encodeInt_byte _ (by omega),
          decodeInt_little, List.reverse_reverse, leValue_concat, byte_val, Nat.mod_eq_of_lt (a := x.val % 128) (by omega)]
      · rw [if_neg (by rw [and80_ne]; exact hx'), if_pos (by omega), decodeInt_little, leValue_concat,
          Nat.mod_eq_of_lt (a := x.val) (by omega)]
    cases hm : m with
    | false =>
      left
      refine ⟨?_, by simp⟩
      rw [← hval]
      simp only [decodeScriptNumber, hsz, if_false, List.reverse_append, List.reverse_cons, List.reverse_nil,
        List.nil_append, List.singleton_append, Bool.false_and, Bool.false_eq_true]
    | true =>
      by_cases ht : MinimalTest (f ++ [x])
      · left
        refine ⟨?_, fun _ => ht⟩
        rw [← hval]
        simp only [MinimalTest, List.reverse_append, List.reverse_cons, List.reverse_nil, List.nil_append,
          List.singleton_append] at ht
        simp only [decodeScriptNumber, hsz, if_false, List.reverse_append, List.reverse_cons, List.reverse_nil,
          List.nil_append, List.singleton_append, Bool.true_and]
        rw [if_neg]
        rcases ht with ht | ⟨prev, r, hr, hp⟩
        · rw [and7f]; simp [ht]
        · rw [hr]; simp only [and80_eq]; simp; intro _; omega
      · right
        refine ⟨?_, rfl, ht⟩
        simp only [MinimalTest, List.reverse_append, List.reverse_cons, List.reverse_nil, List.nil_append,
          List.singleton_append, not_or, not_exists] at ht
        simp only [decodeScriptNumber, hsz, if_false, List.reverse_append, List.reverse_cons, List.reverse_nil,
          List.nil_append, List.singleton_append, Bool.true_and]
        rw [if_pos]
        obtain ⟨h1, h2⟩ := ht
        rw [and7f]
        cases hr : f.reverse with
        | nil => simp; omega
        | cons prev r =>
          have := h2 prev r
          simp only [and80_eq]
          simp [hr] at this ⊢
          omega

theorem encodeScript_pos (n : Nat) (hn : n ≠ 0) (f : Bytes) (x : Byte) (h : leDigits n = f ++ [x]) :
    encodeScriptNumber (n : Int) = if 128 ≤ x.val then f ++ [x, 0] else f ++ [x] := by
  have h0 : ¬ ((n : Int) = 0) := by omega
  have h1 : (n : Int) > 0 := by omega
  simp only [encodeScriptNumber, h0, h1, if_false, if_true, encodeInt_nat_little n hn, h, List.reverse_append,
    List.reverse_cons, List.reverse_nil, List.nil_append, List.singleton_append, and80_ne]
  by_cases hx : 128 ≤ x.val
  · simp [hx]; rfl
  · simp [hx]

theorem encodeScript_neg (n : Nat) (hn : n ≠ 0) (f : Bytes) (x : Byte) (h : leDigits n = f ++ [x]) :
    encodeScriptNumber (-(n : Int)) = if 128 ≤ x.val then f ++ [x, 128] else f ++ [byte (x.val + 128)] := by
  have h0 : ¬ (-(n : Int) = 0) := by omega
  have h1 : ¬ (-(n : Int) > 0) := by omega
  simp only [encodeScriptNumber, h0, h1, if_false, Int.neg_neg, encodeInt_nat_little n hn, h, List.reverse_append,
    List.reverse_cons, List.reverse_nil, List.nil_append, List.singleton_append, and80_ne, List.reverse_reverse]
  by_cases hx : 128 ≤ x.val
  · have : encodeInt (0x80 : Int) = [128] := encodeInt_byte 128 (by omega)
    simp [hx, this]
  · have := or80 x (by omega)
    have h2 : encodeInt ((x.val + 128 : Nat) : Int) = [byte (x.val + 128)] := encodeInt_byte _ (by omega)
    simp only [hx, if_false, this, h2]

theorem leDigits_concat {n : Nat} (hn : n ≠ 0) :
    ∃ f x, leDigits n = f ++ [x] ∧ x ≠ 0 ∧ n = leValue f + 256 ^ f.length * x.val := by
  rcases nil_or_append (leDigits n) with h | ⟨f, x, h⟩
  · exact absurd h (leDigits_ne_nil hn)
  · refine ⟨f, x, h, ?_, ?_⟩
    · have := leDigits_getLast_ne_zero (leDigits_ne_nil hn)
      simpa [h] using this
    · have := leValue_leDigits n
      rw [h, leValue_concat] at this
      exact this.symm

/-- Encoding, by cases on the sign. -/
theorem int_cases (n : Int) : n = 0 ∨ (∃ k : Nat, k ≠ 0 ∧ n = k) ∨ (∃ k : Nat, k ≠ 0 ∧ n = -(k : Int)) := by
  rcases lt_trichotomy n 0 with h | h | h
  · right; right; exact ⟨n.natAbs, by omega, by omega⟩
  · left; exact h
  · right; left; exact ⟨n.natAbs, by omega, by omega⟩

theorem concat2 (f : Bytes) (x y : Byte) : f ++ [x, y] = (f ++ [x]) ++ [y] := by simp

theorem scriptValue_encode (n : Int) : scriptValue (encodeScriptNumber n) = n := by
  rcases int_cases n with rfl | ⟨k, hk, rfl⟩ | ⟨k, hk, rfl⟩
  · rfl
  · obtain ⟨f, x, h, hx, hv⟩ := leDigits_concat hk
    rw [encodeScript_pos k hk f x h]
    split
    · rw [concat2, scriptValue_concat, leValue_concat, ← hv]; simp
    · next hlt => rw [scriptValue_concat, if_pos (by omega), Nat.mod_eq_of_lt (a := x.val) (by omega), ← hv]
  · obtain ⟨f, x, h, hx, hv⟩ := leDigits_concat hk
    rw [encodeScript_neg k hk f x h]
    split
    · rw [concat2, scriptValue_concat, leValue_concat, ← hv]; simp
    · next hlt =>
      rw [scriptValue_concat, byte_val, Nat.mod_eq_of_lt (a := x.val + 128) (by omega), if_neg (by omega)]
      have : (x.val + 128) % 128 = x.val := by omega
      rw [this, ← hv]

theorem minimalTest_encode (n : Int) : MinimalTest (encodeScriptNumber n) := by
  rcases int_cases n with rfl | ⟨k, hk, rfl⟩ | ⟨k, hk, rfl⟩
  · trivial
  · obtain ⟨f, x, h, hx, hv⟩ := leDigits_concat hk
    have hx0 : x.val ≠ 0 := fun e => hx (Fin.ext e)
    rw [encodeScript_pos k hk f x h]
    split
    · next hge => simp [MinimalTest]; exact hge
    · next hlt => simp [MinimalTest]; left; omega
  · obtain ⟨f, x, h, hx, hv⟩ := leDigits_concat hk
    have hx0 : x.val ≠ 0 := fun e => hx (Fin.ext e)
    rw [encodeScript_neg k hk f x h]
    split
    · next hge => simp [MinimalTest]; exact hge
    · next hlt => simp [MinimalTest]; left; omega

theorem encode_scriptValue (b : Bytes) (h : MinimalTest b) : encodeScriptNumber (scriptValue b) = b := by
  rcases nil_or_append b with rfl | ⟨f, x, rfl⟩
  · rfl
  · have hxl := x.isLt
    simp only [MinimalTest, List.reverse_append, List.reverse_cons, List.reverse_nil, List.nil_append,
          List.singleton_append] at h
    have key : ∀ (x' : Byte), x'.val = x.val % 128 → (x'.val ≠ 0 → leDigits (leValue (f ++ [x'])) = f ++ [x']) ∧
        (leValue (f ++ [x']) = leValue f + 256 ^ f.length * (x.val % 128)) := by
      intro x' hx'
      refine ⟨fun h0 => leDigits_leValue _ (fun hne => ?_), ?_⟩
      · simp only [List.getLast_append_singleton]; intro e; exact h0 (by rw [e]; rfl)
      · rw [leValue_concat, hx']
    rw [scriptValue_concat]
    by_cases h0 : x.val % 128 = 0
    · obtain ⟨prev, r, hr, hp⟩ := h.resolve_left (by simp [h0])
      have hf : f = r.reverse ++ [prev] := by
        have := congrArg List.reverse hr; simpa using this
      have hd : leDigits (leValue f) = r.reverse ++ [prev] := by
        rw [← hf]; apply leDigits_leValue
        intro hne e
        have : f.getLast hne = prev := by simp [hf]
        rw [this] at e; rw [e] at hp; simp at hp
      have hn0 : leValue f ≠ 0 := by
        intro e; rw [e] at hd; simp [leDigits_zero] at hd
      simp only [h0, Nat.mul_zero, Nat.add_zero]
      split
      · have : x = 0 := Fin.ext (by simp; omega)
        rw [encodeScript_pos _ hn0 _ _ hd, if_pos hp, concat2, ← hf, this]
      · have : x = 128 := Fin.ext (by simp; omega)
        rw [encodeScript_neg _ hn0 _ _ hd, if_pos hp, concat2, ← hf, this]
    · have hb : (byte (x.val % 128)).val = x.val % 128 := by rw [byte_val]; omega
      obtain ⟨k1, k2⟩ := key (byte (x.val % 128)) hb
      have k1 := k1 (by omega)
      rw [k2] at k1
      have hn0 : leValue f + 256 ^ f.length * (x.val % 128) ≠ 0 := by
        intro e; rw [e] at k1; simp [leDigits_zero] at k1
      split
      · next hlt =>
        rw [encodeScript_pos _ hn0 _ _ k1, if_neg (by omega), Nat.mod_eq_of_lt hlt, byte_of_val]
      · next hge =>
        rw [encodeScript_neg _ hn0 _ _ k1, if_neg (by omega), hb]
        have : x.val % 128 + 128 = x.val := by omega
        rw [this, byte_of_val]

/-- Length of the encoding: `k` bytes suffice exactly for `|n| < 2^(8k-1)`. -/
theorem encodeScript_length_le (n : Int) (k : Nat) :
    (encodeScriptNumber n).length ≤ k ↔ 2 * n.natAbs < 256 ^ k := by
  have main : ∀ (m : Nat), m ≠ 0 → ∀ f x, leDigits m = f ++ [x] → x ≠ 0 → m = leValue f + 256 ^ f.length * x.val →
      ((if 128 ≤ x.val then f.length + 2 else f.length + 1) ≤ k ↔ 2 * m < 256 ^ k) := by
    intro m hm f x h hx hv
    have hx0 : x.val ≠ 0 := fun e => hx (Fin.ext e)
    have hf := leValue_lt f
    have hxl := x.isLt
    have hP : 0 < 256 ^ f.length := by positivity
    have h1 : (256 : Nat) ^ (f.length + 1) = 256 * 256 ^ f.length := by rw [pow_succ]; ring
    have h2 : (256 : Nat) ^ (f.length + 2) = 65536 * 256 ^ f.length := by rw [pow_succ, pow_succ]; ring
    have mono : ∀ {a b : Nat}, a ≤ b → (256 : Nat) ^ a ≤ 256 ^ b := fun h => Nat.pow_le_pow_right (by omega) h
    generalize hPe : (256 : Nat) ^ f.length = P at *
    split
    · next hge =>
      have hlow : 128 * P ≤ P * x.val := by rw [Nat.mul_comm]; exact Nat.mul_le_mul_left P hge
      have hup : P * x.val ≤ P * 255 := Nat.mul_le_mul_left P (by omega)
      constructor
      · intro hk; have := mono hk; omega
      · intro hk
        by_contra hc
        have : k ≤ f.length + 1 := by omega
        have := mono this
        omega
    · next hlt =>
      have hlow : P * 1 ≤ P * x.val := Nat.mul_le_mul_left P (by omega)
      have hup : P * x.val ≤ P * 127 := Nat.mul_le_mul_left P (by omega)
      constructor
      · intro hk; have := mono hk; omega
      · intro hk
        by_contra hc
        have : k ≤ f.length := by omega
        have := mono this
        omega
  rcases int_cases n with rfl | ⟨m, hm, rfl⟩ | ⟨m, hm, rfl⟩
  · simp [encodeScriptNumber]
  · obtain ⟨f, x, h, hx, hv⟩ := leDigits_concat hm
    rw [encodeScript_pos m hm f x h, Int.natAbs_natCast, ← main m hm f x h hx hv]
    split <;> simp
  · obtain ⟨f, x, h, hx, hv⟩ := leDigits_concat hm
    rw [encodeScript_neg m hm f x h, Int.natAbs_neg, Int.natAbs_natCast, ← main m hm f x h hx hv]
    split <;> simp

/-- A script number of `k` bytes has magnitude below `2^(8k-1)`. -/
theorem scriptValue_bound (b : Bytes) : 2 * (scriptValue b).natAbs < 256 ^ b.length := by
  rcases nil_or_append b with rfl | ⟨f, x, rfl⟩
  · simp [scriptValue]
  · have hf := leValue_lt f
    have hm : x.val % 128 ≤ 127 := by omega
    have hup : 256 ^ f.length * (x.val % 128) ≤ 256 ^ f.length * 127 := Nat.mul_le_mul_left _ hm
    have h1 : (256 : Nat) ^ (f ++ [x]).length = 256 * 256 ^ f.length := by simp [pow_succ]; ring
    rw [scriptValue_concat, h1]
    split <;> omega

theorem shortest_encode (n : Int) : Shortest (encodeScriptNumber n) := by
  intro b hb
  rw [scriptValue_encode] at hb
  rw [encodeScript_length_le, ← hb]
  exact scriptValue_bound b

theorem minimalTest_iff_shortest (b : Bytes) : MinimalTest b ↔ Shortest b := by
  constructor
  · intro h; rw [← encode_scriptValue b h]; exact shortest_encode _
  · intro h
    by_contra hc
    rcases nil_or_append b with rfl | ⟨f, x, rfl⟩
    · exact hc trivial
    · have hx := x.isLt
      simp only [MinimalTest, List.reverse_append, List.reverse_cons, List.reverse_nil, List.nil_append,
          List.singleton_append, not_or, not_exists] at hc
      obtain ⟨h1, h2⟩ := hc
      have h1 : x.val % 128 = 0 := by omega
      -- the number fits in one byte less
      have hv : scriptValue (f ++ [x]) = if x.val < 128 then (leValue f : Int) else -(leValue f : Int) := by
        rw [scriptValue_concat, h1]; simp
      have hb : 2 * (leValue f) < 256 ^ f.length := by
        rcases nil_or_append f with rfl | ⟨g, y, rfl⟩
        · simp [leValue]
        · have hy : y.val < 128 := by
            have := h2 y g.reverse; simp at this; exact this
          have hg := leValue_lt g
          have hup : 256 ^ g.length * y.val ≤ 256 ^ g.length * 127 := Nat.mul_le_mul_left _ (by omega)
          rw [leValue_concat]
          have h1 : (256 : Nat) ^ (g ++ [y]).length = 256 * 256 ^ g.length := by simp [pow_succ]; ring
          rw [h1]; omega
      have hl := h (encodeScriptNumber (scriptValue (f ++ [x]))) (scriptValue_encode _)
      have hl2 : (encodeScriptNumber (scriptValue (f ++ [x]))).length ≤ f.length := by
        rw [encodeScript_length_le, hv]; split <;> simpa using hb
      simp at hl
      omega

end Bitforge
