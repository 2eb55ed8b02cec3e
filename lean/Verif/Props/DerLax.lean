import Verif.Props.KeySign

/-! # C69, C70: the texts of signatures that are read -/

namespace Bitforge

namespace Spec

/-- The length field of ASN.1 BER in definite form: one byte below 128, or the number of bytes plus 128 followed by the
length in big-endian order, not necessarily shortest (X.690, 8.1.3). -/
def BerLength (b : Bytes) (n : Nat) : Prop :=
  (∃ x : Byte, x.val < 128 ∧ b = [x] ∧ n = x.val) ∨
    ∃ (x : Byte) (c : Bytes), c ≠ [] ∧ x.val = 128 + c.length ∧ b = x :: c ∧ n = beValue c

/-- A tag, a length field, contents and what follows.  At the end the contents may be cut short. -/
def LaxTlv (tag : Byte) (content rest b : Bytes) : Prop :=
  ∃ (lb : Bytes) (n : Nat), BerLength lb n ∧ b = tag :: (lb ++ (content ++ rest)) ∧
    (content.length = n ∨ (content.length ≤ n ∧ rest = []))

/-- An integer that is not negative, with any number of zeros in front, and what follows. -/
def LaxInt (n : Int) (rest b : Bytes) : Prop :=
  ∃ (x : Byte) (t : Bytes), x.val < 128 ∧ LaxTlv 0x02 (x :: t) rest b ∧ n = (beValue (x :: t) : Int)

/-- A sequence of two integers. -/
def LaxSig (b : Bytes) (r s : Int) : Prop :=
  ∃ body rest : Bytes, LaxTlv 0x30 body [] b ∧ LaxInt r rest body ∧ LaxInt s [] rest

end Spec

open Spec ExtEcdsa

/-! ## Reading -/

/-- C70. `read_length` reads the definite lengths of BER. -/
theorem C70_length (b : Bytes) (n k : Nat) :
    readLength b = .ok (n, k) ↔ ∃ lb rest, b = lb ++ rest ∧ lb.length = k ∧ BerLength lb n := by
  constructor
  · intro h
    cases b with
    | nil => cases h
    | cons x rest =>
      unfold readLength at h
      simp only at h
      by_cases hx : x.val < 0x80
      · rw [if_pos hx] at h
        injection h with h
        injection h with h1 h2
        exact ⟨[x], rest, rfl, by simp [← h2], .inl ⟨x, hx, rfl, h1.symm⟩⟩
      · rw [if_neg hx] at h
        by_cases h2 : x.val - 0x80 > rest.length
        · rw [if_pos h2] at h; cases h
        rw [if_neg h2] at h
        by_cases h3 : x.val - 0x80 = 0
        · rw [if_pos h3] at h; cases h
        rw [if_neg h3] at h
        injection h with h
        injection h with h4 h5
        refine ⟨x :: rest.take (x.val - 0x80), rest.drop (x.val - 0x80), by simp, ?_, .inr ⟨x, rest.take (x.val - 0x80), ?_, ?_, rfl, ?_⟩⟩
        · simp only [List.length_cons, List.length_take]; omega
        · intro h0
          have := congrArg List.length h0
          simp only [List.length_take, List.length_nil] at this
          omega
        · simp only [List.length_take]; omega
        · rw [← h4, decodeInt_big]
  · rintro ⟨lb, rest, rfl, rfl, ⟨x, hx, rfl, rfl⟩ | ⟨x, c, hc, hx, rfl, rfl⟩⟩
    · exact readLength_short x rest hx
    · have hl : 0 < c.length := List.length_pos_iff.2 hc
      unfold readLength
      simp only [List.cons_append]
      rw [if_neg (by omega), if_neg (by simp; omega), if_neg (by omega), hx]
      simp [decodeInt_big, Nat.add_comm]

theorem berLength_ne {lb : Bytes} {n : Nat} (h : BerLength lb n) : lb ≠ [] := by
  rcases h with ⟨x, -, rfl, -⟩ | ⟨x, c, -, -, rfl, -⟩ <;> simp

theorem take_drop_iff (n : Nat) (content rest b : Bytes) :
    (content = b.take n ∧ rest = b.drop n) ↔ b = content ++ rest ∧ (content.length = n ∨ (content.length ≤ n ∧ rest = [])) := by
  constructor
  · rintro ⟨rfl, rfl⟩
    refine ⟨(List.take_append_drop n b).symm, ?_⟩
    by_cases h : n ≤ b.length
    · exact .inl (by simp [h])
    · exact .inr ⟨by simp, List.drop_eq_nil_of_le (by omega)⟩
  · rintro ⟨rfl, rfl | ⟨h, rfl⟩⟩
    · simp
    · simp [List.take_of_length_le h, List.drop_eq_nil_of_le h]

/-- The contents and what follows, read with `read_length`. -/
theorem laxTlv_iff (tag : Byte) (content rest b : Bytes) : LaxTlv tag content rest b ↔
    ∃ r n k, b = tag :: r ∧ readLength r = .ok (n, k) ∧ content = (r.drop k).take n ∧ rest = (r.drop k).drop n := by
  constructor
  · rintro ⟨lb, n, hl, rfl, h⟩
    refine ⟨_, n, lb.length, rfl, (C70_length _ _ _).2 ⟨lb, _, rfl, rfl, hl⟩, ?_⟩
    rw [List.drop_left]
    exact (take_drop_iff _ _ _ _).2 ⟨rfl, h⟩
  · rintro ⟨r, n, k, rfl, h, h1, h2⟩
    obtain ⟨lb, tl, rfl, rfl, hl⟩ := (C70_length _ _ _).1 h
    rw [List.drop_left] at h1 h2
    obtain ⟨rfl, h3⟩ := (take_drop_iff _ _ _ _).1 ⟨h1, h2⟩
    exact ⟨lb, n, hl, rfl, h3⟩

theorem removeSequence_iff (b body rest : Bytes) : removeSequence b = .ok (body, rest) ↔ LaxTlv 0x30 body rest b := by
  rw [laxTlv_iff]
  constructor
  · intro h
    cases b with
    | nil => cases h
    | cons x r =>
      unfold removeSequence at h
      simp only at h
      by_cases hx : x = 0x30
      · rw [if_neg (by simp [hx])] at h
        cases hr : readLength r with
        | error e => rw [hr] at h; cases h
        | ok p =>
          obtain ⟨n, k⟩ := p
          rw [hr] at h
          simp only [Except.map] at h
          injection h with h
          injection h with h1 h2
          exact ⟨r, n, k, by rw [hx], hr, h1.symm, h2.symm⟩
      · rw [if_pos hx] at h; cases h
  · rintro ⟨r, n, k, rfl, h, rfl, rfl⟩
    unfold removeSequence
    simp only
    rw [if_neg (by simp), h]
    rfl

theorem removeInteger_iff (b rest : Bytes) (n : Int) : removeInteger b = .ok (n, rest) ↔ LaxInt n rest b := by
  constructor
  · intro h
    cases b with
    | nil => cases h
    | cons y r =>
      unfold removeInteger at h
      simp only at h
      by_cases hy : y = 0x02
      · rw [if_neg (by simp [hy])] at h
        cases hr : readLength r with
        | error e => rw [hr] at h; cases h
        | ok p =>
          obtain ⟨l, k⟩ := p
          rw [hr] at h
          simp only at h
          cases hc : (r.drop k).take l with
          | nil => rw [hc] at h; cases h
          | cons x t =>
            rw [hc] at h
            simp only at h
            by_cases hx : x.val < 0x80
            · rw [if_pos hx] at h
              injection h with h
              injection h with h1 h2
              exact ⟨x, t, hx, (laxTlv_iff _ _ _ _).2 ⟨r, l, k, by rw [hy], hr, hc.symm, h2.symm⟩, by
                rw [← h1, decodeInt_big]⟩
            · rw [if_neg hx] at h; cases h
      · rw [if_pos hy] at h; cases h
  · rintro ⟨x, t, hx, ht, rfl⟩
    obtain ⟨r, l, k, rfl, hr, hc, rfl⟩ := (laxTlv_iff _ _ _ _).1 ht
    unfold removeInteger
    simp only
    rw [if_neg (by simp), hr]
    simp only
    rw [← hc]
    simp only
    rw [if_pos hx, decodeInt_big]

theorem sigdecode_iff (b : Bytes) (r s : Int) : sigdecodeDer b = .ok (r, s) ↔ LaxSig b r s := by
  unfold sigdecodeDer LaxSig
  simp only [bind, Except.bind]
  constructor
  · intro h
    cases h1 : removeSequence b with
    | error e => rw [h1] at h; cases h
    | ok p =>
      obtain ⟨body, emp⟩ := p
      rw [h1] at h
      simp only at h
      by_cases he : emp = []
      · rw [if_neg (by simp [he])] at h
        subst he
        cases h2 : removeInteger body with
        | error e => rw [h2] at h; cases h
        | ok p =>
          obtain ⟨r', rest⟩ := p
          rw [h2] at h
          simp only at h
          cases h3 : removeInteger rest with
          | error e => rw [h3] at h; cases h
          | ok p =>
            obtain ⟨s', e2⟩ := p
            rw [h3] at h
            simp only at h
            by_cases he : e2 = []
            · rw [if_neg (by simp [he])] at h
              subst he
              injection h with h
              injection h with h4 h5
              subst h4 h5
              exact ⟨body, rest, (removeSequence_iff _ _ _).1 h1, (removeInteger_iff _ _ _).1 h2, (removeInteger_iff _ _ _).1 h3⟩
            · rw [if_pos he] at h; cases h
      · rw [if_pos he] at h; cases h
  · rintro ⟨body, rest, h1, h2, h3⟩
    rw [(removeSequence_iff _ _ _).2 h1]
    simp only
    rw [if_neg (by simp), (removeInteger_iff _ _ _).2 h2]
    simp only
    rw [(removeInteger_iff _ _ _).2 h3]
    simp only
    rw [if_neg (by simp)]

/-- C70, for every text: `verify` accepts exactly the texts that hold a valid signature as a BER sequence of two integers,
where lengths need not be shortest, integers may have zeros in front, and contents may be cut short at the end. -/
theorem C70_accepts (H : Hashes) (key : PrivateKey) (h0 : 1 ≤ key.secret) (h1 : key.secret < secpN) (sig m : Bytes) :
    key.verify H sig m = .ok true ↔ ∃ r s, LaxSig sig r s ∧ ValidSig (key.secret • G) (beValue (H.sha1 m)) r s := by
  constructor
  · intro h
    obtain ⟨r, s, h2, h3⟩ := C70_sound H key h0 h1 sig m h
    exact ⟨r, s, (sigdecode_iff _ _ _).1 h2, h3⟩
  · rintro ⟨r, s, h2, h3⟩
    unfold PrivateKey.verify
    rw [(sigdecode_iff _ _ _).2 h2]
    rw [← intFromBytes_eq] at h3
    exact (priv_verify H key h0 h1 r s m).2 h3

/-- C70: a text of this form without a valid signature is `BadSignatureError`, or `TypeError` if the sum of points in the
equation is the point at infinity; every other text is an exception that the reading of the text raises. -/
theorem C70_rejects (H : Hashes) (key : PrivateKey) (h0 : 1 ≤ key.secret) (h1 : key.secret < secpN) (sig m : Bytes) :
    (∀ r s, LaxSig sig r s → ¬ ValidSig (key.secret • G) (beValue (H.sha1 m)) r s →
      key.verify H sig m = .error .badSignatureError ∨ (key.verify H sig m = .error .typeError ∧
        (beValue (H.sha1 m) : Int) • G + r • (key.secret • G) = 0)) ∧
    ((∀ r s, ¬ LaxSig sig r s) → ∃ e ∈ [Err.unexpectedDer, .indexError, .valueError, .assertionError],
      key.verify H sig m = .error e) := by
  constructor
  · intro r s hl hv
    have e : key.verify H sig m = key.verifyPair H (r, s) m := by
      unfold PrivateKey.verify
      rw [(sigdecode_iff _ _ _).2 hl]; rfl
    rw [e]
    obtain ⟨x, y, o, hm, hx, hx', _, _, hD⟩ := mul_G key.secret h0 h1
    have hp := denotes_isPoint hD
    rw [← natCast_zsmul, Int.toNat_of_nonneg (by omega)] at hp
    rw [← intFromBytes_eq] at hv ⊢
    have := C25_reject _ _ _ _ _ _ hp ((reduced_iff x).2 ⟨hx, hx'⟩) hv
    unfold PrivateKey.verifyPair ExtEcdsa.verifyPair
    simp only [hm, bind, Except.bind, Point.pair]
    rcases this with h | ⟨h, -, h2⟩
    · rw [h]; exact .inl rfl
    · rw [h]; exact .inr ⟨rfl, h2⟩
  · intro hn
    have hread : ∀ b e, readLength b = .error e → e ∈ [Err.unexpectedDer, .indexError, .valueError, .assertionError] := by
      intro b e h
      unfold readLength at h
      split at h
      · injection h with h; subst h; decide
      · simp only at h
        split at h
        · cases h
        split at h
        · injection h with h; subst h; decide
        split at h
        · injection h with h; subst h; decide
        · cases h
    have hseq : ∀ b e, removeSequence b = .error e → e ∈ [Err.unexpectedDer, .indexError, .valueError, .assertionError] := by
      intro b e h
      unfold removeSequence at h
      split at h
      · injection h with h; subst h; decide
      · rename_i rest
        split at h
        · injection h with h; subst h; decide
        · cases hr : readLength rest with
          | error x =>
            rw [hr] at h
            injection h with h; subst h; exact hread _ _ hr
          | ok p => rw [hr] at h; cases h
    have hint : ∀ b e, removeInteger b = .error e → e ∈ [Err.unexpectedDer, .indexError, .valueError, .assertionError] := by
      intro b e h
      unfold removeInteger at h
      split at h
      · injection h with h; subst h; decide
      · rename_i rest
        split at h
        · injection h with h; subst h; decide
        · split at h
          · rename_i hr
            injection h with h; subst h; exact hread _ _ hr
          · simp only at h
            split at h
            · injection h with h; subst h; decide
            · split at h
              · cases h
              · injection h with h; subst h; decide
    cases hs : sigdecodeDer sig with
    | ok p => obtain ⟨r, s⟩ := p; exact absurd ((sigdecode_iff _ _ _).1 hs) (hn r s)
    | error e =>
      refine ⟨e, ?_, by unfold PrivateKey.verify; rw [hs]; rfl⟩
      unfold sigdecodeDer at hs
      simp only [bind, Except.bind] at hs
      split at hs
      · rename_i h1; injection hs with hs; subst hs; exact hseq _ _ h1
      · split at hs
        · injection hs with hs; subst hs; decide
        · split at hs
          · rename_i h1; injection hs with hs; subst hs; exact hint _ _ h1
          · split at hs
            · rename_i h1; injection hs with hs; subst hs; exact hint _ _ h1
            · split at hs
              · injection hs with hs; subst hs; decide
              · cases hs

/-! ## Writing -/

theorem encodeInt_shape {r : Int} (h0 : 0 ≤ r) :
    ∃ (x : Byte) (t : Bytes), encodeInt r = x :: t ∧ (beValue (x :: t) : Int) = r ∧ (x.val = 0 → t = []) := by
  obtain ⟨L, hL⟩ : ∃ L : Nat, r < 256 ^ (L + 1) := by
    refine ⟨r.toNat, ?_⟩
    have h1 : r.toNat < 256 ^ r.toNat := Nat.lt_pow_self (by norm_num)
    have h2 : (256 : Nat) ^ r.toNat ≤ 256 ^ (r.toNat + 1) := Nat.pow_le_pow_right (by norm_num) (by omega)
    have : (r.toNat : Int) < 256 ^ (r.toNat + 1) := by exact_mod_cast lt_of_lt_of_le h1 h2
    omega
  obtain ⟨x, t, h1, -, h2, h3⟩ := encodeInt_parts h0 hL
  exact ⟨x, t, h1, h2, h3⟩

theorem int2byte_iff (n : Nat) (b : Byte) : int2byte n = .ok b ↔ b.val = n := by
  unfold int2byte
  split
  · rename_i h
    constructor
    · intro hb; injection hb with hb; rw [← hb, val_byte_lt h]
    · intro hb; congr 1; exact Fin.ext (by rw [val_byte_lt h, hb])
  · rename_i h
    constructor
    · intro hb; cases hb
    · intro hb; have := b.isLt; omega

theorem map_ok_iff {α β : Type} (x : Except Err α) (f : α → β) (b : β) : x.map f = .ok b ↔ ∃ a, x = .ok a ∧ f a = b := by
  cases x <;> simp [Except.map]

/-- C69. `encode_integer` writes shortest DER integers, and nothing else. -/
theorem C69_integer (r : Int) (b : Bytes) : derInteger r = .ok b ↔ ∃ c, DerOf r c ∧ Tlv 0x02 c b := by
  by_cases h0 : r < 0
  · unfold derInteger
    rw [if_pos h0]
    constructor
    · intro h; cases h
    · rintro ⟨c, hc, -⟩; have := hc.1; omega
  · obtain ⟨x, t, he, hv, hx⟩ := encodeInt_shape (r := r) (by omega)
    have key : ∃ c, DerOf r c ∧ derInteger r = (int2byte c.length).map fun l => 0x02 :: l :: c := by
      unfold derInteger
      rw [if_neg h0]
      simp only [he, List.headD_cons]
      split
      · next h7 =>
        refine ⟨x :: t, ?_, rfl⟩
        rw [← hv]
        refine derOf_beValue ((derNat_iff _).2 ⟨x, t, rfl, by omega, ?_⟩)
        intro h0 y u e
        rw [hx h0] at e
        cases e
      · next h7 =>
        refine ⟨0 :: x :: t, ?_, rfl⟩
        rw [← hv, show beValue (x :: t) = beValue (0 :: x :: t) by rw [beValue_cons 0]; simp]
        refine derOf_beValue ((derNat_iff _).2 ⟨0, x :: t, rfl, by simp, ?_⟩)
        intro _ y u e
        injection e with e1 e2
        subst e1
        omega
    obtain ⟨c, hc, e⟩ := key
    rw [e, map_ok_iff]
    constructor
    · rintro ⟨l, hl, rfl⟩
      exact ⟨c, hc, l, (int2byte_iff _ _).1 hl, rfl⟩
    · rintro ⟨c', hc', l, hl, rfl⟩
      rw [derOf_inj hc' hc] at hl ⊢
      exact ⟨l, (int2byte_iff _ _).2 hl, rfl⟩

theorem beValue_lower {x : Byte} {t : Bytes} (h : x.val ≠ 0) : 256 ^ t.length ≤ beValue (x :: t) := by
  rw [beValue_cons]
  have : 1 * 256 ^ t.length ≤ x.val * 256 ^ t.length := Nat.mul_le_mul_right _ (by omega)
  omega

theorem shortest_unique {n : Nat} {x : Byte} {t c : Bytes} (h : x.val ≠ 0) (hv : beValue (x :: t) = n) (hc : beValue c = n) :
    (x :: t).length ≤ c.length ∧ (c.length = (x :: t).length → c = x :: t) := by
  refine ⟨?_, fun hl => beValue_inj _ _ hl (hc.trans hv.symm)⟩
  have h1 := beValue_lower (t := t) h
  have h2 := beValue_lt c
  by_contra hlt
  simp only [List.length_cons] at hlt
  have : (256 : Nat) ^ c.length ≤ 256 ^ t.length := Nat.pow_le_pow_right (by norm_num) (by omega)
  omega

/-- C69. `encode_length` writes the shortest length field. -/
theorem C69_length (l : Nat) (hl : l < 256 ^ 127) (b : Bytes) :
    derLength l = .ok b ↔ BerLength b l ∧ ∀ b', BerLength b' l → b.length ≤ b'.length := by
  unfold derLength
  split
  · rename_i h
    have hb : ([byte l] : Bytes).length = 1 := rfl
    have hmin : BerLength [byte l] l := .inl ⟨byte l, by rw [val_byte_lt (by omega)]; exact h, rfl, by rw [val_byte_lt (by omega)]⟩
    rw [map_ok_iff]
    constructor
    · rintro ⟨x, hx, rfl⟩
      have hx := (int2byte_iff _ _).1 hx
      refine ⟨.inl ⟨x, by omega, rfl, hx.symm⟩, ?_⟩
      intro b' hb'
      exact List.length_pos_iff.2 (berLength_ne hb')
    · rintro ⟨⟨x, -, rfl, hx⟩ | ⟨x, c, hc, -, rfl, -⟩, hm⟩
      · exact ⟨x, (int2byte_iff _ _).2 hx.symm, rfl⟩
      · have := hm _ hmin
        have hp := List.length_pos_iff.2 hc
        simp only [List.length_cons, List.length_nil] at this
        omega
  · rename_i h
    obtain ⟨x, t, he, hv, hx⟩ := encodeInt_shape (r := (l : Int)) (by omega)
    have hv : beValue (x :: t) = l := by exact_mod_cast hv
    have hx0 : x.val ≠ 0 := by
      intro hz
      rw [hx hz, beValue_cons, hz] at hv
      simp [beValue, leValue] at hv
      omega
    have hlen : (x :: t).length ≤ 127 := by
      have := beValue_lower (t := t) hx0
      rw [hv] at this
      have := (Nat.pow_lt_pow_iff_right (a := 256) (by norm_num)).1 (lt_of_le_of_lt this hl)
      simp only [List.length_cons]; omega
    have hor : 0x80 ||| (x :: t).length = 128 + (x :: t).length := by
      generalize (x :: t).length = k at hlen
      have : ∀ k : Fin 128, 0x80 ||| k.val = 128 + k.val := by decide +kernel
      exact this ⟨k, by omega⟩
    simp only [he]
    rw [map_ok_iff, hor]
    have hmin : BerLength (byte (128 + (x :: t).length) :: x :: t) l :=
      .inr ⟨_, x :: t, by simp, val_byte_lt (by omega), rfl, hv.symm⟩
    constructor
    · rintro ⟨y, hy, rfl⟩
      have hy := (int2byte_iff _ _).1 hy
      refine ⟨.inr ⟨y, x :: t, by simp, hy, rfl, hv.symm⟩, ?_⟩
      rintro b' (⟨z, hz, rfl, hz'⟩ | ⟨z, c, -, -, rfl, hc⟩)
      · omega
      · have := (shortest_unique hx0 hv hc.symm).1
        simp only [List.length_cons] at this ⊢
        omega
    · rintro ⟨⟨z, hz, rfl, hz'⟩ | ⟨z, c, -, hz, rfl, hc⟩, hm⟩
      · omega
      · have h1 := hm _ hmin
        obtain ⟨h2, h3⟩ := shortest_unique hx0 hv hc.symm
        simp only [List.length_cons] at h1 h2 h3 hz ⊢
        have h3 := h3 (by omega)
        subst h3
        exact ⟨z, (int2byte_iff _ _).2 (by simpa using hz), rfl⟩

/-- A signature with long lengths, zeros in front of `r` and a sequence that ends early. -/
example : LaxSig [0x30, 0x82, 0xff, 0xff, 0x02, 0x03, 0x00, 0x00, 0x05, 0x02, 0x81, 0x01, 0x07] 5 7 :=
  (sigdecode_iff _ _ _).1 (by decide)

example : derLength 300 = .ok [0x82, 0x01, 0x2c] ∧ (300 : Nat) < 256 ^ 127 := ⟨by decide, by decide⟩

end Bitforge
