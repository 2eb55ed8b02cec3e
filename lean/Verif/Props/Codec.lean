import Verif.Proofs.Base58
import Verif.Proofs.Hex
import Verif.Proofs.ScriptNum
import Verif.Proofs.Buffer

/-! # C01–C09: codecs and the byte buffer -/

namespace Bitforge
open Spec

/-! ## C01 fixed-width integers -/

/-- C01. The fixed-width encoding has the requested length and denotes the number, in either byte order. -/
theorem C01_encode_value (n L : Nat) (h : n < 256 ^ L) :
    (encodeInt n true (some L)).length = L ∧ beValue (encodeInt n true (some L)) = n ∧
    (encodeInt n false (some L)).length = L ∧ leValue (encodeInt n false (some L)) = n := by
  refine ⟨encodeInt_length _ _ _, ?_, encodeInt_length _ _ _, ?_⟩
  · rw [beValue_encodeInt, Int.toNat_natCast, Nat.mod_eq_of_lt h]
  · rw [leValue_encodeInt, Int.toNat_natCast, Nat.mod_eq_of_lt h]

/-- C01. `decode_int` computes the positional value, in either byte order. -/
theorem C01_decode_value (b : Bytes) : decodeInt b true = beValue b ∧ decodeInt b false = leValue b :=
  ⟨decodeInt_big b, decodeInt_little b⟩

/-- C01. `decode_int(encode_int(n, length=L)) == n`. -/
theorem C01_decode_encode (n L : Nat) (be : Bool) (h : n < 256 ^ L) :
    decodeInt (encodeInt n be (some L)) be = n := by
  rw [decodeInt_encodeInt, Int.toNat_natCast, Nat.mod_eq_of_lt h]

/-- C01. `encode_int(decode_int(b), length=len(b)) == b`. -/
theorem C01_encode_decode (b : Bytes) (be : Bool) : encodeInt (decodeInt b be) be (some b.length) = b :=
  encodeInt_decodeInt b be

/-- C01. The length is the requested one for every integer, in range or not. -/
theorem C01_length (n : Int) (be : Bool) (L : Nat) : (encodeInt n be (some L)).length = L :=
  encodeInt_length n be L

/-- C01. The encoding without a length also round-trips. -/
theorem C01_default_roundtrip (n : Nat) (be : Bool) : decodeInt (encodeInt n be none) be = n := by
  rw [decodeInt_encodeInt_none, Int.toNat_natCast]

/-- C01. The encoding without a length has no superfluous zero byte: it is the shortest non-empty byte string with
that value, and the only one of its length. -/
theorem C01_default_shortest (n : Nat) (be : Bool) (b : Bytes) (hb : b ≠ []) (h : decodeInt b be = n) :
    (encodeInt n be none).length ≤ b.length ∧ ((encodeInt n be none).length = b.length → encodeInt n be none = b) := by
  refine ⟨?_, fun hl => decodeInt_inj _ _ be hl ((C01_default_roundtrip n be).trans h.symm)⟩
  have hlt : n < 256 ^ b.length := h ▸ decodeInt_lt b be
  have hpos : 0 < b.length := List.length_pos_iff.2 hb
  unfold encodeInt
  split
  · exact hpos
  · have := leDigits_length_le hlt
    cases be <;> simpa using this

example : encodeInt 0x0102 true (some 4) = [0, 0, 1, 2] ∧ (0x0102 : Nat) < 256 ^ 4 := by decide
example : decodeInt [1, 2] false = 0x0201 := by decide
example : decodeInt [0, 1, 2] = 0x0102 ∧ (encodeInt 0x0102 true none).length < [(0 : Byte), 1, 2].length := by decide

/-! ## C02 out-of-range integers are reduced silently -/

/-- C02. A number too large for the field is encoded as its remainder. -/
theorem C02_overflow_wraps (n L : Nat) (be : Bool) :
    encodeInt n be (some L) = encodeInt ((n % 256 ^ L : Nat) : Int) be (some L) := by
  apply decodeInt_inj _ _ be (by rw [encodeInt_length, encodeInt_length])
  rw [decodeInt_encodeInt, decodeInt_encodeInt, Int.toNat_natCast, Int.toNat_natCast, Nat.mod_mod]

/-- C02. A negative number is encoded as zero. -/
theorem C02_negative_zero (n : Int) (hn : n < 0) (L : Nat) (be : Bool) :
    encodeInt n be (some L) = List.replicate L 0 := by
  have h0 : n ≠ 0 := by omega
  have ht : n.toNat = 0 := by omega
  cases be <;> simp [encodeInt, h0, ht, leDigits_zero]

/-- C02. Hence distinct amounts collide: the encoder is not injective outside the field width. -/
theorem C02_collision (n L : Nat) (be : Bool) :
    encodeInt ((n + 256 ^ L : Nat) : Int) be (some L) = encodeInt n be (some L) := by
  rw [C02_overflow_wraps (n + 256 ^ L), C02_overflow_wraps n]; simp

example : encodeInt (2 ^ 64 + 5) false (some 8) = encodeInt 5 false (some 8) := by decide
example : encodeInt (-1) false (some 4) = [0, 0, 0, 0] := by decide

/-! ## C03 variable-length integers -/

/-- C03. Reading back a written varint returns it and leaves exactly what follows. -/
theorem C03_varint_roundtrip (n : Nat) (h : n < 2 ^ 64) (rest : Bytes) :
    Buffer.readVarint (encodeVarint n ++ rest) = (.ok n, rest) := readVarint_encodeVarint n h rest

/-- C03. The four lengths. -/
theorem C03_varint_length (n : Nat) : (encodeVarint n).length =
    if n < 253 then 1 else if n < 2 ^ 16 then 3 else if n < 2 ^ 32 then 5 else 9 := by
  rw [encodeVarint_nat]
  have e2 : (n ≤ 0xFFFF) ↔ n < 2 ^ 16 := by omega
  have e3 : (n ≤ 0xFFFFFFFF) ↔ n < 2 ^ 32 := by omega
  simp only [e2, e3]
  split
  · rfl
  · split
    · simp [encodeInt_length]
    · split <;> simp [encodeInt_length]

/-- C03. Prefix code: the encoding can be delimited in any stream. -/
theorem C03_varint_prefix_free (m n : Nat) (hm : m < 2 ^ 64) (hn : n < 2 ^ 64) (x y : Bytes)
    (h : encodeVarint m ++ x = encodeVarint n ++ y) : m = n ∧ x = y := by
  have h1 := readVarint_encodeVarint m hm x
  rw [h, readVarint_encodeVarint n hn y] at h1
  simp only [Prod.mk.injEq, Except.ok.injEq] at h1
  exact ⟨h1.1.symm, h1.2.symm⟩

example : encodeVarint 253 = [253, 253, 0] ∧ encodeVarint 70000 = [254, 112, 17, 1, 0] := by decide
example : Buffer.readVarint (encodeVarint 300 ++ [9, 9]) = (.ok 300, [9, 9]) := by decide

/-! ## C04 buffer -/

/-- Run a history of buffer operations on the model, collecting the results of the reads. -/
def runBuffer : List BufOp → Bytes → List (Except Err Bytes) × Bytes
  | [], s => ([], s)
  | .read n :: ops, s =>
    let (r, s') := Buffer.read n s
    let (rs, s'') := runBuffer ops s'
    (r :: rs, s'')
  | .write d :: ops, s => runBuffer ops (Buffer.write d s)

/-- C04. For every history, what was returned followed by what remains is the initial contents followed by
what was written: nothing is lost, duplicated or reordered. -/
theorem C04_fifo (ops : List BufOp) (s : Bytes) :
    returned (runBuffer ops s).1 ++ (runBuffer ops s).2 = s ++ written ops := by
  induction ops generalizing s with
  | nil => simp [runBuffer, returned, written]
  | cons op ops ih =>
    cases op with
    | read n =>
      simp only [runBuffer, written]
      by_cases h : s.length < n
      · rw [read_err n s h]; simp only [returned]; exact ih s
      · have : Buffer.read n s = (.ok (s.take n), s.drop n) := by simp [Buffer.read, h]
        rw [this]; simp only [returned, List.append_assoc]
        rw [ih, ← List.append_assoc, List.take_append_drop]
    | write d =>
      simp only [runBuffer, written]
      rw [ih]; simp [Buffer.write]

/-- C04. A read returns exactly `n` bytes from the front, or raises `InsufficientData(len, n)` and consumes
nothing, and which of the two happens depends only on the length. -/
theorem C04_read_exact (n : Nat) (s : Bytes) :
    (n ≤ s.length ∧ ∃ b, Buffer.read n s = (.ok b, s.drop n) ∧ b.length = n ∧ b ++ s.drop n = s) ∨
    (s.length < n ∧ Buffer.read n s = (.error (.insufficientData s.length n), s)) := by
  by_cases h : s.length < n
  · exact .inr ⟨h, read_err n s h⟩
  · refine .inl ⟨by omega, s.take n, by simp [Buffer.read, h], by simp; omega, by simp⟩

example : runBuffer [.read 2, .read 9, .write [7], .read 2] [1, 2, 3]
    = ([.ok [1, 2], .error (.insufficientData 1 9), .ok [3, 7]], []) := by decide

/-! ## C05 hexadecimal -/

/-- C05. `decode_hex(encode_hex(b)) == b`. -/
theorem C05_decode_encode (b : Bytes) : decodeHex (encodeHex b) = .ok b := decodeHex_encodeHex b

/-- C05. Which texts decode, and to what: even-length texts of hex digits, re-encoding to the lower-case text. -/
theorem C05_decode_iff (t : Text) (b : Bytes) :
    decodeHex t = .ok b ↔ (∀ c ∈ t, c ∈ hexChars) ∧ encodeHex b = t.map Char.toLower := decodeHex_iff t b

/-- C05. Everything else is rejected; ASCII text with InvalidHex. -/
theorem C05_reject (t : Text) (h : t.length % 2 = 1 ∨ ∃ c ∈ t, c ∉ hexChars) :
    decodeHex t = .error (if isAscii t then .invalidHex else .unicodeEncodeError) := by
  have hno : ∀ b, decodeHex t ≠ .ok b := by
    intro b hb
    obtain ⟨h1, h2⟩ := (decodeHex_iff t b).1 hb
    rcases h with h | ⟨c, hc, hn⟩
    · have := congrArg List.length h2
      rw [encodeHex_length] at this
      simp at this
      omega
    · exact hn (h1 c hc)
  unfold decodeHex at hno ⊢
  by_cases ha : isAscii t = true
  · simp only [ha, if_true] at hno ⊢
    cases hu : unhexlify t with
    | none => rfl
    | some b => exact absurd (by rw [hu]) (hno b)
  · simp [ha]

/-- C05. Even-length texts of hex digits are accepted. -/
theorem C05_accept (t : Text) (h : t.length % 2 = 0) (hc : ∀ c ∈ t, c ∈ hexChars) :
    ∃ b, decodeHex t = .ok b ∧ 2 * b.length = t.length := by
  have : ∀ (k : Nat) (t : Text), t.length = 2 * k → (∀ c ∈ t, c ∈ hexChars) →
      ∃ b, unhexlify t = some b ∧ b.length = k := by
    intro k
    induction k with
    | zero => intro t ht _; have : t = [] := List.eq_nil_of_length_eq_zero (by omega)
              subst this; exact ⟨[], rfl, rfl⟩
    | succ k ih =>
      intro t ht hc
      match t, ht, hc with
      | x :: y :: rest, ht, hc =>
        obtain ⟨b, hb, hl⟩ := ih rest (by simp at ht; omega) (fun c h => hc c (by simp [h]))
        rcases hexValue_spec x with ⟨_, hx⟩ | ⟨_, u, hu, hxu, _⟩
        · exact absurd (hc x (by simp)) hx
        · rcases hexValue_spec y with ⟨_, hy⟩ | ⟨_, v, hv, hyv, _⟩
          · exact absurd (hc y (by simp)) hy
          · exact ⟨_, by rw [unhexlify, hxu, hyv, hb], by simp [hl]⟩
  obtain ⟨b, hb, hl⟩ := this (t.length / 2) t (by omega) hc
  refine ⟨b, ?_, by omega⟩
  have ha : isAscii t = true := by
    simp only [isAscii, List.all_eq_true, decide_eq_true_eq]
    intro c h; exact hexChars_ascii c (hc c h)
  simp [decodeHex, ha, hb]

example : decodeHex "0aFf".toList = .ok [10, 255] ∧ encodeHex [10, 255] = "0aff".toList := by decide
example : decodeHex "0g".toList = .error .invalidHex := by decide

/-! ## C06 base 58 -/

/-- C06. Encoding computes the unique base-58 spelling. -/
theorem C06_encode_spec (b : Bytes) (t : Text) : b2aBase58 b = t ↔ Base58 b t := b2a_iff t b

/-- C06. Decoding succeeds with `b` exactly on the spelling of `b`. -/
theorem C06_decode_spec (b : Bytes) (t : Text) : a2bBase58 t = .ok b ↔ Base58 b t := a2b_iff t b

/-- C06. Both compositions are the identity. -/
theorem C06_bijection (b : Bytes) (t : Text) :
    a2bBase58 (b2aBase58 b) = .ok b ∧ (a2bBase58 t = .ok b → b2aBase58 b = t) :=
  ⟨a2b_b2a b, b2a_a2b⟩

/-- C06. A text decodes iff all its characters are in the alphabet; other ASCII text raises EncodingError. -/
theorem C06_decode_total (t : Text) :
    ((∀ c ∈ t, c ∈ alphabet58) → ∃ b, a2bBase58 t = .ok b) ∧
    (isAscii t = true → (∃ c ∈ t, c ∉ alphabet58) → a2bBase58 t = .error .encodingError) := by
  refine ⟨fun h => ?_, fun ha h => a2b_not_digits ha h⟩
  obtain ⟨ds, hds⟩ := digits58_exists h
  exact ⟨_, a2b_of_digits hds⟩

example : b2aBase58 [0, 0, 1, 2, 3] = "11Ldp".toList ∧ a2bBase58 "11Ldp".toList = .ok [0, 0, 1, 2, 3] := by
  decide +kernel
example : a2bBase58 "1O".toList = .error .encodingError := by decide +kernel

/-! ## C07 Base58Check -/

/-- C07. Round trip. -/
theorem C07_roundtrip (H : Hashes) (d : Bytes) : decodeBase58h H (encodeBase58h H d) = .ok d :=
  decode_encodeBase58h H d

/-- C07. Exactly one accepted spelling per payload. -/
theorem C07_canonical (H : Hashes) (t : Text) (d : Bytes) :
    decodeBase58h H t = .ok d ↔ t = encodeBase58h H d :=
  (decodeBase58h_iff H t d).trans eq_comm

/-- C07. Accepted texts are base-58 spellings of the payload followed by the first four bytes of its double
SHA-256. -/
theorem C07_checksum (H : Hashes) (t : Text) (d : Bytes) :
    decodeBase58h H t = .ok d ↔ Base58 (d ++ (H.sha256 (H.sha256 d)).take 4) t :=
  (decodeBase58h_iff H t d).trans (b2a_iff t _)

/-- C07. All other ASCII text raises InvalidBase58h. -/
theorem C07_reject (H : Hashes) (t : Text) (ha : isAscii t = true) (h : ∀ d, t ≠ encodeBase58h H d) :
    decodeBase58h H t = .error .invalidBase58h := by
  cases hd : decodeBase58h H t with
  | ok d => exact absurd ((C07_canonical H t d).1 hd) (h d)
  | error e =>
    rcases decodeBase58h_error H t e hd with rfl | ⟨_, h2⟩
    · rfl
    · rw [ha] at h2; cases h2

/-- C07. `is_hashed_base58_valid` is True of exactly the encodings, False of all other ASCII text, and raises
UnicodeDecodeError for all other text. -/
theorem C07_valid (H : Hashes) (t : Text) :
    (isHashedBase58Valid H t = .ok true ↔ ∃ d, t = encodeBase58h H d) ∧
    (isHashedBase58Valid H t = .ok false ↔ isAscii t = true ∧ ∀ d, t ≠ encodeBase58h H d) ∧
    (∀ e, isHashedBase58Valid H t = .error e ↔ isAscii t = false ∧ e = .unicodeDecodeError) := by
  cases ha : isAscii t with
  | false =>
    have hn : ∀ d, t ≠ encodeBase58h H d := by
      intro d hd
      have := (C07_canonical H t d).2 hd
      unfold decodeBase58h a2bHashedBase58 a2bBase58 at this
      rw [ha] at this
      cases this
    have hv : isHashedBase58Valid H t = .error .unicodeDecodeError := by
      unfold isHashedBase58Valid a2bHashedBase58 a2bBase58
      rw [ha]
      rfl
    simp [hv, hn, eq_comm]
  | true =>
    by_cases h : ∃ d, t = encodeBase58h H d
    · obtain ⟨d, hd⟩ := h
      have hv : isHashedBase58Valid H t = .ok true := by
        have := (C07_canonical H t d).2 hd
        unfold decodeBase58h at this
        unfold isHashedBase58Valid
        cases hx : a2bHashedBase58 H t with
        | ok b => rfl
        | error e => rw [hx] at this; cases e <;> cases this
      rw [hv]
      exact ⟨⟨fun _ => ⟨d, hd⟩, fun _ => rfl⟩, ⟨nofun, fun h => absurd hd (h.2 d)⟩, fun e => ⟨nofun, nofun⟩⟩
    · have hn : ∀ d, t ≠ encodeBase58h H d := fun d hd => h ⟨d, hd⟩
      have hv : isHashedBase58Valid H t = .ok false := by
        have := C07_reject H t ha hn
        unfold decodeBase58h at this
        unfold isHashedBase58Valid
        cases hx : a2bHashedBase58 H t with
        | ok b => rw [hx] at this; cases this
        | error e =>
          rw [hx] at this
          have h1 : e = .encodingError ∨ e = .invalidBase58h := by
            cases e <;> first | exact .inl rfl | exact .inr rfl | cases this
          rcases h1 with rfl | rfl
          · rfl
          · unfold a2bHashedBase58 a2bBase58 at hx
            rw [if_pos ha] at hx
            split at hx
            · next h' =>
              split at h' <;> cases h'
              cases hx
            · split at hx <;> cases hx
      rw [hv]
      exact ⟨⟨nofun, fun h' => absurd h' h⟩, ⟨fun _ => ⟨rfl, hn⟩, fun _ => rfl⟩, fun e => ⟨nofun, nofun⟩⟩

example : decodeBase58h Hashes.toy (encodeBase58h Hashes.toy [0, 5]) = .ok [0, 5] := by decide +kernel
example : decodeBase58h Hashes.toy "11".toList = .error .invalidBase58h := by decide +kernel

example : isHashedBase58Valid .toy (encodeBase58h .toy [0, 5, 9]) = .ok true ∧
    isHashedBase58Valid .toy "1O".toList = .ok false ∧
    isHashedBase58Valid .toy "1é".toList = .error .unicodeDecodeError := by decide +kernel

/-! ## C08 script numbers -/

/-- C08. The encoding denotes the number and is a shortest one that does. -/
theorem C08_encode_shortest (n : Int) :
    scriptValue (encodeScriptNumber n) = n ∧ Shortest (encodeScriptNumber n) :=
  ⟨scriptValue_encode n, shortest_encode n⟩

/-- C08. Encoded numbers (`bytearray`s) decode to themselves, under the minimality requirement or not, whenever
`2·|n| < 256^(size-1)`. Partial with respect to C08: the limit is `len >= size`, so the default `size = 4`
accepts three bytes only, see `C08_four_byte_limit_refuted`. -/
theorem C08_roundtrip_partial (n : Int) (m : Bool) (size : Nat) (hs : 0 < size)
    (h : 2 * n.natAbs < 256 ^ (size - 1)) :
    decodeScriptNumber ⟨.bytearray, encodeScriptNumber n⟩ m size = .ok n := by
  have hl := (encodeScript_length_le n (size - 1)).2 h
  rcases decode_bytearray (encodeScriptNumber n) m size (by omega) with ⟨h1, _⟩ | ⟨_, _, h3⟩
  · rw [h1, scriptValue_encode]
  · exact absurd (minimalTest_encode n) h3

/-- C08. The range is exact: beyond it decoding raises InvalidScriptNumber. -/
theorem C08_limit_exact (n : Int) (m : Bool) (size : Nat) (hs : 0 < size)
    (h : 256 ^ (size - 1) ≤ 2 * n.natAbs) :
    decodeScriptNumber ⟨.bytearray, encodeScriptNumber n⟩ m size = .error .invalidScriptNumber := by
  have hl : ¬ (encodeScriptNumber n).length ≤ size - 1 := by
    rw [encodeScript_length_le]; omega
  unfold decodeScriptNumber
  rw [if_pos (by show _ ≤ (encodeScriptNumber n).length; omega)]

/-- C08, negation of the documented contract ("an error is thrown if trying to input a number bigger than 4
bytes"): some four-byte numbers in range are rejected with the default limit. -/
theorem C08_four_byte_limit_refuted :
    ∃ n : Int, n.natAbs ≤ 2 ^ 31 - 1 ∧ (encodeScriptNumber n).length ≤ 4 ∧
      decodeScriptNumber ⟨.bytearray, encodeScriptNumber n⟩ = .error .invalidScriptNumber :=
  ⟨2 ^ 31 - 1, by decide, by decide, by decide⟩

example : encodeScriptNumber (-255) = [255, 128] ∧ encodeScriptNumber 127 = [127] := by decide
example : decodeScriptNumber ⟨.bytearray, encodeScriptNumber (-8388607)⟩ true = .ok (-8388607) := by decide
example : (2 * (-8388607 : Int).natAbs < 256 ^ (4 - 1)) ∧ 256 ^ (4 - 1) ≤ 2 * (8388608 : Int).natAbs := by decide

/-! ## C09 minimal decoding -/

/-- C09. Under the minimality requirement exactly the shortest encodings are accepted. -/
theorem C09_minimal_iff (b : Bytes) (size : Nat) (n : Int) :
    decodeScriptNumber ⟨.bytearray, b⟩ true size = .ok n ↔
      b.length < size ∧ scriptValue b = n ∧ Shortest b := by
  by_cases hl : b.length < size
  · rcases decode_bytearray b true size hl with ⟨h1, h2⟩ | ⟨h1, _, h3⟩
    · rw [h1, Except.ok.injEq]
      have := (minimalTest_iff_shortest b).1 (h2 rfl)
      tauto
    · rw [h1]
      rw [minimalTest_iff_shortest] at h3
      constructor
      · intro h; cases h
      · rintro ⟨_, _, h⟩; exact absurd h h3
  · have : decodeScriptNumber ⟨.bytearray, b⟩ true size = .error .invalidScriptNumber := by
      unfold decodeScriptNumber; rw [if_pos (by simpa using hl)]
    rw [this]
    constructor
    · intro h; cases h
    · rintro ⟨h, _⟩; exact absurd h hl

/-- C09. In particular an accepted string is the encoder's output. -/
theorem C09_minimal_canonical (b : Bytes) (size : Nat) (n : Int)
    (h : decodeScriptNumber ⟨.bytearray, b⟩ true size = .ok n) : b = encodeScriptNumber n := by
  obtain ⟨_, rfl, h3⟩ := (C09_minimal_iff b size n).1 h
  exact (encode_scriptValue b ((minimalTest_iff_shortest b).2 h3)).symm

/-- C09. Without the requirement every string under the limit decodes to its value, and re-encoding does not
get longer. -/
theorem C09_lax (b : Bytes) (size : Nat) (h : b.length < size) :
    decodeScriptNumber ⟨.bytearray, b⟩ false size = .ok (scriptValue b) ∧
    (encodeScriptNumber (scriptValue b)).length ≤ b.length := by
  constructor
  · rcases decode_bytearray b false size h with ⟨h1, _⟩ | ⟨_, h2, _⟩
    · exact h1
    · cases h2
  · exact shortest_encode _ b (scriptValue_encode _).symm

/-- C09. Python 2 `str` operands (non-empty) are never decoded: indexing them gives strings. -/
theorem C09_str_operand (b : Bytes) (m : Bool) (size : Nat) (hb : b ≠ []) (n : Int) :
    decodeScriptNumber ⟨.str, b⟩ m size ≠ .ok n := by
  rw [decode_str b m size hb]; split <;> simp

example : decodeScriptNumber ⟨.bytearray, [1, 0]⟩ true = .error .invalidMinimalScriptNumber ∧
    decodeScriptNumber ⟨.bytearray, [1, 0]⟩ false = .ok 1 := by decide
example : ¬ Shortest [1, 0] := fun h => by have := h [1] (by decide); simp at this

end Bitforge
