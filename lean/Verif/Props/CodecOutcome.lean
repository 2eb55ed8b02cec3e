import Verif.Props.Writers
import Verif.Props.UtilsEncoding
import Verif.Props.IntBytes

/-! # C127: what the encoders, decoders and utilities answer in every case -/

namespace Bitforge.Codecs
open Spec Utils IntBytes

/-! ## The outcomes

Integers are any integers, negative or too large; byte strings and texts are any. -/

/-- Bytes in the order asked for, from those least significant first. -/
def inOrder (big : Bool) (b : Bytes) : Bytes := if big then b.reverse else b

/-- `encode_int`: without a length, nothing for a negative number; with one, the number is cut to its width, a negative one
to zero. -/
inductive IntWritten (n : Int) (big : Bool) : Option Nat → Bytes → Prop
  | negative : n < 0 → IntWritten n big none []
  | zero : n = 0 → IntWritten n big none [0]
  | shortest {b : Bytes} {x : Byte} : 0 < n → (leValue (b ++ [x]) : Int) = n → x ≠ 0 →
      IntWritten n big none (inOrder big (b ++ [x]))
  | width {w} : IntWritten n big (some w) (inOrder big (le w n.toNat))

/-- `encode_varint`: nothing for a negative number. -/
inductive VarintWritten (n : Int) : Bytes → Prop
  | negative : n < 0 → VarintWritten n []
  | count : 0 ≤ n → VarintWritten n (compactSize n.toNat)

/-- `Buffer.read`: all of what was asked for, or nothing. -/
inductive BytesRead (w : Nat) (s : Bytes) : Except Err Bytes × Bytes → Prop
  | short : s.length < w → BytesRead w s (.error (.insufficientData s.length w), s)
  | read {b rest} : b.length = w → s = b ++ rest → BytesRead w s (.ok b, rest)

/-- The number of bytes that follow a marker. -/
inductive Marks : Byte → Nat → Prop
  | two : Marks 253 2
  | four : Marks 254 4
  | eight : Marks 255 8

/-- `Buffer.read_varint`: the marker is consumed even if the number is missing. -/
inductive VarintRead : Bytes → Except Err Nat × Bytes → Prop
  | empty : VarintRead [] (.error (.insufficientData 0 1), [])
  | single {x : Byte} {s} : x.val < 253 → VarintRead (x :: s) (.ok x.val, s)
  | short {x w s} : Marks x w → s.length < w → VarintRead (x :: s) (.error (.insufficientData s.length w), s)
  | marked {x w b rest} : Marks x w → b.length = w → VarintRead (x :: (b ++ rest)) (.ok (leValue b), rest)

/-- `a2b_base58`. -/
inductive PlainRead (t : Text) : Except Err Bytes → Prop
  | unicode : ¬ Ascii t → PlainRead t (.error .unicodeDecodeError)
  | digit {c} : Ascii t → c ∈ t → c ∉ alphabet58 → PlainRead t (.error .encodingError)
  | bytes {b} : Base58 b t → PlainRead t (.ok b)

/-- A test of a Base58Check text, given what is done with the payload. -/
inductive CheckTested (H : Hashes) (R : Bytes → Except Err Bool → Prop) (t : Text) : Except Err Bool → Prop
  | unicode : ¬ Ascii t → CheckTested H R t (.error .unicodeDecodeError)
  | check : Ascii t → (∀ d, ¬ Base58Check H d t) → CheckTested H R t (.ok false)
  | payload {d r} : Base58Check H d t → R d r → CheckTested H R t r

/-- `decode_script_number`: the limit comes first, and only the empty `str` is decoded. -/
inductive NumberRead (d : Data) (minimal : Bool) (size : Nat) : Except Err Int → Prop
  | limit : size ≤ d.val.length → NumberRead d minimal size (.error .invalidScriptNumber)
  | empty : d.val = [] → 0 < size → NumberRead d minimal size (.ok 0)
  | type : d.kind = .str → d.val ≠ [] → d.val.length < size → NumberRead d minimal size (.error .typeError)
  | padded : d.kind = .bytearray → d.val.length < size → minimal = true → ¬ Shortest d.val →
      NumberRead d minimal size (.error .invalidMinimalScriptNumber)
  | value : d.kind = .bytearray → d.val.length < size → (minimal = true → Shortest d.val) →
      NumberRead d minimal size (.ok (scriptValue d.val))

/-- `to_bytes_32`. -/
inductive WordWritten (v : Int) : Except Err Bytes → Prop
  | wide : 2 ^ 256 ≤ v → WordWritten v (.error .valueError)
  | word : v < 2 ^ 256 → WordWritten v (.ok (be 32 v.toNat))

/-- `from_bytes_32`: a `bytearray` is refused, with a message that cannot be made if it has a byte of 128 or more. -/
inductive WordRead (d : Data) : Except Err Nat → Prop
  | length : d.val.length ≠ 32 → WordRead d (.error .valueError)
  | type : d.val.length = 32 → d.kind = .bytearray → Seven d.val → WordRead d (.error .encodingError)
  | message : d.val.length = 32 → d.kind = .bytearray → ¬ Seven d.val → WordRead d (.error .unicodeDecodeError)
  | value : d.val.length = 32 → d.kind = .str → WordRead d (.ok (beValue d.val))

/-- A public pair from bytes of a given type.  Those of a `bytearray` are never a pair.  If there is no point with the
first coordinate the answer is not a point: the second is 0 or the prime, after the parity asked for. -/
inductive PairRead : Data → Except Err (Int × Int) → Prop
  | short {k b} : b.length < 33 → PairRead ⟨k, b⟩ (.error .valueError)
  | type {v x rest} : x.length = 32 → Seven x → PairRead ⟨.bytearray, v :: (x ++ rest)⟩ (.error .encodingError)
  | message {v x rest} : x.length = 32 → ¬ Seven x → PairRead ⟨.bytearray, v :: (x ++ rest)⟩ (.error .unicodeDecodeError)
  | version {v b} : 32 ≤ b.length → v ≠ 2 → v ≠ 3 → v ≠ 4 → PairRead ⟨.str, v :: b⟩ (.error .encodingError)
  | half {b} : 32 ≤ b.length → b.length < 64 → PairRead ⟨.str, 4 :: b⟩ (.error .valueError)
  | outside {x y rest} : x.length = 32 → y.length = 32 → ¬ OnSecp (beValue x) (beValue y) →
      PairRead ⟨.str, 4 :: (x ++ (y ++ rest))⟩ (.error .encodingError)
  | long {x y rest} : x.length = 32 → y.length = 32 → OnSecp (beValue x) (beValue y) →
      PairRead ⟨.str, 4 :: (x ++ (y ++ rest))⟩ (.ok (beValue x, beValue y))
  | noPoint {v x rest} {y : Int} : v = 2 ∧ y = 0 ∨ v = 3 ∧ y = 2 ^ 256 - 2 ^ 32 - 977 → x.length = 32 →
      (∀ y, ¬ OnSecp (beValue x) y) → PairRead ⟨.str, v :: (x ++ rest)⟩ (.ok (beValue x, y))
  | compressed {v x rest y} : v = 2 ∧ y % 2 = 0 ∨ v = 3 ∧ y % 2 = 1 → x.length = 32 → OnSecp (beValue x) y → reduced y →
      PairRead ⟨.str, v :: (x ++ rest)⟩ (.ok (beValue x, y))

/-- The parts of the payload of a wallet import text: 33 bytes and what follows, which makes the key compressed whatever it
is. -/
inductive PartsOf : Bytes → Except Err (Bytes × Nat × Bool) → Prop
  | short {d} : d.length < 33 → PartsOf d (.error .valueError)
  | plain {v k} : k.length = 32 → PartsOf (v :: k) (.ok ([v], beValue k, false))
  | compressed {v m k rest} : k.length = 32 → PartsOf (v :: (k ++ m :: rest)) (.ok ([v], beValue k, true))

/-- The same if the version is among the allowed. -/
inductive AllowedParts {α : Type} (allow : List Bytes) (f : Nat × Bool → α) (d : Bytes) : Except Err α → Prop
  | short {e} : PartsOf d (.error e) → AllowedParts allow f d (.error e)
  | refused {v s c} : PartsOf d (.ok (v, s, c)) → v ∉ allow → AllowedParts allow f d (.error .encodingError)
  | allowed {v s c} : PartsOf d (.ok (v, s, c)) → v ∈ allow → AllowedParts allow f d (.ok (f (s, c)))

/-- Is the version among the allowed? -/
inductive AllowedWif (allow : List Bytes) (d : Bytes) : Except Err Bool → Prop
  | short {e} : PartsOf d (.error e) → AllowedWif allow d (.error e)
  | refused {v s c} : PartsOf d (.ok (v, s, c)) → v ∉ allow → AllowedWif allow d (.ok false)
  | allowed {v s c} : PartsOf d (.ok (v, s, c)) → v ∈ allow → AllowedWif allow d (.ok true)

/-- `secret_exponent_to_wif`. -/
inductive WifText (H : Hashes) (s : Int) (c : Bool) (version : Bytes) : Except Err Text → Prop
  | wide : 2 ^ 256 ≤ s → WifText H s c version (.error .valueError)
  | text {t} : s < 2 ^ 256 → Base58Check H (version ++ (be 32 s.toNat ++ if c then [1] else [])) t →
      WifText H s c version (.ok t)

/-- The parts of the payload of an address: only addresses of keys are read, and the message of the error cannot always be
made. -/
inductive HashRead : Bytes → Except Err (Bytes × Bytes) → Prop
  | length {d} : d.length ≠ 21 → HashRead d (.error .encodingError)
  | version {v h} : h.length = 20 → (∀ test, v ≠ pick p2pkhVersions test) → v.val < 128 →
      HashRead (v :: h) (.error .encodingError)
  | message {v h} : h.length = 20 → 128 ≤ v.val → HashRead (v :: h) (.error .unicodeDecodeError)
  | parts {test h} : h.length = 20 → HashRead (pick p2pkhVersions test :: h) (.ok (h, [pick p2pkhVersions test]))

/-- The same if the version is the one expected. -/
inductive ExpectedHash (version : Bytes) (d : Bytes) : Except Err Bytes → Prop
  | fails {e} : HashRead d (.error e) → ExpectedHash version d (.error e)
  | refused {h v} : HashRead d (.ok (h, v)) → v ≠ version → ExpectedHash version d (.error .encodingError)
  | hash {h} : HashRead d (.ok (h, version)) → ExpectedHash version d (.ok h)

/-- Is the version among the bytes allowed? -/
inductive AllowedAddress (allow : Bytes) (d : Bytes) : Except Err Bool → Prop
  | message : HashRead d (.error .unicodeDecodeError) → AllowedAddress allow d (.error .unicodeDecodeError)
  | other : HashRead d (.error .encodingError) → AllowedAddress allow d (.ok false)
  | refused {h v} : HashRead d (.ok (h, [v])) → v ∉ allow → AllowedAddress allow d (.ok false)
  | allowed {h v} : HashRead d (.ok (h, [v])) → v ∈ allow → AllowedAddress allow d (.ok true)

/-- The payload of the address of a pair. -/
inductive PairPayload (H : Hashes) (pair : Int × Int) (c : Bool) (version : Bytes) : Except Err Bytes → Prop
  | fails {e} : SecWritten ⟨pair, .livenet, c⟩ (.error e) → PairPayload H pair c version (.error e)
  | payload {b} : SecWritten ⟨pair, .livenet, c⟩ (.ok b) → PairPayload H pair c version (.ok (version ++ H.ripemd160 (H.sha256 b)))

/-- `bytes_to_ints`. -/
inductive IntsOf (d : Data) : Except Err (List Nat) → Prop
  | values : d.kind = .str ∨ d.val = [] → IntsOf d (.ok (d.val.map Fin.val))
  | type : d.kind = .bytearray → d.val ≠ [] → IntsOf d (.error .typeError)

/-- `bytes_from_ints`. -/
inductive BytesOf (l : List Int) : Except Err Bytes → Prop
  | bytes {b : Bytes} : b.map (fun x => (x.val : Int)) = l → BytesOf l (.ok b)
  | outside {n} : n ∈ l → n < 0 ∨ 256 ≤ n → BytesOf l (.error .valueError)

/-- `from_bytes`: signed numbers are never read. -/
inductive ValueOf (d : Data) (big : Bool) : Bool → Except Err Nat → Prop
  | type {signed} : d.kind = .bytearray → d.val ≠ [] → ValueOf d big signed (.error .typeError)
  | index : d.val = [] → big = true → ValueOf d big true (.error .indexError)
  | signed : d.val ≠ [] ∨ big = false → ValueOf d big true (.error .typeError)
  | value : d.kind = .str ∨ d.val = [] → ValueOf d big false (.ok (leValue (inOrder big d.val)))

/-- `int_to_bytes`: nothing for numbers below one. -/
inductive LeastBytes (n : Int) : Bytes → Prop
  | none : n ≤ 0 → LeastBytes n []
  | least {x b} : (beValue (x :: b) : Int) = n → x ≠ 0 → LeastBytes n (x :: b)

/-! ## Integers -/

theorem inOrder_inj {big : Bool} {a b : Bytes} (h : inOrder big a = inOrder big b) : a = b := by
  cases big
  · exact h
  · exact List.reverse_injective h

theorem encodeInt_some (n : Int) (big : Bool) (w : Nat) : encodeInt n big (some w) = inOrder big (le w n.toNat) := by
  cases big
  · exact encodeInt_le n w
  · rw [encodeInt_big_eq, encodeInt_le]
    rfl

theorem encodeInt_none {n : Int} (big : Bool) (h : n ≠ 0) : encodeInt n big none = inOrder big (leDigits n.toNat) := by
  unfold encodeInt
  rw [if_neg h]
  rfl

/-- C127. `encode_int`. -/
theorem C127_int (n : Int) (big : Bool) (w : Option Nat) (b : Bytes) : encodeInt n big w = b ↔ IntWritten n big w b := by
  refine graph (f := fun x : Int × Option Nat => encodeInt x.1 big x.2) (R := fun x b => IntWritten x.1 big x.2 b) ?_ ?_ (n, w) b
  · rintro ⟨n, w⟩ b h
    simp only at h ⊢
    cases h with
    | negative h =>
      rw [encodeInt_none big (by omega), show n.toNat = 0 by omega]
      cases big <;> rfl
    | zero h => subst h; rfl
    | @shortest b x h h1 h2 =>
      rw [encodeInt_none big (by omega)]
      rw [show n.toNat = leValue (b ++ [x]) by omega, leDigits_leValue _ (fun hb => by simpa using h2)]
    | width => exact encodeInt_some n big _
  · rintro ⟨n, w⟩
    simp only
    cases w with
    | some w => exact ⟨_, .width⟩
    | none =>
      rcases lt_trichotomy n 0 with h | h | h
      · exact ⟨_, .negative h⟩
      · exact ⟨_, .zero h⟩
      · obtain ⟨f, x, h1, h2, h3⟩ := leDigits_concat (n := n.toNat) (by omega)
        refine ⟨_, .shortest (b := f) (x := x) h ?_ h2⟩
        rw [← h1, leValue_leDigits]
        omega

example : IntWritten (-5) true none [] ∧ IntWritten 258 true none [1, 2] ∧ IntWritten 258 false (some 1) [2] ∧
    IntWritten (-5) false (some 2) [0, 0] :=
  ⟨(C127_int _ _ _ _).1 (by decide), (C127_int _ _ _ _).1 (by decide), (C127_int _ _ _ _).1 (by decide),
    (C127_int _ _ _ _).1 (by decide)⟩

/-- C127. `decode_int`. -/
theorem C127_value (b : Bytes) (big : Bool) : decodeInt b big = leValue (inOrder big b) := by
  cases big
  · exact decodeInt_little b
  · exact decodeInt_big b

example : decodeInt [1, 2] = 258 ∧ decodeInt [1, 2] false = 513 := by decide

/-- C127. `encode_varint`. -/
theorem C127_varint (n : Int) (b : Bytes) : encodeVarint n = b ↔ VarintWritten n b := by
  refine graph ?_ ?_ n b
  · intro n b h
    cases h with
    | negative h =>
      unfold encodeVarint
      rw [if_pos (by omega), encodeInt_none true (by omega), show n.toNat = 0 by omega]
      rfl
    | count h =>
      obtain ⟨m, rfl⟩ : ∃ m : Nat, n = m := ⟨n.toNat, by omega⟩
      exact encodeVarint_compact m
  · intro n
    by_cases h : n < 0
    · exact ⟨_, .negative h⟩
    · exact ⟨_, .count (by omega)⟩

example : VarintWritten (-1) [] ∧ VarintWritten 253 [253, 253, 0] ∧ VarintWritten (2 ^ 64) [255, 0, 0, 0, 0, 0, 0, 0, 0] :=
  ⟨(C127_varint _ _).1 (by decide), (C127_varint _ _).1 (by decide), (C127_varint _ _).1 (by decide)⟩

/-- C127. `Buffer.read`. -/
theorem C127_read (w : Nat) (s : Bytes) (r : Except Err Bytes × Bytes) : Buffer.read w s = r ↔ BytesRead w s r := by
  refine graph ?_ ?_ s r
  · intro s r h
    unfold Buffer.read
    cases h with
    | short h => rw [if_pos h]
    | @read b rest h h' =>
      subst h h'
      rw [if_neg (by simp)]
      simp
  · intro s
    by_cases h : s.length < w
    · exact ⟨_, .short h⟩
    · exact ⟨_, .read (b := s.take w) (rest := s.drop w) (by simp; omega) (by simp)⟩

/-- C127. `Buffer.read_varint`. -/
theorem C127_read_varint (s : Bytes) (r : Except Err Nat × Bytes) : Buffer.readVarint s = r ↔ VarintRead s r := by
  have marked : ∀ {x w} (_ : Marks x w) (s : Bytes), Buffer.readVarint (x :: s) =
      Rd.bind (Buffer.read w) (fun b => Rd.pure (decodeInt b (bigEndian := false))) s := by
    intro x w h s
    rw [readVarint_cons]
    cases h <;> rfl
  refine graph ?_ ?_ s r
  · intro s r h
    cases h with
    | empty => exact readVarint_nil
    | single h => rw [readVarint_cons, if_pos h]
    | short h h' => rw [marked h, Rd.bind_err ((C127_read _ _ _).2 (.short h'))]
    | marked h h' =>
      rw [marked h, Rd.bind_ok ((C127_read _ _ _).2 (.read h' rfl)), decodeInt_little]
      rfl
  · intro s
    cases s with
    | nil => exact ⟨_, .empty⟩
    | cons x s =>
      have any : ∀ {w}, Marks x w → ∃ r, VarintRead (x :: s) r := by
        intro w h
        by_cases hl : s.length < w
        · exact ⟨_, .short h hl⟩
        · rw [← List.take_append_drop w s]
          exact ⟨_, .marked h (by simp; omega)⟩
      by_cases h : x.val < 253
      · exact ⟨_, .single h⟩
      · have : x = 253 ∨ x = 254 ∨ x = 255 := by
          have := x.isLt
          have h3 : x.val = 253 ∨ x.val = 254 ∨ x.val = 255 := by omega
          exact h3.imp Fin.ext (Or.imp Fin.ext Fin.ext)
        rcases this with rfl | rfl | rfl
        · exact any .two
        · exact any .four
        · exact any .eight

example : VarintRead [253, 7] (.error (.insufficientData 1 2), [7]) ∧ VarintRead [253, 7, 0, 9] (.ok 7, [9]) :=
  ⟨.short .two (by decide), .marked (b := [7, 0]) .two rfl⟩

/-! ## Texts -/

/-- C127. `decode_hex`. -/
theorem C127_hex (t : Text) (r : Except Err Bytes) : decodeHex t = r ↔ HexOutcome .invalidHex (fun b r => r = .ok b) t r := by
  refine hex_outcome (f := decodeHex) (g := .ok) (fun b r => eq_comm) (fun t => ?_) t r
  cases decodeHex t with
  | ok b => rfl
  | error e => cases e <;> rfl

/-- C127. `encode_hex`. -/
theorem C127_to_hex (b : Bytes) : encodeHex b = hexText b := (hexText_eq b).symm

/-- C127. `a2b_base58` and `b2a_base58`. -/
theorem C127_base58 (t : Text) (r : Except Err Bytes) (b : Bytes) : (a2bBase58 t = r ↔ PlainRead t r) ∧
    (b2aBase58 b = t ↔ Base58 b t) := by
  refine ⟨?_, C06_encode_spec b t⟩
  refine graph ?_ ?_ t r
  · intro t r h
    cases h with
    | unicode h =>
      unfold a2bBase58
      rw [(not_ascii_iff t).2 h]
      rfl
    | digit h h1 h2 => exact a2b_not_digits ((isAscii_iff t).2 h) ⟨_, h1, h2⟩
    | bytes h => exact (a2b_iff t _).2 h
  · intro t
    by_cases h : Ascii t
    swap
    · exact ⟨_, .unicode h⟩
    by_cases hc : ∀ c ∈ t, c ∈ alphabet58
    · obtain ⟨b, hb⟩ := (C06_decode_total t).1 hc
      exact ⟨_, .bytes ((a2b_iff t b).1 hb)⟩
    · push Not at hc
      obtain ⟨c, h1, h2⟩ := hc
      exact ⟨_, .digit h h1 h2⟩

theorem ascii_check {H : Hashes} {d : Bytes} {t : Text} (h : Base58Check H d t) : Ascii t := by
  by_contra hn
  have := a2b_of_check h
  unfold a2bHashedBase58 a2bBase58 at this
  rw [(not_ascii_iff t).2 hn] at this
  cases this

example : PlainRead "1O".toList (.error .encodingError) ∧ PlainRead "é".toList (.error .unicodeDecodeError) ∧
    PlainRead "11Ldp".toList (.ok [0, 0, 1, 2, 3]) :=
  ⟨(C127_base58 _ _ []).1.1 (by decide +kernel), (C127_base58 _ _ []).1.1 (by decide +kernel),
    (C127_base58 _ _ []).1.1 (by decide +kernel)⟩

/-- A function of the payload of a Base58Check text. -/
theorem hashed {α : Type} {H : Hashes} {f : Text → Except Err α} {g : Bytes → Except Err α}
    {R : Bytes → Except Err α → Prop} (hg : ∀ b r, g b = r ↔ R b r)
    (hf : ∀ t, f t = match a2bHashedBase58 H t with
      | .error e => .error e
      | .ok d => g d) (t : Text) (r : Except Err α) : f t = r ↔ CheckOutcome H .encodingError R t r := by
  refine graph ?_ ?_ t r
  · intro t r h
    rw [hf]
    rcases a2b_cases H t with ⟨d, hd, ha⟩ | ⟨hs, hn, ha⟩ | ⟨hs, hn, ha⟩
    · rw [ha]
      cases h with
      | unicode h => exact absurd (ascii_check hd) h
      | check h h' => exact absurd hd (h' d)
      | payload h h' =>
        have := a2b_of_check h
        rw [ha] at this
        cases this
        exact (hg _ _).2 h'
    · rw [ha]
      cases h with
      | unicode h => exact absurd ((isAscii_iff t).1 hs) h
      | check h h' => rfl
      | payload h h' => exact absurd h (hn _)
    · rw [ha]
      cases h with
      | unicode h => rfl
      | check h h' => exact absurd h ((not_ascii_iff t).1 hs)
      | payload h h' => exact absurd h (hn _)
  · intro t
    rcases a2b_cases H t with ⟨d, hd, ha⟩ | ⟨hs, hn, ha⟩ | ⟨hs, hn, ha⟩
    · exact ⟨_, .payload hd ((hg d _).1 rfl)⟩
    · exact ⟨_, .check ((isAscii_iff t).1 hs) hn⟩
    · exact ⟨_, .unicode ((not_ascii_iff t).1 hs)⟩

/-- EncodingError taken for False. -/
def verdict {α : Type} (k : α → Bool) : Except Err α → Except Err Bool
  | .ok a => .ok (k a)
  | .error .encodingError => .ok false
  | .error e => .error e

/-- A test of the payload of a Base58Check text, in which EncodingError is False. -/
theorem tested {α : Type} {H : Hashes} {f : Text → Except Err Bool} {g : Bytes → Except Err α} {k : α → Bool}
    {R : Bytes → Except Err Bool → Prop} (hg : ∀ b r, verdict k (g b) = r ↔ R b r)
    (hf : ∀ t, f t = verdict k (match a2bHashedBase58 H t with
      | .error e => .error e
      | .ok d => g d)) (t : Text) (r : Except Err Bool) : f t = r ↔ CheckTested H R t r := by
  refine graph ?_ ?_ t r
  · intro t r h
    rw [hf]
    rcases a2b_cases H t with ⟨d, hd, ha⟩ | ⟨hs, hn, ha⟩ | ⟨hs, hn, ha⟩
    · rw [ha]
      cases h with
      | unicode h => exact absurd (ascii_check hd) h
      | check h h' => exact absurd hd (h' d)
      | payload h h' =>
        have := a2b_of_check h
        rw [ha] at this
        cases this
        exact (hg _ _).2 h'
    · rw [ha]
      cases h with
      | unicode h => exact absurd ((isAscii_iff t).1 hs) h
      | check h h' => rfl
      | payload h h' => exact absurd h (hn _)
    · rw [ha]
      cases h with
      | unicode h => rfl
      | check h h' => exact absurd h ((not_ascii_iff t).1 hs)
      | payload h h' => exact absurd h (hn _)
  · intro t
    rcases a2b_cases H t with ⟨d, hd, ha⟩ | ⟨hs, hn, ha⟩ | ⟨hs, hn, ha⟩
    · exact ⟨_, .payload hd ((hg d _).1 rfl)⟩
    · exact ⟨_, .check ((isAscii_iff t).1 hs) hn⟩
    · exact ⟨_, .unicode ((not_ascii_iff t).1 hs)⟩

/-- C127. `a2b_hashed_base58`, `decode_base58h`, `is_hashed_base58_valid`, and the texts written. -/
theorem C127_check (H : Hashes) (t : Text) (d : Bytes) (r : Except Err Bytes) (v : Except Err Bool) :
    (a2bHashedBase58 H t = r ↔ CheckOutcome H .encodingError (fun d r => r = .ok d) t r) ∧
    (decodeBase58h H t = r ↔ CheckOutcome H .invalidBase58h (fun d r => r = .ok d) t r) ∧
    (isHashedBase58Valid H t = v ↔ CheckTested H (fun _ r => r = .ok true) t v) ∧
    (encodeBase58h H d = t ↔ Base58Check H d t) ∧ (b2aHashedBase58 H d = t ↔ Base58Check H d t) := by
  have hw : b2aHashedBase58 H d = t ↔ Base58Check H d t := by
    unfold b2aHashedBase58
    exact b2a_iff t _
  refine ⟨?_, ?_, ?_, hw, hw⟩
  · refine hashed (f := a2bHashedBase58 H) (g := .ok) (fun b r => eq_comm) (fun t => ?_) t r
    cases a2bHashedBase58 H t <;> rfl
  · refine check_outcome (f := decodeBase58h H) (g := .ok) (fun b r => eq_comm) (fun t => ?_) t r
    cases decodeBase58h H t with
    | ok b => rfl
    | error e => cases e <;> rfl
  · refine tested (f := isHashedBase58Valid H) (g := fun d => .ok d) (k := fun _ => true) (fun b r => eq_comm) (fun t => ?_) t v
    unfold isHashedBase58Valid
    cases a2bHashedBase58 H t with
    | ok b => rfl
    | error e => cases e <;> rfl

example : CheckTested .toy (fun _ r => r = .ok true) "1O".toList (.ok false) ∧
    CheckTested .toy (fun _ r => r = .ok true) (encodeBase58h .toy [5, 9]) (.ok true) :=
  ⟨(C127_check .toy _ [] (.ok []) _).2.2.1.1 (by decide +kernel), (C127_check .toy _ [] (.ok []) _).2.2.1.1 (by decide +kernel)⟩

/-! ## Script numbers -/

/-- C127. `decode_script_number`. -/
theorem C127_number (d : Data) (minimal : Bool) (size : Nat) (r : Except Err Int) :
    decodeScriptNumber d minimal size = r ↔ NumberRead d minimal size r := by
  refine graph (f := fun d => decodeScriptNumber d minimal size) (R := fun d r => NumberRead d minimal size r) ?_ ?_ d r
  · rintro ⟨k, b⟩ r h
    have run : ∀ (_ : k = .bytearray) (_ : b.length < size), decodeScriptNumber ⟨k, b⟩ minimal size = .ok (scriptValue b) ∧
        (minimal = true → Shortest b) ∨
        decodeScriptNumber ⟨k, b⟩ minimal size = .error .invalidMinimalScriptNumber ∧ minimal = true ∧ ¬ Shortest b := by
      rintro rfl h
      have := decode_bytearray b minimal size h
      rwa [minimalTest_iff_shortest] at this
    cases h with
    | limit h =>
      unfold decodeScriptNumber
      rw [if_pos h]
    | empty h h' =>
      simp only at h
      subst h
      unfold decodeScriptNumber
      rw [if_neg (by simp; omega)]
      rfl
    | type h h1 h2 =>
      simp only at h h1 h2
      subst h
      rw [decode_str b minimal size h1, if_neg (by omega)]
    | padded h h1 h2 h3 =>
      rcases run h h1 with ⟨_, h5⟩ | ⟨h4, _⟩
      · exact absurd (h5 h2) h3
      · exact h4
    | value h h1 h2 =>
      rcases run h h1 with ⟨h4, _⟩ | ⟨_, h4, h5⟩
      · exact h4
      · exact absurd (h2 h4) h5
  · rintro ⟨k, b⟩
    by_cases hl : size ≤ b.length
    · exact ⟨_, .limit hl⟩
    rw [not_le] at hl
    cases k with
    | str =>
      by_cases hb : b = []
      · subst hb
        exact ⟨_, .empty rfl (by simpa using hl)⟩
      · exact ⟨_, .type rfl hb hl⟩
    | bytearray =>
      by_cases hm : minimal = true → Shortest b
      · exact ⟨_, .value rfl hl hm⟩
      · push Not at hm
        exact ⟨_, .padded rfl hl hm.1 hm.2⟩

/-- C127. `encode_script_number`. -/
theorem C127_to_number (n : Int) (b : Bytes) : encodeScriptNumber n = b ↔ scriptValue b = n ∧ Shortest b := by
  constructor
  · rintro rfl
    exact C08_encode_shortest n
  · rintro ⟨rfl, h⟩
    exact encode_scriptValue b ((minimalTest_iff_shortest b).2 h)

example : NumberRead ⟨.bytearray, [1, 0]⟩ true 4 (.error .invalidMinimalScriptNumber) ∧
    NumberRead ⟨.bytearray, [1, 128]⟩ false 4 (.ok (-1)) ∧ NumberRead ⟨.str, [1]⟩ false 4 (.error .typeError) ∧
    NumberRead ⟨.str, [1]⟩ false 1 (.error .invalidScriptNumber) :=
  ⟨(C127_number _ _ _ _).1 (by decide), (C127_number _ _ _ _).1 (by decide), (C127_number _ _ _ _).1 (by decide),
    (C127_number _ _ _ _).1 (by decide)⟩

/-! ## Words and public pairs -/

/-- C127. `to_bytes_32`. -/
theorem C127_word (v : Int) (r : Except Err Bytes) : toBytes32 v = r ↔ WordWritten v r := by
  refine graph ?_ ?_ v r
  · intro v r h
    rw [toBytes32_graph]
    cases h with
    | wide h => rw [if_neg (by omega)]
    | word h => rw [if_pos h]
  · intro v
    by_cases h : v < 2 ^ 256
    · exact ⟨_, .word h⟩
    · exact ⟨_, .wide (by omega)⟩

theorem seven_iff (b : Bytes) : (b.all fun x => decide (x.val < 128)) = true ↔ Seven b := by
  unfold Seven
  simp [List.all_eq_true]

/-- C127. `from_bytes_32`. -/
theorem C127_from_word (d : Data) (r : Except Err Nat) : fromBytes32 d = r ↔ WordRead d r := by
  refine graph ?_ ?_ d r
  · rintro ⟨k, b⟩ r h
    cases h with
    | length h => cases k <;> simp only [fromBytes32_str, fromBytes32_bytearray] <;> rw [if_neg h]
    | type h h' h2 =>
      simp only at h'
      subst h'
      rw [fromBytes32_bytearray, if_pos h, if_pos ((seven_iff b).2 h2)]
    | message h h' h2 =>
      simp only at h'
      subst h'
      rw [fromBytes32_bytearray, if_pos h, if_neg (fun hb => h2 ((seven_iff b).1 hb))]
    | value h h' =>
      simp only at h'
      subst h'
      rw [fromBytes32_str, if_pos h]
  · rintro ⟨k, b⟩
    by_cases h : b.length = 32
    · cases k
      · exact ⟨_, .value h rfl⟩
      · by_cases hs : Seven b
        · exact ⟨_, .type h rfl hs⟩
        · exact ⟨_, .message h rfl hs⟩
    · exact ⟨_, .length h⟩

/-- C127. `public_pair_to_sec`. -/
theorem C127_pair (pair : Int × Int) (c : Bool) (r : Except Err Bytes) :
    publicPairToSec pair c = r ↔ SecWritten ⟨pair, .livenet, c⟩ r := C119_public ⟨pair, .livenet, c⟩ r

theorem noRoot {x : Int} (h : ∀ y, ¬ OnSecp x y) (e : Bool) :
    Ecdsa.publicPairForX secp x e = .ok (x, if e then 0 else 2 ^ 256 - 2 ^ 32 - 977) := by
  have hp2 : secp.p ≠ 2 := by decide
  have hac := alpha_cast x
  set alpha : Int := ((powMod x 3 secp.p : Int) + secp.a * x + secp.b) % (secp.p : Int) with ha
  by_cases hs : IsSquare (alpha : ZMod secp.p)
  · exfalso
    obtain ⟨b, -, -, hsq⟩ := modularSqrt_square hp2 alpha (by rw [hac]; exact neg_seven_not_cube _) hs
    refine h b ((onSecp_iff _ _).2 ?_)
    rw [secp_contains_iff, ← hac, ← hsq]
    push_cast
    rfl
  · have hb := modularSqrt_nonsquare hp2 alpha (Or.inr hs)
    unfold Ecdsa.publicPairForX
    rw [← ha]
    simp only [hb]
    cases e <;> rfl

theorem secStart (v : Byte) (x rest : Bytes) (hx : x.length = 32) : secToPublicPair ⟨.str, v :: (x ++ rest)⟩ =
    if v = 4 then
      match fromBytes32 ⟨.str, rest.take 32⟩ with
      | .error e => .error e
      | .ok y => if secp.containsPoint (beValue x) y then .ok ((beValue x : Int), (y : Int)) else .error .encodingError
    else if v = 2 ∨ v = 3 then Ecdsa.publicPairForX secp (beValue x) (decide (v = 2))
    else .error .encodingError := by
  have e1 : List.drop 1 (List.take 33 (v :: (x ++ rest))) = x := by
    simp [hx]
  have e2 : List.drop 33 (List.take 65 (v :: (x ++ rest))) = rest.take 32 := by
    simp [List.take_append, hx, List.take_of_length_le]
  unfold secToPublicPair
  simp only [Data.slice, e1, e2]
  rw [fromBytes32_str, if_pos hx]
  simp only [bind, Except.bind, List.take_succ_cons, List.take_zero, List.cons.injEq, and_true, Ecdsa.isPublicPairValid]
  cases fromBytes32 ⟨.str, List.take 32 rest⟩ <;> rfl

/-- C127. `sec_to_public_pair`. -/
theorem C127_from_sec (d : Data) (r : Except Err (Int × Int)) : secToPublicPair d = r ↔ PairRead d r := by
  have short : ∀ (k : Kind) (b : Bytes), b.length < 33 → secToPublicPair ⟨k, b⟩ = .error .valueError := by
    intro k b h
    unfold secToPublicPair
    have : fromBytes32 (Data.slice ⟨k, b⟩ 1 33) = .error .valueError :=
      (C127_from_word _ _).2 (.length (by simp only [Data.slice, List.length_drop, List.length_take]; omega))
    rw [this]
    rfl
  have slice : ∀ (v : Byte) (x rest : Bytes), x.length = 32 → Data.slice ⟨.bytearray, v :: (x ++ rest)⟩ 1 33 = ⟨.bytearray, x⟩ := by
    intro v x rest hx
    simp [Data.slice, hx]
  refine graph ?_ ?_ d r
  · intro d r h
    cases h with
    | short h => exact short _ _ h
    | @type v x rest hx h =>
      unfold secToPublicPair
      rw [slice v x rest hx, (C127_from_word ⟨.bytearray, x⟩ _).2 (.type hx rfl h)]
      rfl
    | @message v x rest hx h =>
      unfold secToPublicPair
      rw [slice v x rest hx, (C127_from_word ⟨.bytearray, x⟩ _).2 (.message hx rfl h)]
      rfl
    | @version v b h h2 h3 h4 =>
      have := secStart v (b.take 32) (b.drop 32) (by simp [h])
      rwa [List.take_append_drop, if_neg h4, if_neg (not_or.2 ⟨h2, h3⟩)] at this
    | @half b h h' =>
      have := secStart 4 (b.take 32) (b.drop 32) (by simp [h])
      rwa [List.take_append_drop, if_pos rfl, fromBytes32_str, if_neg (by simp only [List.length_take, List.length_drop]; omega)] at this
    | @outside x y rest hx hy h =>
      have := secStart 4 x (y ++ rest) hx
      rw [if_pos rfl, List.take_append_of_le_length (by omega), List.take_of_length_le (by omega), fromBytes32_str, if_pos hy] at this
      simp only at this
      rwa [if_neg (fun hc => h ((onSecp_iff _ _).2 hc))] at this
    | @long x y rest hx hy h =>
      have := secStart 4 x (y ++ rest) hx
      rw [if_pos rfl, List.take_append_of_le_length (by omega), List.take_of_length_le (by omega), fromBytes32_str, if_pos hy] at this
      simp only at this
      rwa [if_pos ((onSecp_iff _ _).1 h)] at this
    | @noPoint v x rest y hv hx h =>
      rw [secStart v x rest hx, noRoot h]
      rcases hv with ⟨rfl, rfl⟩ | ⟨rfl, rfl⟩ <;> rfl
    | @compressed v x rest y hv hx h hy =>
      have hv' : v = 2 ∨ v = 3 := hv.imp And.left And.left
      rw [secStart v x rest hx, if_neg (by rcases hv' with rfl | rfl <;> decide), if_pos hv']
      obtain ⟨y', hy', -, -, h1, h2⟩ := publicPairForX_spec (beValue x) (decide (v = 2))
      have hon := h2 y ((onSecp_iff _ _).1 h)
      obtain ⟨p1, p2, p3⟩ := h1 hon
      have heq : y' = y := y_unique hon ((onSecp_iff _ _).1 h) ⟨by omega, p2⟩ ((reduced_iff y).1 hy) (by
        rw [p3]
        rcases hv with ⟨rfl, h'⟩ | ⟨rfl, h'⟩
        · rw [h']; rfl
        · rw [h']; rfl)
      rw [hy', heq]
  · rintro ⟨k, b⟩
    by_cases hl : b.length < 33
    · exact ⟨_, .short hl⟩
    cases k with
    | bytearray =>
      cases b with
      | nil => simp at hl
      | cons v b =>
        have hx : (b.take 32).length = 32 := by simp only [List.length_cons] at hl; simp only [List.length_take]; omega
        rw [← List.take_append_drop 32 b]
        by_cases hs : Seven (b.take 32)
        · exact ⟨_, .type hx hs⟩
        · exact ⟨_, .message hx hs⟩
    | str =>
      cases b with
      | nil => simp at hl
      | cons v b =>
        have hb : 32 ≤ b.length := by simp only [List.length_cons] at hl; omega
        by_cases h4 : v = 4
        · subst h4
          by_cases h64 : b.length < 64
          · exact ⟨_, .half hb h64⟩
          have hs : b = b.take 32 ++ ((b.drop 32).take 32 ++ (b.drop 32).drop 32) := by
            rw [List.take_append_drop, List.take_append_drop]
          rw [hs]
          have hx : (b.take 32).length = 32 := by simp [hb]
          have hy : ((b.drop 32).take 32).length = 32 := by simp only [List.length_take, List.length_drop]; omega
          by_cases hon : OnSecp (beValue (b.take 32)) (beValue ((b.drop 32).take 32))
          · exact ⟨_, .long hx hy hon⟩
          · exact ⟨_, .outside hx hy hon⟩
        by_cases h23 : v = 2 ∨ v = 3
        swap
        · rw [not_or] at h23
          exact ⟨_, .version hb h23.1 h23.2 h4⟩
        have hx : (b.take 32).length = 32 := by simp [hb]
        rw [← List.take_append_drop 32 b]
        by_cases hon : ∃ y, OnSecp (beValue (b.take 32)) y
        swap
        · rcases h23 with rfl | rfl
          · exact ⟨_, .noPoint (.inl ⟨rfl, rfl⟩) hx fun y hy => hon ⟨y, hy⟩⟩
          · exact ⟨_, .noPoint (.inr ⟨rfl, rfl⟩) hx fun y hy => hon ⟨y, hy⟩⟩
        obtain ⟨y0, hy0⟩ := hon
        obtain ⟨y, -, -, -, h1, h2⟩ := publicPairForX_spec (beValue (b.take 32)) (decide (v = 2))
        have hon := h2 y0 ((onSecp_iff _ _).1 hy0)
        obtain ⟨p1, p2, p3⟩ := h1 hon
        refine ⟨_, .compressed (y := y) ?_ hx ((onSecp_iff _ _).2 hon) ((reduced_iff y).2 ⟨by omega, p2⟩)⟩
        rcases h23 with rfl | rfl
        · exact .inl ⟨rfl, p3⟩
        · exact .inr ⟨rfl, p3⟩

/-- Of the number 5 there is no point. -/
example : PairRead ⟨.str, 2 :: be 32 5⟩ (.ok (5, 0)) ∧ PairRead ⟨.str, 3 :: be 32 5⟩ (.ok (5, 2 ^ 256 - 2 ^ 32 - 977)) ∧
    PairRead ⟨.bytearray, 2 :: be 32 1⟩ (.error .encodingError) ∧ PairRead ⟨.str, 4 :: be 32 5⟩ (.error .valueError) :=
  ⟨(C127_from_sec _ _).1 (by decide +kernel), (C127_from_sec _ _).1 (by decide +kernel),
    (C127_from_sec _ _).1 (by decide +kernel), (C127_from_sec _ _).1 (by decide +kernel)⟩

/-- C127. `is_sec_compressed` looks at the first byte only. -/
theorem C127_compressed (d : Data) : isSecCompressed d = true ↔ ∃ v rest, d.val = v :: rest ∧ (v = 2 ∨ v = 3) := by
  unfold isSecCompressed
  rw [decide_eq_true_eq]
  cases d.val with
  | nil => simp
  | cons v rest => simp

/-! ## Wallet import texts -/

/-- The parts of a payload. -/
def partsOf (d : Bytes) : Except Err (Bytes × Nat × Bool) :=
  match fromBytes32 ⟨.str, (d.drop 1).take 32⟩ with
  | .error e => .error e
  | .ok secret => .ok (d.take 1, secret, decide ((d.drop 1).length > 32))

theorem parts_iff (d : Bytes) (r : Except Err (Bytes × Nat × Bool)) : partsOf d = r ↔ PartsOf d r := by
  refine graph ?_ ?_ d r
  · intro d r h
    unfold partsOf
    rw [fromBytes32_str]
    cases h with
    | short h => rw [if_neg (by simp only [List.length_take, List.length_drop]; omega)]
    | @plain v k h =>
      rw [if_pos (by simp [h])]
      simp [List.take_of_length_le (le_of_eq h), h]
    | @compressed v m k rest h =>
      rw [if_pos (by simp [h])]
      simp [List.take_append_of_le_length (le_of_eq h.symm), List.take_of_length_le (le_of_eq h), h]
  · intro d
    by_cases hl : d.length < 33
    · exact ⟨_, .short hl⟩
    cases d with
    | nil => simp at hl
    | cons v d =>
      simp only [List.length_cons] at hl
      rw [← List.take_append_drop 32 d]
      have hk : (d.take 32).length = 32 := by simp; omega
      cases hr : d.drop 32 with
      | nil => rw [List.append_nil]; exact ⟨_, .plain hk⟩
      | cons m rest => exact ⟨_, .compressed hk⟩

/-- C127. `wif_to_tuple_of_prefix_secret_exponent_compressed`. -/
theorem C127_wif_parts (H : Hashes) (t : Text) (r : Except Err (Bytes × Nat × Bool)) :
    wifToPrefixSecretCompressed H t = r ↔ CheckOutcome H .encodingError PartsOf t r :=
  hashed (f := wifToPrefixSecretCompressed H) parts_iff (fun _ => rfl) t r

/-- The parts if the version is allowed. -/
def allowedParts {α : Type} (allow : List Bytes) (f : Nat × Bool → α) (d : Bytes) : Except Err α :=
  match partsOf d with
  | .error e => .error e
  | .ok (p, s, c) => if p ∉ allow then .error .encodingError else .ok (f (s, c))

theorem allowed_iff {α : Type} (allow : List Bytes) (f : Nat × Bool → α) (d : Bytes) (r : Except Err α) :
    allowedParts allow f d = r ↔ AllowedParts allow f d r := by
  refine graph ?_ ?_ d r
  · intro d r h
    unfold allowedParts
    cases h with
    | short h => rw [(parts_iff d _).2 h]
    | refused h h' => rw [(parts_iff d _).2 h]; exact if_pos h'
    | allowed h h' => rw [(parts_iff d _).2 h]; exact if_neg (not_not.2 h')
  · intro d
    have hp := (parts_iff d _).1 rfl
    cases h : partsOf d with
    | error e => rw [h] at hp; exact ⟨_, .short hp⟩
    | ok x =>
      obtain ⟨v, s, c⟩ := x
      rw [h] at hp
      by_cases ha : v ∈ allow
      · exact ⟨_, .allowed hp ha⟩
      · exact ⟨_, .refused hp ha⟩

/-- C127. `wif_to_tuple_of_secret_exponent_compressed` and `wif_to_secret_exponent`. -/
theorem C127_wif_secret (H : Hashes) (t : Text) (allow : List Bytes) (r : Except Err (Nat × Bool)) (s : Except Err Nat) :
    (wifToSecretCompressed H t allow = r ↔ CheckOutcome H .encodingError (AllowedParts allow id) t r) ∧
    (wifToSecretExponent H t allow = s ↔ CheckOutcome H .encodingError (AllowedParts allow Prod.fst) t s) := by
  constructor
  · refine hashed (f := fun t => wifToSecretCompressed H t allow) (allowed_iff allow id) (fun t => ?_) t r
    simp only [wifToSecretCompressed, wifToPrefixSecretCompressed]
    cases a2bHashedBase58 H t with
    | error e => rfl
    | ok d =>
      show (match partsOf d with | .error e => _ | .ok (p, s, c) => _) = allowedParts allow id d
      unfold allowedParts
      rfl
  · refine hashed (f := fun t => wifToSecretExponent H t allow) (allowed_iff allow Prod.fst) (fun t => ?_) t s
    simp only [wifToSecretExponent, wifToSecretCompressed, wifToPrefixSecretCompressed]
    cases a2bHashedBase58 H t with
    | error e => rfl
    | ok d =>
      simp only [allowedParts, partsOf]
      cases fromBytes32 ⟨.str, (d.drop 1).take 32⟩ with
      | error e => rfl
      | ok s =>
        simp only
        by_cases ha : d.take 1 ∈ allow
        · rw [if_neg (not_not.2 ha), if_neg (not_not.2 ha)]
        · rw [if_pos ha, if_pos ha]

/-- C127. `is_valid_wif`. -/
theorem C127_wif_valid (H : Hashes) (t : Text) (allow : List Bytes) (r : Except Err Bool) :
    isValidWif H t allow = r ↔ CheckTested H (AllowedWif allow) t r := by
  refine tested (f := fun t => isValidWif H t allow) (g := allowedParts allow id) (k := fun _ => true) (fun d r => ?_) (fun t => ?_) t r
  · refine graph (f := fun d => verdict (fun _ => true) (allowedParts allow id d)) (R := AllowedWif allow) ?_ ?_ d r
    · intro d r h
      cases h with
      | short h =>
        rw [(allowed_iff allow id d _).2 (.short h)]
        cases h
        rfl
      | refused h h' => rw [(allowed_iff allow id d _).2 (.refused h h')]; rfl
      | allowed h h' => rw [(allowed_iff allow id d _).2 (.allowed h h')]; rfl
    · intro d
      have ha := (allowed_iff allow id d _).1 rfl
      generalize allowedParts allow id d = y at ha
      cases ha with
      | short h => exact ⟨_, .short h⟩
      | refused h h' => exact ⟨_, .refused h h'⟩
      | allowed h h' => exact ⟨_, .allowed h h'⟩
  · simp only [isValidWif, wifToSecretExponent]
    have : wifToSecretCompressed H t allow = match a2bHashedBase58 H t with
      | .error e => .error e
      | .ok d => allowedParts allow id d := by
      simp only [wifToSecretCompressed, wifToPrefixSecretCompressed]
      cases a2bHashedBase58 H t with
      | error e => rfl
      | ok d =>
        show (match partsOf d with | .error e => _ | .ok (p, s, c) => _) = allowedParts allow id d
        unfold allowedParts
        rfl
    rw [this]
    generalize (match a2bHashedBase58 H t with
      | .error e => .error e
      | .ok d => allowedParts allow id d : Except Err (Nat × Bool)) = y
    cases y with
    | ok p => rfl
    | error e => cases e <;> rfl

/-- C127. `secret_exponent_to_wif`. -/
theorem C127_to_wif (H : Hashes) (s : Int) (c : Bool) (version : Bytes) (r : Except Err Text) :
    secretExponentToWif H s c version = r ↔ WifText H s c version r := by
  have e : secretExponentToWif H s c version = if s < 2 ^ 256 then
      .ok (b2aHashedBase58 H (version ++ (be 32 s.toNat ++ if c then [1] else []))) else .error .valueError := by
    unfold secretExponentToWif
    rw [toBytes32_graph]
    by_cases h : s < 2 ^ 256
    · rw [if_pos h, if_pos h]
      cases c <;> simp
    · rw [if_neg h, if_neg h]
  rw [e]
  constructor
  · rintro rfl
    by_cases h : s < 2 ^ 256
    · rw [if_pos h]
      exact .text h ((C127_check H _ _ (.ok []) (.ok true)).2.2.2.2.1 rfl)
    · rw [if_neg h]
      exact .wide (by omega)
  · intro h
    cases h with
    | wide h => rw [if_neg (by omega)]
    | text h h' => rw [if_pos h, (C127_check H _ _ (.ok []) (.ok true)).2.2.2.2.2 h']

example : CheckTested .toy (AllowedWif [[0x80]]) (b2aHashedBase58 .toy [0x80, 1]) (.error .valueError) ∧
    CheckTested .toy (AllowedWif [[0x80]]) (b2aHashedBase58 .toy (0x80 :: be 32 7 ++ [9, 9])) (.ok true) :=
  ⟨(C127_wif_valid _ _ _ _).1 (by decide +kernel), (C127_wif_valid _ _ _ _).1 (by decide +kernel)⟩

example : WifText .toy (2 ^ 256) true [0x80] (.error .valueError) ∧
    WifText .toy (-1) false [0x80] (.ok (b2aHashedBase58 .toy (0x80 :: List.replicate 32 0))) :=
  ⟨(C127_to_wif _ _ _ _ _).1 (by decide +kernel), (C127_to_wif _ _ _ _ _).1 (by decide +kernel)⟩

/-! ## Addresses -/

/-- The parts of the payload of an address. -/
def hashRead (blob : Bytes) : Except Err (Bytes × Bytes) :=
  if blob.length ≠ 21 then .error .encodingError
  else if blob.take 1 ∉ [[0x6f], [0]] then
    .error (if (blob.headD 0).val < 128 then .encodingError else .unicodeDecodeError)
  else .ok (blob.drop 1, blob.take 1)

theorem hashRead_iff (d : Bytes) (r : Except Err (Bytes × Bytes)) : hashRead d = r ↔ HashRead d r := by
  have other : ∀ (v : Byte) (h : Bytes), h.length = 20 → (∀ test, v ≠ pick p2pkhVersions test) → hashRead (v :: h) =
      .error (if v.val < 128 then .encodingError else .unicodeDecodeError) := by
    intro v h hl hv
    unfold hashRead
    rw [if_neg (by simp [hl]), if_pos]
    · rfl
    · have h0 : v ≠ 0 := hv false
      have h1 : v ≠ 0x6f := hv true
      simp [h0, h1]
  refine graph ?_ ?_ d r
  · intro d r h
    cases h with
    | length h => exact if_pos h
    | version h h1 h2 => rw [other _ _ h h1, if_pos h2]
    | @message v h hl h2 =>
      rw [other _ _ hl, if_neg (by omega)]
      rintro (_ | _) rfl <;> revert h2 <;> decide
    | @parts test h hl =>
      unfold hashRead
      rw [if_neg (by simp [hl]), if_neg (by cases test <;> simp [pick, p2pkhVersions])]
      rfl
  · intro d
    by_cases hl : d.length = 21
    swap
    · exact ⟨_, .length hl⟩
    cases d with
    | nil => simp at hl
    | cons v h =>
      have hl : h.length = 20 := by simpa using hl
      by_cases hv : ∃ test, v = pick p2pkhVersions test
      · obtain ⟨test, rfl⟩ := hv
        exact ⟨_, .parts (by simpa using hl)⟩
      · push Not at hv
        by_cases h2 : v.val < 128
        · exact ⟨_, .version hl hv h2⟩
        · exact ⟨_, .message hl (by omega)⟩

/-- C127. `bitcoin_address_to_hash160_sec_with_prefix`. -/
theorem C127_address_parts (H : Hashes) (t : Text) (r : Except Err (Bytes × Bytes)) :
    bitcoinAddressToHash160SecWithPrefix H t = r ↔ CheckOutcome H .encodingError HashRead t r :=
  hashed (f := bitcoinAddressToHash160SecWithPrefix H) hashRead_iff (fun _ => rfl) t r

/-- The hash if the version is the one expected. -/
def expectedHash (version d : Bytes) : Except Err Bytes :=
  match hashRead d with
  | .error e => .error e
  | .ok (h, v) => if version = v then .ok h else .error .encodingError

theorem expected_iff (version d : Bytes) (r : Except Err Bytes) : expectedHash version d = r ↔ ExpectedHash version d r := by
  refine graph (f := expectedHash version) ?_ ?_ d r
  · intro d r h
    unfold expectedHash
    cases h with
    | fails h => rw [(hashRead_iff d _).2 h]
    | refused h h' => rw [(hashRead_iff d _).2 h]; exact if_neg h'.symm
    | hash h => rw [(hashRead_iff d _).2 h]; exact if_pos rfl
  · intro d
    have hp := (hashRead_iff d _).1 rfl
    cases h : hashRead d with
    | error e => rw [h] at hp; exact ⟨_, .fails hp⟩
    | ok x =>
      obtain ⟨k, v⟩ := x
      rw [h] at hp
      by_cases hv : v = version
      · subst hv; exact ⟨_, .hash hp⟩
      · exact ⟨_, .refused hp hv⟩

/-- C127. `bitcoin_address_to_hash160_sec`. -/
theorem C127_address_hash (H : Hashes) (t : Text) (version : Bytes) (r : Except Err Bytes) :
    bitcoinAddressToHash160Sec H t version = r ↔ CheckOutcome H .encodingError (ExpectedHash version) t r := by
  refine hashed (f := fun t => bitcoinAddressToHash160Sec H t version) (expected_iff version) (fun t => ?_) t r
  simp only [bitcoinAddressToHash160Sec, bitcoinAddressToHash160SecWithPrefix]
  cases a2bHashedBase58 H t with
  | error e => rfl
  | ok d =>
    show (match hashRead d with | .error e => _ | .ok (h, v) => _) = expectedHash version d
    unfold expectedHash
    rfl

/-- C127. `is_valid_bitcoin_address`. -/
theorem C127_address_valid (H : Hashes) (t : Text) (allow : Bytes) (r : Except Err Bool) :
    isValidBitcoinAddress H t allow = r ↔ CheckTested H (AllowedAddress allow) t r := by
  have inside : ∀ v : Byte, [v] <:+: allow ↔ v ∈ allow := by
    intro v
    constructor
    · intro h
      exact h.subset (by simp)
    · intro h
      obtain ⟨a, b, rfl⟩ := List.append_of_mem h
      exact ⟨a, b, by simp⟩
  refine tested (f := fun t => isValidBitcoinAddress H t allow) (g := hashRead) (k := fun x => decide (x.2 <:+: allow))
    (fun d r => ?_) (fun t => ?_) t r
  · refine graph (f := fun d => verdict (fun x => decide (x.2 <:+: allow)) (hashRead d)) (R := AllowedAddress allow) ?_ ?_ d r
    · intro d r h
      cases h with
      | message h => rw [(hashRead_iff d _).2 h]; rfl
      | other h => rw [(hashRead_iff d _).2 h]; rfl
      | refused h h' => rw [(hashRead_iff d _).2 h]; simp [verdict, inside, h']
      | allowed h h' => rw [(hashRead_iff d _).2 h]; simp [verdict, inside, h']
    · intro d
      have hp := (hashRead_iff d _).1 rfl
      generalize hashRead d = y at hp
      have keep := hp
      cases hp with
      | length _ => exact ⟨_, .other keep⟩
      | version _ _ _ => exact ⟨_, .other keep⟩
      | message _ _ => exact ⟨_, .message keep⟩
      | @parts test h _ =>
        by_cases hv : pick p2pkhVersions test ∈ allow
        · exact ⟨_, .allowed keep hv⟩
        · exact ⟨_, .refused keep hv⟩
  · have e : bitcoinAddressToHash160SecWithPrefix H t = match a2bHashedBase58 H t with
      | .error e => .error e
      | .ok d => hashRead d := rfl
    simp only [isValidBitcoinAddress]
    rw [e]
    generalize (match a2bHashedBase58 H t with
      | .error e => .error e
      | .ok d => hashRead d : Except Err (Bytes × Bytes)) = y
    cases y with
    | ok p => simp [verdict]
    | error e => cases e <;> rfl

/-- C127. `public_pair_to_hash160_sec`, `hash160_sec_to_bitcoin_address`, `public_pair_to_bitcoin_address`. -/
theorem C127_to_address (H : Hashes) (pair : Int × Int) (c : Bool) (version h : Bytes) (t : Text) (r : Except Err Bytes)
    (a : Except Err Text) :
    (publicPairToHash160Sec H pair c = r ↔
      HashWritten (fun b => H.ripemd160 (H.sha256 b)) (SecWritten ⟨pair, .livenet, c⟩) r) ∧
    (hash160SecToBitcoinAddress H h version = t ↔ Base58Check H (version ++ h) t) ∧
    (publicPairToBitcoinAddress H pair c version = a ↔ CheckWritten H (PairPayload H pair c version) a) := by
  have hw : ∀ d t, b2aHashedBase58 H d = t ↔ Base58Check H d t := fun d t => (C127_check H t d (.ok []) (.ok true)).2.2.2.2
  have hp := C127_pair pair c
  refine ⟨?_, hw _ _, ?_⟩
  · unfold publicPairToHash160Sec
    have hp := hp (publicPairToSec pair c)
    constructor
    · rintro rfl
      cases h : publicPairToSec pair c with
      | error e => exact .fails ((C127_pair pair c _).1 h)
      | ok b => exact .digest (h := fun b => H.ripemd160 (H.sha256 b)) ((C127_pair pair c _).1 h)
    · intro h
      cases h with
      | fails h => rw [(C127_pair pair c _).2 h]
      | digest h => rw [(C127_pair pair c _).2 h]; rfl
  · unfold publicPairToBitcoinAddress publicPairToHash160Sec
    constructor
    · rintro rfl
      cases h : publicPairToSec pair c with
      | error e => exact .fails (.fails ((C127_pair pair c _).1 h))
      | ok b => exact .text (.payload ((C127_pair pair c _).1 h)) ((hw _ _).1 rfl)
    · intro h
      cases h with
      | fails h =>
        cases h with
        | fails h => rw [(C127_pair pair c _).2 h]
      | text h h' =>
        cases h with
        | payload h =>
          rw [(C127_pair pair c _).2 h]
          exact congrArg Except.ok ((hw _ _).2 h')

example : CheckTested .toy (AllowedAddress [0, 0x6f]) (b2aHashedBase58 .toy (0x6f :: List.replicate 20 7)) (.ok true) ∧
    CheckTested .toy (AllowedAddress [0]) (b2aHashedBase58 .toy (5 :: List.replicate 20 7)) (.ok false) ∧
    CheckTested .toy (AllowedAddress [0]) (b2aHashedBase58 .toy (0xc4 :: List.replicate 20 7)) (.error .unicodeDecodeError) :=
  ⟨(C127_address_valid _ _ _ _).1 (by decide +kernel), (C127_address_valid _ _ _ _).1 (by decide +kernel),
    (C127_address_valid _ _ _ _).1 (by decide +kernel)⟩

/-! ## `utils/intbytes.py` -/

/-- C127. `bytes_to_ints` and `bytes_from_ints`. -/
theorem C127_ints (d : Data) (l : List Int) (r : Except Err (List Nat)) (s : Except Err Bytes) :
    (bytesToInts d = r ↔ IntsOf d r) ∧ (bytesFromInts l = s ↔ BytesOf l s) := by
  constructor
  · refine graph ?_ ?_ d r
    · rintro ⟨k, b⟩ r h
      cases h with
      | values h =>
        cases k with
        | str => rfl
        | bytearray =>
          rcases h with h | h
          · cases h
          · simp only at h
            subst h
            rfl
      | type h h' =>
        simp only at h
        subst h
        exact if_neg h'
    · rintro ⟨k, b⟩
      cases k with
      | str => exact ⟨_, .values (.inl rfl)⟩
      | bytearray =>
        by_cases hb : b = []
        · exact ⟨_, .values (.inr hb)⟩
        · exact ⟨_, .type rfl hb⟩
  · refine graph ?_ ?_ l s
    · intro l s h
      cases h with
      | bytes h => exact ((C79_from_ints l).1 _).2 h
      | outside h h' => exact (C79_from_ints l).2.2 ⟨_, h, h'⟩
    · intro l
      by_cases h : ∃ n ∈ l, n < 0 ∨ 256 ≤ n
      · obtain ⟨n, h1, h2⟩ := h
        exact ⟨_, .outside h1 h2⟩
      · push Not at h
        refine ⟨_, .bytes (b := l.map fun n => byte n.toNat) ?_⟩
        rw [List.map_map]
        refine (List.map_congr_left fun n hn => ?_).trans (List.map_id l)
        have := h n hn
        simp only [Function.comp, byte_val, id]
        omega

/-- C127. `to_bytes` is the two's complement, in either order. -/
theorem C127_to_bytes (v : Int) (w : Nat) (big : Bool) : toBytes v w big = inOrder big (twos w v).reverse := by
  obtain ⟨h1, h2⟩ := leValue_loop w v
  have h3 : 0 ≤ v % 256 ^ w := Int.emod_nonneg _ (by positivity)
  have h4 : v % 256 ^ w < 256 ^ w := Int.emod_lt_of_pos _ (by positivity)
  have e : intToBytesLoop w v = le w (v % 256 ^ w).toNat := by
    refine leValue_inj _ _ ?_ ?_
    · rw [h2, ← encodeInt_le' , encodeInt_length]
    · rw [← encodeInt_le', leValue_encodeInt, Int.toNat_natCast, Nat.mod_eq_of_lt]
      · omega
      · zify
        rwa [Int.toNat_of_nonneg h3]
  unfold toBytes twos be
  rw [e, List.reverse_reverse]
  cases big <;> rfl

/-- C127. `from_bytes` and `int_from_bytes`. -/
theorem C127_from_bytes (d : Data) (big signed : Bool) (r : Except Err Nat) :
    (fromBytes d big signed = r ↔ ValueOf d big signed r) ∧ (intFromBytesData d = r ↔ ValueOf d true false r) := by
  have main : ∀ big signed r, fromBytes d big signed = r ↔ ValueOf d big signed r := by
    intro big signed r
    refine graph (f := fun x : Data × Bool => fromBytes x.1 big x.2) (R := fun x r => ValueOf x.1 big x.2 r) ?_ ?_ (d, signed) r
    · rintro ⟨⟨k, b⟩, signed⟩ r h
      simp only at h ⊢
      cases h with
      | type h h' =>
        simp only at h
        subst h
        exact C79_bytearray_refuted b h' big signed
      | index h h' =>
        simp only at h
        subst h h'
        cases k <;> rfl
      | signed h =>
        cases k with
        | str =>
          simp only [fromBytes, bytesToInts, if_true]
          rw [if_neg]
          rintro ⟨h1, h2⟩
          rcases h with h | h
          · exact h h2
          · rw [h] at h1; cases h1
        | bytearray =>
          by_cases hb : b = []
          · subst hb
            rcases h with h | h
            · exact absurd rfl h
            · subst h; rfl
          · exact C79_bytearray_refuted b hb big true
      | value h =>
        have hs : fromBytes ⟨.str, b⟩ big false = .ok (leValue (inOrder big b)) := by
          rw [C79_from_bytes_partial]
          cases big <;> rfl
        cases k with
        | str => exact hs
        | bytearray =>
          rcases h with h | h
          · cases h
          · simp only at h
            subst h
            cases big <;> rfl
    · rintro ⟨⟨k, b⟩, signed⟩
      simp only
      by_cases ht : k = .bytearray ∧ b ≠ []
      · exact ⟨_, .type ht.1 ht.2⟩
      · have hv : k = .str ∨ b = [] := by
          cases k with
          | str => exact .inl rfl
          | bytearray => exact .inr (by_contra fun h => ht ⟨rfl, h⟩)
        cases signed with
        | false => exact ⟨_, .value hv⟩
        | true =>
          by_cases hi : b = [] ∧ big = true
          · exact ⟨_, .index hi.1 hi.2⟩
          · refine ⟨_, .signed ?_⟩
            by_cases hb : b = []
            · exact .inr (by simpa using fun h => hi ⟨hb, h⟩)
            · exact .inl hb
  refine ⟨main big signed r, ?_⟩
  rw [← main true false r]
  have e : intFromBytesData d = fromBytes d true false := by
    unfold intFromBytesData fromBytes
    simp
  rw [e]

example : ValueOf ⟨.str, []⟩ true true (.error .indexError) ∧ ValueOf ⟨.str, [1, 2]⟩ false false (.ok 513) ∧
    ValueOf ⟨.bytearray, [1]⟩ true false (.error .typeError) :=
  ⟨.index rfl rfl, (C127_from_bytes _ _ _ _).1.1 (by decide), .type rfl (by simp)⟩

example : toBytes (-2) 2 true = [255, 254] ∧ BytesOf [1, 256] (.error .valueError) := ⟨by decide, .outside (n := 256) (by simp) (by omega)⟩

/-- C127. `int_to_bytes`. -/
theorem C127_least (n : Int) (b : Bytes) : intToBytesMin n = b ↔ LeastBytes n b := by
  refine graph ?_ ?_ n b
  · intro n b h
    cases h with
    | none h => exact C79_minimal_negative n h
    | @least x b h h' =>
      subst h
      unfold intToBytesMin
      rw [Int.toNat_natCast, minLoop_eq _ _ (le_refl _)]
      unfold beValue
      rw [leDigits_leValue _ (fun hb => by simpa using h')]
      simp
  · intro n
    by_cases h : n ≤ 0
    · exact ⟨_, .none h⟩
    · obtain ⟨f, x, h1, h2, h3⟩ := leDigits_concat (n := n.toNat) (by omega)
      refine ⟨_, .least (x := x) (b := f.reverse) ?_ h2⟩
      have : beValue (x :: f.reverse) = leValue (f ++ [x]) := by simp [beValue]
      rw [this, ← h1, leValue_leDigits]
      omega

example : LeastBytes 258 [1, 2] ∧ LeastBytes 0 [] := ⟨.least (by decide) (by decide), .none (by omega)⟩

end Bitforge.Codecs
