import Verif.Props.Errors
import Verif.Props.Codec
import Verif.Props.HdPath
import Verif.Proofs.Ecdsa

/-! # C118: what every text and byte string is read as, as a key or an address -/

namespace Bitforge
open Spec

/-! ## The outcomes

Each relation gives the outcome of one reader, in the order of the checks. -/

/-- The number of a secret key in range. -/
def InRange (s : Nat) : Prop := 0 < s ∧ s < secpN

instance (s : Nat) : Decidable (InRange s) := inferInstanceAs (Decidable (_ ∧ _))

/-- Thirty-two bytes as a private key. -/
inductive SecretOutcome (n : Network) (c : Bool) : Bytes → Except Err PrivateKey → Prop
  | length {b} : b.length ≠ 32 → SecretOutcome n c b (.error .privInvalidBinaryLength)
  | range {b} : b.length = 32 → ¬ InRange (beValue b) → SecretOutcome n c b (.error .privInvalidSecret)
  | key {b} : b.length = 32 → InRange (beValue b) → SecretOutcome n c b (.ok ⟨beValue b, n, c⟩)

/-- A text in wallet import format: version, key, and perhaps the mark of compression. -/
inductive WifOutcome (H : Hashes) (t : Text) : Except Err PrivateKey → Prop
  | unicode : ¬ Ascii t → WifOutcome H t (.error .unicodeDecodeError)
  | check : Ascii t → (∀ d, ¬ Base58Check H d t) → WifOutcome H t (.error .privInvalidBase58h)
  | length {d} : Base58Check H d t → d.length ≠ 33 → d.length ≠ 34 → WifOutcome H t (.error .privInvalidWifLength)
  | mark {d m} : Base58Check H (d ++ [m]) t → d.length = 33 → m ≠ 1 → WifOutcome H t (.error .privInvalidCompressionByte)
  | version {v k m} : Base58Check H (v :: k ++ m) t → k.length = 32 → m = [] ∨ m = [1] → (∀ test, v ≠ pick wifVersions test) →
      WifOutcome H t (.error .privUnknownNetwork)
  | range {test k m} : Base58Check H (pick wifVersions test :: k ++ m) t → k.length = 32 → m = [] ∨ m = [1] →
      ¬ InRange (beValue k) → WifOutcome H t (.error .privInvalidSecret)
  | key {test k} {c : Bool} : Base58Check H (pick wifVersions test :: k ++ if c then [1] else []) t → k.length = 32 →
      InRange (beValue k) → WifOutcome H t (.ok ⟨beValue k, netOf test, c⟩)

/-- The bytes of an address. -/
inductive AddressOutcome : Bytes → Except Err Address → Prop
  | length {b} : b.length ≠ 21 → AddressOutcome b (.error .addrInvalidBinaryLength)
  | version {v h} : h.length = 20 → (∀ test, v ≠ pick p2pkhVersions test ∧ v ≠ pick p2shVersions test) →
      AddressOutcome (v :: h) (.error .addrInvalidVersion)
  | address {h test isScript b} : AddressBytes h test isScript b → AddressOutcome b (.ok ⟨h, netOf test, typeOf isScript⟩)

/-- The bytes of a public key.  What follows the coordinates is not looked at, and they need not be below `p`. -/
inductive PublicOutcome (n : Network) : Bytes → Except Err PublicKey → Prop
  | short {b} : b.length < 33 → PublicOutcome n b (.error .pubInvalidBinary)
  | version {v b} : 32 ≤ b.length → v ≠ 2 → v ≠ 3 → v ≠ 4 → PublicOutcome n (v :: b) (.error .pubInvalidBinary)
  | half {b} : 32 ≤ b.length → b.length < 64 → PublicOutcome n (4 :: b) (.error .pubInvalidBinary)
  | outside {x y rest} : x.length = 32 → y.length = 32 → ¬ OnSecp (beValue x) (beValue y) →
      PublicOutcome n (4 :: (x ++ (y ++ rest))) (.error .pubInvalidBinary)
  | long {x y rest} : x.length = 32 → y.length = 32 → OnSecp (beValue x) (beValue y) →
      PublicOutcome n (4 :: (x ++ (y ++ rest))) (.ok ⟨(beValue x, beValue y), n, false⟩)
  | noPoint {v x rest} : v = 2 ∨ v = 3 → x.length = 32 → (∀ y, ¬ OnSecp (beValue x) y) →
      PublicOutcome n (v :: (x ++ rest)) (.error .pubInvalidPair)
  | compressed {v x rest y} : v = 2 ∧ y % 2 = 0 ∨ v = 3 ∧ y % 2 = 1 → x.length = 32 → OnSecp (beValue x) y → reduced y →
      PublicOutcome n (v :: (x ++ rest)) (.ok ⟨(beValue x, y), n, true⟩)

/-- A hexadecimal text, given what is done with the bytes. -/
inductive HexOutcome {α : Type} (invalid : Err) (R : Bytes → Except Err α → Prop) (t : Text) : Except Err α → Prop
  | unicode : ¬ Ascii t → HexOutcome invalid R t (.error .unicodeEncodeError)
  | digits : Ascii t → t.length % 2 = 1 ∨ (∃ c ∈ t, c ∉ hexChars) → HexOutcome invalid R t (.error invalid)
  | bytes {b r} : (∀ c ∈ t, c ∈ hexChars) → hexText b = t.map Char.toLower → R b r → HexOutcome invalid R t r

/-- A Base58Check text, given what is done with the payload. -/
inductive CheckOutcome {α : Type} (H : Hashes) (invalid : Err) (R : Bytes → Except Err α → Prop) (t : Text) :
    Except Err α → Prop
  | unicode : ¬ Ascii t → CheckOutcome H invalid R t (.error .unicodeDecodeError)
  | check : Ascii t → (∀ d, ¬ Base58Check H d t) → CheckOutcome H invalid R t (.error invalid)
  | payload {d r} : Base58Check H d t → R d r → CheckOutcome H invalid R t r

/-- The payload of an extended private key: 78 bytes and what follows, of which the byte before the key is not looked at. -/
inductive XprvOutcome (H : Hashes) (d : Bytes) : Except Err HDPrivateKey → Prop
  | version : (∀ test, beValue (d.take 4) ≠ xprvVersion test) → XprvOutcome H d (.error .unknownNetwork)
  | length {test} : beValue (d.take 4) = xprvVersion test → d.length < 78 →
      XprvOutcome H d (.error .privInvalidBinaryLength)
  | range {test depth parent index chain b k p rest} :
      Extended (xprvVersion test) depth parent index chain (b :: k) p → d = p ++ rest → ¬ InRange (beValue k) →
      XprvOutcome H d (.error .privInvalidSecret)
  | key {test depth parent index chain b k p rest x y f} :
      Extended (xprvVersion test) depth parent index chain (b :: k) p → d = p ++ rest → InRange (beValue k) →
      reduced x → reduced y → IsPoint x y (beValue k • G) → Fingerprint H x y true f →
      XprvOutcome H d (.ok ⟨⟨beValue k, netOf test, true⟩, chain, depth, index, parent, netOf test, f⟩)

/-- The payload of an extended public key: 78 bytes and what follows. -/
inductive XpubOutcome (H : Hashes) (d : Bytes) : Except Err HDPublicKey → Prop
  | version : (∀ test, beValue (d.take 4) ≠ xpubVersion test) → XpubOutcome H d (.error .unknownNetwork)
  | length {test} : beValue (d.take 4) = xpubVersion test → d.length < 78 → XpubOutcome H d (.error .pubInvalidBinary)
  | point {test depth parent index chain key p rest e} :
      Extended (xpubVersion test) depth parent index chain key p → d = p ++ rest →
      PublicOutcome (netOf test) key (.error e) → XpubOutcome H d (.error e)
  | key {test depth parent index chain key p rest k f} :
      Extended (xpubVersion test) depth parent index chain key p → d = p ++ rest →
      PublicOutcome (netOf test) key (.ok k) → BigEndian 4 f ((H.ripemd160 (H.sha256 key)).take 4) →
      XpubOutcome H d (.ok ⟨k, chain, depth, index, parent, netOf test, f⟩)

/-! ## A reader with one outcome for every input -/

/-- A relation that is sound for a function and total is its graph. -/
theorem graph {α β : Type} {f : α → β} {R : α → β → Prop} (sound : ∀ a b, R a b → f a = b) (total : ∀ a, ∃ b, R a b) (a : α)
    (b : β) : f a = b ↔ R a b := by
  constructor
  · rintro rfl
    obtain ⟨b, hb⟩ := total a
    rw [sound a b hb]
    exact hb
  · exact sound a b

theorem make_nat (s : Nat) (n : Network) (c : Bool) : PrivateKey.make (s : Int) (.network n) c =
    if InRange s then .ok ⟨s, n, c⟩ else .error .privInvalidSecret := by
  rw [make_network]
  have h : (0 < (s : Int) ∧ (s : Int) < PrivateKey.keyMax) ↔ InRange s := by
    unfold InRange PrivateKey.keyMax
    omega
  by_cases hs : InRange s
  · rw [if_pos hs, if_pos (h.2 hs)]
  · rw [if_neg hs, if_neg (fun h' => hs (h.1 h'))]

/-- C118. Bytes as a private key. -/
theorem C118_private_bytes (b : Bytes) (n : Network) (c : Bool) (r : Except Err PrivateKey) :
    PrivateKey.fromBytes b (.network n) c = r ↔ SecretOutcome n c b r := by
  refine graph (f := fun b => PrivateKey.fromBytes b (.network n) c) ?_ ?_ b r
  · intro b r h
    simp only [PrivateKey.fromBytes]
    rw [decodeInt_big, make_nat]
    cases h with
    | length h => rw [if_pos h]
    | range h h' => rw [if_neg (not_not.2 h), if_neg h']
    | key h h' => rw [if_neg (not_not.2 h), if_pos h']
  · intro b
    by_cases h : b.length = 32
    · by_cases h' : InRange (beValue b)
      · exact ⟨_, .key h h'⟩
      · exact ⟨_, .range h h'⟩
    · exact ⟨_, .length h⟩

theorem decode_unicode {H : Hashes} {t : Text} (h : ¬ Ascii t) : decodeBase58h H t = .error .unicodeDecodeError := by
  rw [← not_ascii_iff] at h
  unfold decodeBase58h a2bHashedBase58 a2bBase58
  rw [h]
  rfl

theorem decode_check {H : Hashes} {t : Text} (ha : Ascii t) (h : ∀ d, ¬ Base58Check H d t) :
    decodeBase58h H t = .error .invalidBase58h := by
  cases hd : decodeBase58h H t with
  | ok d => exact absurd ((base58Check_iff H d t).2 hd) (h d)
  | error e =>
    rcases decodeBase58h_error H t e hd with rfl | ⟨_, h2⟩
    · rfl
    · exact absurd ha ((not_ascii_iff t).1 h2)

theorem wifBody {v : Byte} {k : Bytes} {c : Bool} : PrivateKey.fromWifBody (v :: k) c =
    if v = pick wifVersions false then (if InRange (beValue k) then .ok ⟨beValue k, netOf false, c⟩ else .error .privInvalidSecret)
    else if v = pick wifVersions true then (if InRange (beValue k) then .ok ⟨beValue k, netOf true, c⟩ else .error .privInvalidSecret)
    else .error .privUnknownNetwork := by
  unfold PrivateKey.fromWifBody
  simp only
  by_cases h1 : v = pick wifVersions false
  · rw [if_pos h1, (find_wif v (netOf false)).2 ⟨false, h1, rfl⟩]
    simp only
    rw [decodeInt_big, make_nat]
  · rw [if_neg h1]
    by_cases h2 : v = pick wifVersions true
    · rw [if_pos h2, (find_wif v (netOf true)).2 ⟨true, h2, rfl⟩]
      simp only
      rw [decodeInt_big, make_nat]
    · rw [if_neg h2, find_wif_error v h1 h2]

theorem wif_plain {H : Hashes} {t : Text} {d : Bytes} (hd : Base58Check H d t) (hl : d.length = 33) :
    PrivateKey.fromWif H t = PrivateKey.fromWifBody d false := by
  unfold PrivateKey.fromWif
  rw [(base58Check_iff H d t).1 hd]
  simp only
  rw [if_pos hl]

theorem wif_marked {H : Hashes} {t : Text} {d : Bytes} {m : Byte} (hd : Base58Check H (d ++ [m]) t) (hl : d.length = 33) :
    PrivateKey.fromWif H t = if m ≠ 1 then .error .privInvalidCompressionByte else PrivateKey.fromWifBody d true := by
  unfold PrivateKey.fromWif
  rw [(base58Check_iff H _ t).1 hd]
  have h1 : (d ++ [m]).length = 34 := by simp [hl]
  simp only [h1]
  rw [if_neg (by norm_num), if_pos trivial, List.getLast?_concat, List.dropLast_concat]
  simp

/-- C118. A text as a private key in wallet import format. -/
theorem C118_wif (H : Hashes) (t : Text) (r : Except Err PrivateKey) : PrivateKey.fromWif H t = r ↔ WifOutcome H t r := by
  have both : ∀ {t v k m} (_ : Base58Check H (v :: k ++ m) t) (_ : k.length = 32) (_ : m = [] ∨ m = [1]),
      PrivateKey.fromWif H t = PrivateKey.fromWifBody (v :: k) (decide (m = [1])) := by
    intro t v k m hd hk hm
    rcases hm with rfl | rfl
    · rw [List.append_nil] at hd
      rw [wif_plain hd (by simp [hk])]
      rfl
    · rw [wif_marked hd (by simp [hk]), if_neg (by simp)]
      rfl
  refine graph (f := PrivateKey.fromWif H) (R := WifOutcome H) ?_ ?_ t r
  · intro t r h
    cases h with
    | unicode h => unfold PrivateKey.fromWif; rw [decode_unicode h]
    | check h h' => unfold PrivateKey.fromWif; rw [decode_check h h']
    | length h h1 h2 => exact (C13_reject H t _ h).1 h1 h2
    | mark h h1 h2 => rw [wif_marked h h1, if_pos h2]
    | version h h1 h2 h3 =>
      rw [both h h1 h2, wifBody, if_neg (h3 false), if_neg (h3 true)]
    | @range test k m h h1 h2 h3 =>
      rw [both h h1 h2, wifBody]
      cases test
      · rw [if_pos rfl, if_neg h3]
      · rw [if_neg (by decide), if_pos rfl, if_neg h3]
    | @key test k c h h1 h2 =>
      rw [both h h1 (by cases c <;> simp), wifBody]
      have hc : decide ((if c then [1] else [] : Bytes) = [1]) = c := by cases c <;> rfl
      rw [hc]
      cases test
      · rw [if_pos rfl, if_pos h2]
      · rw [if_neg (by decide), if_pos rfl, if_pos h2]
  · intro t
    by_cases ha : Ascii t
    swap
    · exact ⟨_, .unicode ha⟩
    by_cases hd : ∃ d, Base58Check H d t
    swap
    · exact ⟨_, .check ha fun d h => hd ⟨d, h⟩⟩
    obtain ⟨d, hd⟩ := hd
    have body : ∀ (v : Byte) (k : Bytes) (c : Bool), Base58Check H (v :: k ++ if c then [1] else []) t → k.length = 32 →
        ∃ r, WifOutcome H t r := by
      intro v k c hd hk
      have hm : (if c then [1] else [] : Bytes) = [] ∨ (if c then [1] else [] : Bytes) = [1] := by cases c <;> simp
      by_cases hv : ∃ test, v = pick wifVersions test
      · obtain ⟨test, rfl⟩ := hv
        by_cases hr : InRange (beValue k)
        · exact ⟨_, .key hd hk hr⟩
        · exact ⟨_, .range hd hk hm hr⟩
      · exact ⟨_, .version hd hk hm fun test h => hv ⟨test, h⟩⟩
    by_cases h33 : d.length = 33
    · cases d with
      | nil => simp at h33
      | cons v k => exact body v k false (by simpa using hd) (by simpa using h33)
    by_cases h34 : d.length = 34
    · obtain ⟨d, m, rfl⟩ : ∃ d' m, d = d' ++ [m] := by
        rcases List.eq_nil_or_concat d with rfl | ⟨d', m, rfl⟩
        · simp at h34
        · exact ⟨d', m, by simp⟩
      have hl : d.length = 33 := by simpa using h34
      by_cases hm : m = 1
      · subst hm
        cases d with
        | nil => simp at hl
        | cons v k => exact body v k true (by simpa using hd) (by simpa using hl)
      · exact ⟨_, .mark hd hl hm⟩
    · exact ⟨_, .length hd h33 h34⟩

/-- C118. Bytes as an address. -/
theorem C118_address_bytes (b : Bytes) (r : Except Err Address) : Address.fromBytes b = r ↔ AddressOutcome b r := by
  refine graph ?_ ?_ b r
  · intro b r h
    cases h with
    | length h => exact (C16_from_bytes_reject b).1 h
    | @version v k h h' =>
      refine (C16_from_bytes_reject _).2 (by simp [h]) ?_
      intro w hw e
      simp only [List.head?_cons, Option.some.injEq] at e
      subst e
      simp only [List.mem_cons, List.not_mem_nil, or_false] at hw
      rcases hw with rfl | rfl | rfl | rfl
      · exact (h' false).1 rfl
      · exact (h' true).1 rfl
      · exact (h' false).2 rfl
      · exact (h' true).2 rfl
    | address h => exact (C16_from_bytes_iff _ _).2 ⟨_, _, _, h, rfl⟩
  · intro b
    by_cases hl : b.length = 21
    swap
    · exact ⟨_, .length hl⟩
    cases b with
    | nil => simp at hl
    | cons v h =>
      have hh : h.length = 20 := by simpa using hl
      by_cases hv : ∃ test, v = pick p2pkhVersions test ∨ v = pick p2shVersions test
      · obtain ⟨test, rfl | rfl⟩ := hv
        · exact ⟨_, .address (test := test) (isScript := false) ⟨hh, rfl⟩⟩
        · exact ⟨_, .address (test := test) (isScript := true) ⟨hh, rfl⟩⟩
      · exact ⟨_, .version hh fun test => ⟨fun h => hv ⟨test, .inl h⟩, fun h => hv ⟨test, .inr h⟩⟩⟩

/-- C118. Bytes as a public key. -/
theorem C118_public_bytes (b : Bytes) (n : Network) (r : Except Err PublicKey) :
    PublicKey.fromBytes ⟨.str, b⟩ (.network n) = r ↔ PublicOutcome n b r := by
  have short : ∀ b : Bytes, b.length < 33 → PublicKey.fromBytes ⟨.str, b⟩ (.network n) = .error .pubInvalidBinary := by
    intro b h
    unfold PublicKey.fromBytes secToPublicPair
    simp only [Data.slice, fromBytes32_str]
    rw [if_neg (by simp only [List.length_drop, List.length_take]; omega)]
    simp [bind, Except.bind]
  have start : ∀ (v : Byte) (x rest : Bytes), x.length = 32 → secToPublicPair ⟨.str, v :: (x ++ rest)⟩ =
      if v = 4 then
        match fromBytes32 ⟨.str, rest.take 32⟩ with
        | .error e => .error e
        | .ok y => if secp.containsPoint (beValue x) y then .ok ((beValue x : Int), (y : Int)) else .error .encodingError
      else if v = 2 ∨ v = 3 then Ecdsa.publicPairForX secp (beValue x) (decide (v = 2))
      else .error .encodingError := by
    intro v x rest hx
    have e1 : List.drop 1 (List.take 33 (v :: (x ++ rest))) = x := by
      simp [List.take_append_of_le_length, hx, List.take_of_length_le]
    have e2 : List.drop 33 (List.take 65 (v :: (x ++ rest))) = rest.take 32 := by
      simp [List.take_append, List.drop_append, hx, List.take_of_length_le]
    unfold secToPublicPair
    simp only [Data.slice, e1, e2]
    rw [fromBytes32_str, if_pos hx]
    simp only [bind, Except.bind, List.take_succ_cons, List.take_zero, List.cons.injEq, and_true, Ecdsa.isPublicPairValid]
    cases fromBytes32 ⟨.str, List.take 32 rest⟩ <;> rfl
  refine graph (f := fun b => PublicKey.fromBytes ⟨.str, b⟩ (.network n)) ?_ ?_ b r
  · intro b r h
    cases h with
    | short h => exact short b h
    | @version v b h h2 h3 h4 =>
      have := start v (b.take 32) (b.drop 32) (by simp [h])
      rw [List.take_append_drop, if_neg h4, if_neg (not_or.2 ⟨h2, h3⟩)] at this
      simp only [PublicKey.fromBytes]
      rw [this]
      simp
    | @half b h h' =>
      have := start 4 (b.take 32) (b.drop 32) (by simp [h])
      rw [List.take_append_drop, if_pos rfl, fromBytes32_str, if_neg (by simp only [List.length_take, List.length_drop]; omega)] at this
      simp only [PublicKey.fromBytes]
      rw [this]
      simp
    | @outside x y rest hx hy h =>
      have := start 4 x (y ++ rest) hx
      rw [if_pos rfl, List.take_append_of_le_length (by omega), List.take_of_length_le (by omega), fromBytes32_str, if_pos hy] at this
      simp only at this
      rw [if_neg (fun hc => h ((onSecp_iff _ _).2 hc))] at this
      simp only [PublicKey.fromBytes]
      rw [this]
      simp
    | @long x y rest hx hy h =>
      have := start 4 x (y ++ rest) hx
      rw [if_pos rfl, List.take_append_of_le_length (by omega), List.take_of_length_le (by omega), fromBytes32_str, if_pos hy] at this
      simp only at this
      rw [if_pos ((onSecp_iff _ _).1 h)] at this
      simp only [PublicKey.fromBytes]
      rw [this]
      simp only
      rw [C17_accepts _ _ h]
      rfl
    | @noPoint v x rest hv hx h =>
      have := start v x rest hx
      rw [if_neg (by rcases hv with rfl | rfl <;> decide), if_pos hv] at this
      obtain ⟨y, hy, -⟩ := publicPairForX_spec (beValue x) (decide (v = 2))
      rw [hy] at this
      simp only [PublicKey.fromBytes]
      rw [this]
      exact C17_rejects _ _ (h y) _ _
    | @compressed v x rest y hv hx h hy =>
      have hv' : v = 2 ∨ v = 3 := hv.imp And.left And.left
      have := start v x rest hx
      rw [if_neg (by rcases hv' with rfl | rfl <;> decide), if_pos hv'] at this
      obtain ⟨y', hy', -, -, h1, h2⟩ := publicPairForX_spec (beValue x) (decide (v = 2))
      have hon := h2 y ((onSecp_iff _ _).1 h)
      obtain ⟨p1, p2, p3⟩ := h1 hon
      have heq : y' = y := y_unique hon ((onSecp_iff _ _).1 h) ⟨by omega, p2⟩ ((reduced_iff y).1 hy) (by
        rw [p3]
        rcases hv with ⟨rfl, h'⟩ | ⟨rfl, h'⟩
        · rw [h']; rfl
        · rw [h']; rfl)
      subst heq
      rw [hy'] at this
      simp only [PublicKey.fromBytes]
      rw [this]
      simp only
      rw [C17_accepts _ _ h]
      rcases hv' with rfl | rfl <;> rfl
  · intro b
    by_cases hl : b.length < 33
    · exact ⟨_, .short hl⟩
    cases b with
    | nil => simp at hl
    | cons v b =>
      have hb : 32 ≤ b.length := by simp only [List.length_cons] at hl; omega
      by_cases h4 : v = 4
      · subst h4
        by_cases h64 : b.length < 64
        · exact ⟨_, .half hb h64⟩
        have hs : b = b.take 32 ++ ((b.drop 32).take 32 ++ (b.drop 32).drop 32) := by
          rw [List.take_append_drop, List.take_append_drop]
        rw [hs]
        have hx : (b.take 32).length = 32 := by simp [hb]
        have hy : ((b.drop 32).take 32).length = 32 := by simp only [List.length_take, List.length_drop]; omega
        by_cases hon : OnSecp (beValue (b.take 32)) (beValue ((b.drop 32).take 32))
        · exact ⟨_, .long hx hy hon⟩
        · exact ⟨_, .outside hx hy hon⟩
      by_cases h23 : v = 2 ∨ v = 3
      swap
      · rw [not_or] at h23
        exact ⟨_, .version hb h23.1 h23.2 h4⟩
      have hx : (b.take 32).length = 32 := by simp [hb]
      rw [← List.take_append_drop 32 b]
      by_cases hon : ∃ y, OnSecp (beValue (b.take 32)) y
      swap
      · exact ⟨_, .noPoint h23 hx fun y hy => hon ⟨y, hy⟩⟩
      obtain ⟨y0, hy0⟩ := hon
      obtain ⟨y, -, -, -, h1, h2⟩ := publicPairForX_spec (beValue (b.take 32)) (decide (v = 2))
      have hon := h2 y0 ((onSecp_iff _ _).1 hy0)
      obtain ⟨p1, p2, p3⟩ := h1 hon
      refine ⟨_, .compressed (y := y) ?_ hx ((onSecp_iff _ _).2 hon) ((reduced_iff y).2 ⟨by omega, p2⟩)⟩
      rcases h23 with rfl | rfl
      · exact .inl ⟨rfl, p3⟩
      · exact .inr ⟨rfl, p3⟩

/-! ## Texts -/

theorem hex_outcome {α : Type} {f : Text → Except Err α} {g : Bytes → Except Err α} {invalid : Err}
    {R : Bytes → Except Err α → Prop} (hg : ∀ b r, g b = r ↔ R b r)
    (hf : ∀ t, f t = match decodeHex t with
      | .error .invalidHex => .error invalid
      | .error e => .error e
      | .ok b => g b) (t : Text) (r : Except Err α) : f t = r ↔ HexOutcome invalid R t r := by
  refine graph (R := HexOutcome invalid R) ?_ ?_ t r
  · intro t r h
    rw [hf]
    cases h with
    | unicode h =>
      have : ∃ c ∈ t, c ∉ hexChars := by
        by_contra hn
        refine h fun c hc => ?_
        have : c ∈ hexChars := by_contra fun h' => hn ⟨c, hc, h'⟩
        exact (show ∀ c ∈ hexChars, c.toNat < 128 by decide) c this
      rw [C05_reject t (.inr this), (not_ascii_iff t).2 h]
      rfl
    | digits h h' =>
      rw [C05_reject t h', (isAscii_iff t).2 h]
      rfl
    | @bytes b _ h1 h2 h3 =>
      rw [(C05_decode_iff t b).2 ⟨h1, by rw [← hexText_eq]; exact h2⟩]
      exact (hg b r).2 h3
  · intro t
    by_cases ha : Ascii t
    swap
    · exact ⟨_, .unicode ha⟩
    by_cases hd : t.length % 2 = 1 ∨ ∃ c ∈ t, c ∉ hexChars
    · exact ⟨_, .digits ha hd⟩
    rw [not_or] at hd
    have hc : ∀ c ∈ t, c ∈ hexChars := fun c hc => by_contra fun hn => hd.2 ⟨c, hc, hn⟩
    obtain ⟨b, hb, -⟩ := C05_accept t (by omega) hc
    exact ⟨g b, .bytes hc (by rw [hexText_eq]; exact ((C05_decode_iff t b).1 hb).2) ((hg b _).1 rfl)⟩

/-- C118. Hexadecimal texts. -/
theorem C118_private_hex (t : Text) (n : Network) (c : Bool) (r : Except Err PrivateKey) :
    PrivateKey.fromHex t (.network n) c = r ↔ HexOutcome .privInvalidHex (SecretOutcome n c) t r :=
  hex_outcome (f := fun t => PrivateKey.fromHex t (.network n) c) (fun b r => C118_private_bytes b n c r) (fun _ => rfl) t r

theorem C118_address_hex (t : Text) (r : Except Err Address) :
    Address.fromHex t = r ↔ HexOutcome .addrInvalidHex AddressOutcome t r :=
  hex_outcome C118_address_bytes (fun _ => rfl) t r

theorem C118_public_hex (t : Text) (n : Network) (r : Except Err PublicKey) :
    PublicKey.fromHex t (.network n) = r ↔ HexOutcome .pubInvalidHex (PublicOutcome n) t r :=
  hex_outcome (f := fun t => PublicKey.fromHex t (.network n)) (fun b r => C118_public_bytes b n r) (fun _ => rfl) t r

theorem check_outcome {α : Type} {H : Hashes} {f : Text → Except Err α} {g : Bytes → Except Err α} {invalid : Err}
    {R : Bytes → Except Err α → Prop} (hg : ∀ b r, g b = r ↔ R b r)
    (hf : ∀ t, f t = match decodeBase58h H t with
      | .error .invalidBase58h => .error invalid
      | .error e => .error e
      | .ok b => g b) (t : Text) (r : Except Err α) : f t = r ↔ CheckOutcome H invalid R t r := by
  refine graph (R := CheckOutcome H invalid R) ?_ ?_ t r
  · intro t r h
    rw [hf]
    cases h with
    | unicode h => rw [decode_unicode h]
    | check h h' => rw [decode_check h h']
    | payload h h' =>
      rw [(base58Check_iff H _ t).1 h]
      exact (hg _ _).2 h'
  · intro t
    by_cases ha : Ascii t
    swap
    · exact ⟨_, .unicode ha⟩
    by_cases hd : ∃ d, Base58Check H d t
    · obtain ⟨d, hd⟩ := hd
      exact ⟨_, .payload hd ((hg d _).1 rfl)⟩
    · exact ⟨_, .check ha fun d h => hd ⟨d, h⟩⟩

/-- C118. Base58Check texts as addresses. -/
theorem C118_address_text (H : Hashes) (t : Text) (r : Except Err Address) :
    Address.fromString H t = r ↔ CheckOutcome H .addrInvalidBase58h AddressOutcome t r :=
  check_outcome C118_address_bytes (fun _ => rfl) t r

/-! ## Extended keys -/

theorem hd_version_private (v : Nat) : Network.find (.int v) "hd_private_key" =
    if v = xprvVersion false then .ok (netOf false) else if v = xprvVersion true then .ok (netOf true)
    else .error .unknownNetwork := by
  by_cases h1 : v = xprvVersion false
  · rw [if_pos h1, h1, find_hd_private]
  rw [if_neg h1]
  by_cases h2 : v = xprvVersion true
  · rw [if_pos h2, h2, find_hd_private]
  rw [if_neg h2]
  refine (C10_unknown (.int (v : Nat)) (by simp) _ ?_).1
  intro n hn ha
  simp only [Network.all, List.mem_cons, List.not_mem_nil, or_false] at hn
  rcases hn with rfl | rfl
  · have : Network.getAttr Network.livenet "hd_private_key" = some (.int (0x0488ade4 : Nat)) := by decide +kernel
    rw [this] at ha
    simp only [Option.some.injEq, NetValue.int.injEq] at ha
    exact h1 (by exact_mod_cast ha.symm)
  · have : Network.getAttr Network.testnet "hd_private_key" = some (.int (0x04358394 : Nat)) := by decide +kernel
    rw [this] at ha
    simp only [Option.some.injEq, NetValue.int.injEq] at ha
    exact h2 (by exact_mod_cast ha.symm)

theorem hd_version_public (v : Nat) : Network.find (.int v) "hd_public_key" =
    if v = xpubVersion false then .ok (netOf false) else if v = xpubVersion true then .ok (netOf true)
    else .error .unknownNetwork := by
  by_cases h1 : v = xpubVersion false
  · rw [if_pos h1, h1, find_hd_public]
  rw [if_neg h1]
  by_cases h2 : v = xpubVersion true
  · rw [if_pos h2, h2, find_hd_public]
  rw [if_neg h2]
  refine (C10_unknown (.int (v : Nat)) (by simp) _ ?_).1
  intro n hn ha
  simp only [Network.all, List.mem_cons, List.not_mem_nil, or_false] at hn
  rcases hn with rfl | rfl
  · have : Network.getAttr Network.livenet "hd_public_key" = some (.int (0x0488b21e : Nat)) := by decide +kernel
    rw [this] at ha
    simp only [Option.some.injEq, NetValue.int.injEq] at ha
    exact h1 (by exact_mod_cast ha.symm)
  · have : Network.getAttr Network.testnet "hd_public_key" = some (.int (0x043587cf : Nat)) := by decide +kernel
    rw [this] at ha
    simp only [Option.some.injEq, NetValue.int.injEq] at ha
    exact h2 (by exact_mod_cast ha.symm)

/-- Seventy-eight bytes are the fields of an extended key. -/
theorem extended_split (d : Bytes) (h : 78 ≤ d.length) : ∃ (depth parent index : Nat) (chain : Bytes) (b : Byte) (k : Bytes),
    Extended (beValue (d.take 4)) depth parent index chain (b :: k) (d.take 78) := by
  have hcut := cut_length d h
  obtain ⟨b, hb⟩ : ∃ b, cut d 45 46 = [b] := List.length_eq_one_iff.mp (hcut 45 46 (by omega))
  refine ⟨beValue (cut d 4 5), beValue (cut d 5 9), beValue (cut d 9 13), cut d 13 45, b, cut d 46 78, cut d 0 4, cut d 4 5,
    cut d 5 9, cut d 9 13, ⟨hcut _ _ (by omega), rfl⟩, ⟨hcut _ _ (by omega), rfl⟩, ⟨hcut _ _ (by omega), rfl⟩,
    ⟨hcut _ _ (by omega), rfl⟩, hcut _ _ (by omega), by simp [hcut 46 78 (by omega)], ?_⟩
  rw [take_eq_cuts, cut_split d 45 46 78 (by omega) (by omega), hb]
  simp

theorem extended_version {v depth parent index : Nat} {chain key p : Bytes} (h : Extended v depth parent index chain key p)
    (rest : Bytes) : beValue ((p ++ rest).take 4) = v ∧ 78 ≤ (p ++ rest).length := by
  obtain ⟨vb, d, p', i, ⟨hv, ev⟩, ⟨hd, ed⟩, ⟨hp, ep⟩, ⟨hi, ei⟩, hc, hk, rfl⟩ := h
  constructor
  · have := (cuts vb d p' i chain key rest hv hd hp hi hc hk).1
    rw [show (vb ++ d ++ p' ++ i ++ chain ++ key ++ rest).take 4 = cut (vb ++ d ++ p' ++ i ++ chain ++ key ++ rest) 0 4 from rfl,
      this]
    exact ev
  · simp only [List.length_append]
    omega

theorem extended_cuts {v depth parent index : Nat} {chain key p : Bytes} (h : Extended v depth parent index chain key p)
    (rest : Bytes) : intFromBytes (cut (p ++ rest) 0 4) = v ∧ intFromBytes (cut (p ++ rest) 4 5) = depth ∧
      intFromBytes (cut (p ++ rest) 5 9) = parent ∧ intFromBytes (cut (p ++ rest) 9 13) = index ∧
      cut (p ++ rest) 13 45 = chain ∧ cut (p ++ rest) 45 78 = key ∧ cut (p ++ rest) 46 78 = key.drop 1 := by
  obtain ⟨vb, d, p', i, ⟨hv, rfl⟩, ⟨hd, rfl⟩, ⟨hp, rfl⟩, ⟨hi, rfl⟩, hc, hk, rfl⟩ := h
  obtain ⟨c1, c2, c3, c4, c5, c6, c7⟩ := cuts vb d p' i chain key rest hv hd hp hi hc hk
  rw [c1, c2, c3, c4, c5, c6, c7]
  simp only [intFromBytes_eq, and_self]

theorem a2b_unicode {H : Hashes} {t : Text} (h : ¬ Ascii t) : a2bHashedBase58 H t = .error .unicodeDecodeError := by
  rw [← not_ascii_iff] at h
  unfold a2bHashedBase58 a2bBase58
  rw [h]
  rfl

theorem a2b_check {H : Hashes} {t : Text} (ha : Ascii t) (h : ∀ d, ¬ Base58Check H d t) :
    a2bHashedBase58 H t = .error .encodingError := by
  cases hd : a2bHashedBase58 H t with
  | ok d => exact absurd (check_of_a2b hd) (h d)
  | error e =>
    have := (C88_extended_refuted H t ha fun ⟨d, h'⟩ => h d h').1
    unfold HDPrivateKey.fromString at this
    rw [hd] at this
    simp only [Except.error.injEq] at this
    rw [this]

theorem extended_outcome {α : Type} {H : Hashes} {g : Bytes → Except Err α} {R : Bytes → Except Err α → Prop}
    (hg : ∀ b r, g b = r ↔ R b r) (t : Text) (r : Except Err α) :
    (match a2bHashedBase58 H t with
      | .error e => .error e
      | .ok d => g d) = r ↔ CheckOutcome H .encodingError R t r := by
  refine graph (R := CheckOutcome H .encodingError R) (f := fun t => match a2bHashedBase58 H t with
      | .error e => .error e
      | .ok d => g d) ?_ ?_ t r
  · intro t r h
    cases h with
    | unicode h => rw [a2b_unicode h]
    | check h h' => rw [a2b_check h h']
    | payload h h' =>
      rw [a2b_of_check h]
      exact (hg _ _).2 h'
  · intro t
    by_cases ha : Ascii t
    swap
    · exact ⟨_, .unicode ha⟩
    by_cases hd : ∃ d, Base58Check H d t
    · obtain ⟨d, hd⟩ := hd
      exact ⟨_, .payload hd ((hg d _).1 rfl)⟩
    · exact ⟨_, .check ha fun d h => hd ⟨d, h⟩⟩

theorem xprv_outcome (H : Hashes) (d : Bytes) (r : Except Err HDPrivateKey) :
    HDPrivateKey.fromData H d = r ↔ XprvOutcome H d r := by
  have c0 : ∀ d : Bytes, intFromBytes (cut d 0 4) = beValue (d.take 4) := fun d => intFromBytes_eq _
  refine graph ?_ ?_ d r
  · intro d r h
    unfold HDPrivateKey.fromData
    simp only
    cases h with
    | version h =>
      rw [c0, hd_version_private, if_neg (h false), if_neg (h true)]
    | length h h' =>
      rw [c0, h, find_hd_private]
      simp only
      rw [(C118_private_bytes _ _ _ _).2 (.length (by unfold cut; simp; omega))]
    | @range test depth parent index chain b k p rest h h' hr =>
      subst h'
      obtain ⟨e0, e1, e2, e3, e4, e5, e6⟩ := extended_cuts h _
      rw [e0, find_hd_private, e6]
      simp only [List.drop_succ_cons, List.drop_zero]
      have hk : (b :: k).length = 33 := by
        obtain ⟨_, _, _, _, _, _, _, _, _, hk, _⟩ := h
        exact hk
      rw [(C118_private_bytes _ _ _ _).2 (.range (by simpa using hk) hr)]
    | @key test depth parent index chain b k p rest x y f h h' hr hx hy hp hf =>
      subst h'
      obtain ⟨e0, e1, e2, e3, e4, e5, e6⟩ := extended_cuts h rest
      rw [e0, find_hd_private, e6, e1, e2, e3, e4]
      simp only [List.drop_succ_cons, List.drop_zero]
      have hk : (b :: k).length = 33 := by
        obtain ⟨_, _, _, _, _, _, _, _, _, hk, _⟩ := h
        exact hk
      rw [(C118_private_bytes _ _ _ _).2 (.key (by simpa using hk) hr)]
      simp only
      have hr' : (0 : Int) < (beValue k : Int) ∧ (beValue k : Int) < secpN := by
        unfold InRange at hr
        omega
      obtain ⟨x', y', f', hx', hy', -, hp', hf', -, -, hnew⟩ :=
        hdpriv_new H (beValue k) (netOf test) true hr'.1 hr'.2 chain depth index parent (netOf test)
      rw [hnew]
      obtain rfl := isPoint_x_unique hp' hp hx' hx
      obtain rfl := isPoint_y_unique hp' hp hy' hy
      rw [fingerprint_unique hf' hf]
  · intro d
    by_cases hv : ∃ test, beValue (d.take 4) = xprvVersion test
    swap
    · exact ⟨_, .version fun test h => hv ⟨test, h⟩⟩
    obtain ⟨test, hv⟩ := hv
    by_cases hl : d.length < 78
    · exact ⟨_, .length hv hl⟩
    obtain ⟨depth, parent, index, chain, b, k, he⟩ := extended_split d (by omega)
    rw [hv] at he
    by_cases hr : InRange (beValue k)
    swap
    · exact ⟨_, .range he (List.take_append_drop 78 d).symm hr⟩
    have hr' : (0 : Int) < (beValue k : Int) ∧ (beValue k : Int) < secpN := by
      unfold InRange at hr
      omega
    obtain ⟨x, y, f, hx, hy, -, hp, hf, -⟩ :=
      hdpriv_new H (beValue k) (netOf test) true hr'.1 hr'.2 chain depth index parent (netOf test)
    exact ⟨_, .key he (List.take_append_drop 78 d).symm hr hx hy hp hf⟩

/-- C118. A text as an extended private key. -/
theorem C118_extended_private (H : Hashes) (t : Text) (r : Except Err HDPrivateKey) :
    HDPrivateKey.fromString H t = r ↔ CheckOutcome H .encodingError (XprvOutcome H) t r :=
  extended_outcome (xprv_outcome H) t r

/-- What is read from 33 bytes is written as them. -/
theorem public_fingerprint (H : Hashes) {n : Network} {key : Bytes} {k : PublicKey} (hl : key.length = 33)
    (h : PublicOutcome n key (.ok k)) : fingerprintOf H k = .ok (beValue ((H.ripemd160 (H.sha256 key)).take 4)) := by
  have hb := C19_prefix_partial key (.network n) k ((C118_public_bytes key n _).2 h)
  rw [List.take_of_length_le (by split <;> omega)] at hb
  unfold fingerprintOf
  rw [hb]
  simp only [intFromBytes_eq]
  rfl

theorem xpub_outcome (H : Hashes) (d : Bytes) (r : Except Err HDPublicKey) :
    HDPublicKey.fromData H d = r ↔ XpubOutcome H d r := by
  have c0 : ∀ d : Bytes, intFromBytes (cut d 0 4) = beValue (d.take 4) := fun d => intFromBytes_eq _
  refine graph ?_ ?_ d r
  · intro d r h
    unfold HDPublicKey.fromData
    simp only
    cases h with
    | version h =>
      rw [c0, hd_version_public, if_neg (h false), if_neg (h true)]
    | length h h' =>
      rw [c0, h, find_hd_public]
      simp only
      rw [(C118_public_bytes _ _ _).2 (.short (by unfold cut; simp; omega))]
    | point h h' hr =>
      subst h'
      obtain ⟨e0, e1, e2, e3, e4, e5, e6⟩ := extended_cuts h _
      rw [e0, find_hd_public, e5]
      simp only
      rw [(C118_public_bytes _ _ _).2 hr]
    | @key test depth parent index chain key p rest k f h h' hk hf =>
      subst h'
      obtain ⟨e0, e1, e2, e3, e4, e5, e6⟩ := extended_cuts h rest
      rw [e0, find_hd_public, e5, e1, e2, e3, e4]
      simp only
      rw [(C118_public_bytes _ _ _).2 hk]
      simp only
      have hl : key.length = 33 := by
        obtain ⟨_, _, _, _, _, _, _, _, _, hl, _⟩ := h
        exact hl
      unfold HDPublicKey.new
      rw [public_fingerprint H hl hk, hf.2]
  · intro d
    by_cases hv : ∃ test, beValue (d.take 4) = xpubVersion test
    swap
    · exact ⟨_, .version fun test h => hv ⟨test, h⟩⟩
    obtain ⟨test, hv⟩ := hv
    by_cases hl : d.length < 78
    · exact ⟨_, .length hv hl⟩
    obtain ⟨depth, parent, index, chain, b, k, he⟩ := extended_split d (by omega)
    rw [hv] at he
    have hp := (C118_public_bytes (b :: k) (netOf test) _).1 rfl
    cases hr : PublicKey.fromBytes ⟨.str, b :: k⟩ (.network (netOf test)) with
    | error e => exact ⟨_, .point he (List.take_append_drop 78 d).symm (hr ▸ hp)⟩
    | ok key =>
      refine ⟨_, .key he (List.take_append_drop 78 d).symm (hr ▸ hp) ⟨?_, rfl⟩⟩
      have := H.ripemd160_length (H.sha256 (b :: k))
      simp [this]

/-- C118. A text as an extended public key. -/
theorem C118_extended_public (H : Hashes) (t : Text) (r : Except Err HDPublicKey) :
    HDPublicKey.fromString H t = r ↔ CheckOutcome H .encodingError (XpubOutcome H) t r :=
  extended_outcome (xpub_outcome H) t r

/-- C118. Every text has one outcome as an extended key, and what is refused is refused in one of five ways. -/
theorem C118_extended_exceptions (H : Hashes) (t : Text) (e : Err) :
    (HDPrivateKey.fromString H t = .error e →
      e ∈ [.unicodeDecodeError, .encodingError, .unknownNetwork, .privInvalidBinaryLength, .privInvalidSecret]) ∧
    (HDPublicKey.fromString H t = .error e →
      e ∈ [.unicodeDecodeError, .encodingError, .unknownNetwork, .pubInvalidBinary, .pubInvalidPair]) := by
  constructor
  · intro h
    cases (C118_extended_private H t _).1 h with
    | unicode => simp
    | check => simp
    | payload _ h' => cases h' <;> simp
  · intro h
    cases (C118_extended_public H t _).1 h with
    | unicode => simp
    | check => simp
    | payload _ h' =>
      cases h' with
      | version => simp
      | length => simp
      | point _ _ h'' => cases h'' <;> simp

/-! ## Outcomes that occur -/

example : SecretOutcome .testnet true sampleKey (.ok ⟨beValue sampleKey, .testnet, true⟩) :=
  .key rfl (by decide +kernel)

example : ¬ InRange (beValue (List.replicate 32 (0xff : Byte))) ∧ ¬ InRange (beValue (List.replicate 32 (0 : Byte))) := by
  decide +kernel

/-- No point has the coordinate 5, and `PublicKey.from_bytes` says so of the pair and not of the bytes. -/
example : PublicOutcome .livenet (2 :: (List.replicate 31 0 ++ [5])) (.error .pubInvalidPair) :=
  (C118_public_bytes _ _ _).1 (by decide +kernel)

example : PublicOutcome .livenet (2 :: (encodeInt secpGx true (some 32) ++ [7, 7]))
    (.ok ⟨((beValue (encodeInt secpGx true (some 32)) : Nat), secpGy), .livenet, true⟩) :=
  .compressed (.inl ⟨rfl, by decide +kernel⟩) (by decide +kernel) (by unfold OnSecp; decide +kernel)
    (by unfold reduced; decide +kernel)

example : WifOutcome .toy (encodeBase58h .toy (0xef :: sampleKey ++ [1])) (.ok ⟨beValue sampleKey, .testnet, true⟩) :=
  .key (test := true) (c := true) ((base58Check_iff _ _ _).2 (decode_encodeBase58h _ _)) rfl (by decide +kernel)

example : AddressOutcome (0x05 :: List.replicate 20 7) (.ok ⟨List.replicate 20 7, .livenet, .script⟩) :=
  (C118_address_bytes _ _).1 (by decide +kernel)

example : HexOutcome .addrInvalidHex AddressOutcome "0g".toList (.error .addrInvalidHex) :=
  (C118_address_hex _ _).1 (by decide +kernel)

example : CheckOutcome .toy .encodingError (XprvOutcome .toy) "xprv0".toList (.error .encodingError) :=
  (C118_extended_private _ _ _).1 (by decide +kernel)

example : XpubOutcome .toy ([0x04, 0x88, 0xb2, 0x1e] ++ sampleChain) (.error .pubInvalidBinary) :=
  .length (test := false) (by decide +kernel) (by decide +kernel)

end Bitforge
