import Verif.Proofs.TextKind
import Verif.Props.Keys
import Verif.Props.PubKey
import Verif.Props.HdKey

/-! # C96: the text of an address or key shows what it is -/

namespace Bitforge
open Spec

/-- The 25 bytes of an address, in base 58. -/
theorem address_text {x : Byte} {p : Bytes} {t : Text} (hp : p.length = 24) (h : Base58 (x :: p) t) :
    (x = 0x00 → (∃ rest, t = '1' :: rest) ∧ 25 ≤ t.length ∧ t.length ≤ 34) ∧
    (x = 0x05 → (∃ rest, t = '3' :: rest) ∧ t.length = 34) ∧
    (x = 0x6f → (∃ c rest, t = c :: rest ∧ c ∈ ['m', 'n']) ∧ t.length = 34) ∧
    (x = 0xc4 → (∃ rest, t = '2' :: rest) ∧ t.length = 35) := by
  have hv := beValue_cons x p
  have hlt := beValue_lt p
  rw [hp] at hv hlt
  refine ⟨?_, ?_, ?_, ?_⟩
  · rintro rfl
    have hl := base58_longer h
    refine ⟨?_, by simpa [hp] using hl, ?_⟩
    · obtain ⟨ds, hd, hz, -⟩ := h
      have : leadingZeros ds ≠ 0 := by rw [hz]; simp [leadingZeros]
      match t, ds, hd with
      | [], [], _ => exact absurd rfl this
      | c :: rest, d :: ds, .cons hcd _ =>
        have hd0 : d = 0 := by
          by_contra hne
          exact this (by simp [leadingZeros, hne])
        subst hd0
        refine ⟨rest, ?_⟩
        have : some '1' = some c := hcd
        rw [← Option.some.inj this]
    · rw [base58_length h]
      have hz := beValue_zeros (0x00 :: p)
      have hk : 1 ≤ leadingZeros (((0x00 : Byte) :: p).map Fin.val) := by simp [leadingZeros]
      have hk' : leadingZeros (((0x00 : Byte) :: p).map Fin.val) ≤ 25 := by
        have := congrArg List.length (bytes_canonical (0x00 :: p))
        simp only [List.length_append, List.length_replicate, List.length_cons, hp] at this
        omega
      generalize leadingZeros (((0x00 : Byte) :: p).map Fin.val) = k at hz hk hk'
      rw [List.length_cons, hp] at hz
      have : (Nat.digits 58 (beValue (0x00 :: p))).length ≤ 34 - k := by
        rw [Nat.digits_length_le_iff (by decide)]
        refine lt_of_lt_of_le hz ?_
        interval_cases k <;> norm_num
      omega
  · rintro rfl
    obtain ⟨hl, c, rest, rfl, hc⟩ := base58_first h (leadingZeros_cons _ (by decide)) 33 (by norm_num at *; omega) (by norm_num at *; omega)
    rw [show beValue (0x05 :: p) / 58 ^ 33 = 2 by norm_num at *; omega] at hc
    exact ⟨⟨rest, by rw [← Option.some.inj (hc : some '3' = some c)]⟩, hl⟩
  · rintro rfl
    obtain ⟨hl, c, rest, rfl, hc⟩ := base58_first h (leadingZeros_cons _ (by decide)) 33 (by norm_num at *; omega) (by norm_num at *; omega)
    refine ⟨⟨c, rest, rfl, ?_⟩, hl⟩
    rcases (show beValue (0x6f :: p) / 58 ^ 33 = 44 ∨ beValue (0x6f :: p) / 58 ^ 33 = 45 by norm_num at *; omega) with e | e
    · rw [e] at hc; rw [← Option.some.inj (hc : some 'm' = some c)]; simp
    · rw [e] at hc; rw [← Option.some.inj (hc : some 'n' = some c)]; simp
  · rintro rfl
    obtain ⟨hl, c, rest, rfl, hc⟩ := base58_first h (leadingZeros_cons _ (by decide)) 34 (by norm_num at *; omega) (by norm_num at *; omega)
    rw [show beValue (0xc4 :: p) / 58 ^ 34 = 1 by norm_num at *; omega] at hc
    exact ⟨⟨rest, by rw [← Option.some.inj (hc : some '2' = some c)]⟩, hl⟩

/-- The 37 or 38 bytes of a private key, in base 58. -/
theorem wif_text {x : Byte} {p : Bytes} {t : Text} (h : Base58 (x :: p) t) :
    (p.length = 36 → x = 0x80 → (∃ c rest, t = c :: rest ∧ c ∈ ['5']) ∧ t.length = 51) ∧
    (p.length = 36 → x = 0xef → (∃ c rest, t = c :: rest ∧ c ∈ ['9']) ∧ t.length = 51) ∧
    (p.length = 37 → x = 0x80 → (∃ c rest, t = c :: rest ∧ c ∈ ['K', 'L']) ∧ t.length = 52) ∧
    (p.length = 37 → x = 0xef → (∃ c rest, t = c :: rest ∧ c ∈ ['c']) ∧ t.length = 52) := by
  have hv := beValue_cons x p
  have hlt := beValue_lt p
  refine ⟨?_, ?_, ?_, ?_⟩
  · rintro hp rfl
    rw [hp] at hv hlt
    obtain ⟨hl, c, rest, rfl, hc⟩ := base58_first h (leadingZeros_cons _ (by decide)) 50 (by norm_num at *; omega) (by norm_num at *; omega)
    rw [show beValue (0x80 :: p) / 58 ^ 50 = 4 by norm_num at *; omega] at hc
    exact ⟨⟨c, rest, rfl, by rw [← Option.some.inj (hc : some '5' = some c)]; simp⟩, hl⟩
  · rintro hp rfl
    rw [hp] at hv hlt
    obtain ⟨hl, c, rest, rfl, hc⟩ := base58_first h (leadingZeros_cons _ (by decide)) 50 (by norm_num at *; omega) (by norm_num at *; omega)
    rw [show beValue (0xef :: p) / 58 ^ 50 = 8 by norm_num at *; omega] at hc
    exact ⟨⟨c, rest, rfl, by rw [← Option.some.inj (hc : some '9' = some c)]; simp⟩, hl⟩
  · rintro hp rfl
    rw [hp] at hv hlt
    obtain ⟨hl, c, rest, rfl, hc⟩ := base58_first h (leadingZeros_cons _ (by decide)) 51 (by norm_num at *; omega) (by norm_num at *; omega)
    refine ⟨⟨c, rest, rfl, ?_⟩, hl⟩
    rcases (show beValue (0x80 :: p) / 58 ^ 51 = 18 ∨ beValue (0x80 :: p) / 58 ^ 51 = 19 by norm_num at *; omega) with e | e
    · rw [e] at hc; rw [← Option.some.inj (hc : some 'K' = some c)]; simp
    · rw [e] at hc; rw [← Option.some.inj (hc : some 'L' = some c)]; simp
  · rintro hp rfl
    rw [hp] at hv hlt
    obtain ⟨hl, c, rest, rfl, hc⟩ := base58_first h (leadingZeros_cons _ (by decide)) 51 (by norm_num at *; omega) (by norm_num at *; omega)
    rw [show beValue (0xef :: p) / 58 ^ 51 = 35 by norm_num at *; omega] at hc
    exact ⟨⟨c, rest, rfl, by rw [← Option.some.inj (hc : some 'c' = some c)]; simp⟩, hl⟩

theorem beValue_append (a b : Bytes) : beValue (a ++ b) = beValue a * 256 ^ b.length + beValue b := by
  unfold beValue
  rw [List.reverse_append, leValue_append, List.length_reverse]
  ring

/-- A string of at least 82 bytes whose first four spell the version of an extended key. -/
theorem extended_text {v p : Bytes} {t : Text} {version : Nat} (hv : BigEndian 4 version v)
    (hr : 2 ^ 26 ≤ version) (hr' : version ≤ 0x0488b21e) (hp : 78 ≤ p.length) (h : Base58 (v ++ p) t) :
    111 ≤ t.length ∧ (t.length = 111 → p.length = 78 ∧ ∃ ds, Digits58 (t.take 4) ds ∧ ds.length = 4 ∧
      ∃ r < 256 ^ 78, hornerValue 58 ds = (version * 256 ^ 78 + r) / 58 ^ 107) := by
  obtain ⟨hl, hb⟩ := hv
  have hz : leadingZeros ((v ++ p).map Fin.val) = 0 := by
    match v, hl, hb with
    | x :: r, hl, hb =>
      refine leadingZeros_cons _ fun hx => ?_
      have h1 := beValue_cons x r
      have h2 := beValue_lt r
      rw [show r.length = 3 by simpa using hl] at h1 h2
      rw [hx, hb] at h1
      norm_num at *
      omega
  have hval : beValue (v ++ p) = version * 256 ^ p.length + beValue p := by rw [beValue_append, hb]
  have hlt := beValue_lt p
  rcases Nat.eq_or_lt_of_le hp with he | hgt
  · rw [← he] at hval hlt
    obtain ⟨h1, ds, h2, h3, h4⟩ := base58_start h hz 110 4 (by norm_num at *; omega) (by norm_num at *; omega) (by omega)
    rw [hval] at h4
    exact ⟨by omega, fun _ => ⟨he.symm, ds, h2, h3, _, hlt, h4⟩⟩
  · have hbig : 58 ^ 111 ≤ beValue (v ++ p) := by
      rw [hval]
      calc 58 ^ 111 ≤ 2 ^ 26 * 256 ^ 79 := by norm_num
        _ ≤ version * 256 ^ p.length := Nat.mul_le_mul hr (Nat.pow_le_pow_right (by decide) hgt)
        _ ≤ _ := Nat.le_add_right _ _
    have hlen := base58_length h
    have := (Nat.digits_length_le_iff (b := 58) (k := 111) (by decide) (beValue (v ++ p))).not.2 (by omega)
    rw [hz] at hlen
    exact ⟨by omega, fun e => by omega⟩

theorem four_digits {u : Text} {ds : List Nat} (h : Digits58 u ds) (hl : ds.length = 4) (a b c d : Nat) (hb : b < 58) (hc : c < 58)
    (hd : d < 58) (hv : hornerValue 58 ds = ((a * 58 + b) * 58 + c) * 58 + d) : Digits58 u [a, b, c, d] := by
  have hlt := digits58_lt h
  match ds, hl with
  | [a', b', c', d'], _ =>
    have h0 : a' < 58 := hlt a' (by simp)
    have h1 : b' < 58 := hlt b' (by simp)
    have h2 : c' < 58 := hlt c' (by simp)
    have h3 : d' < 58 := hlt d' (by simp)
    simp only [hornerValue, List.foldl] at hv
    obtain ⟨rfl, rfl, rfl, rfl⟩ : a' = a ∧ b' = b ∧ c' = c ∧ d' = d := by omega
    exact h

theorem base58Check_split {H : Hashes} {d : Bytes} {t : Text} (h : Base58Check H d t) :
    ∃ cs : Bytes, cs.length = 4 ∧ Base58 (d ++ cs) t := ⟨_, checksum_length H d, h⟩

/-! ## C96 -/

theorem netOf_test (test : Bool) : decide (netOf test = .testnet) = test := by cases test <;> rfl

theorem typeOf_script (s : Bool) : decide (typeOf s = .script) = s := by cases s <;> rfl

/-- C96. What is accepted as an address begins with the character that tells its network and type, and has the usual
length. -/
theorem C96_address (H : Hashes) (t : Text) (a : Address) (h : Address.fromString H t = .ok a) :
    (∃ c rest, t = c :: rest ∧ c ∈ addressStart (decide (a.network = .testnet)) (decide (a.type = .script))) ∧
      25 ≤ t.length ∧ t.length ≤ 35 := by
  obtain ⟨b, phash, test, isScript, hb, ⟨hp, rfl⟩, rfl⟩ := (C16_from_string_iff H t a).1 h
  obtain ⟨cs, hcs, hb⟩ := base58Check_split hb
  rw [List.cons_append] at hb
  obtain ⟨h1, h2, h3, h4⟩ := address_text (by rw [List.length_append, hp, hcs]) hb
  rw [netOf_test, typeOf_script]
  cases test <;> cases isScript
  · obtain ⟨⟨r, hr⟩, hl⟩ := h1 rfl
    exact ⟨⟨_, r, hr, by simp [addressStart]⟩, by omega⟩
  · obtain ⟨⟨r, hr⟩, hl⟩ := h2 rfl
    exact ⟨⟨_, r, hr, by simp [addressStart]⟩, by omega⟩
  · obtain ⟨⟨c, r, hr, hc⟩, hl⟩ := h3 rfl
    exact ⟨⟨c, r, hr, hc⟩, by omega⟩
  · obtain ⟨⟨r, hr⟩, hl⟩ := h4 rfl
    exact ⟨⟨_, r, hr, by simp [addressStart]⟩, by omega⟩

/-- C96. What is accepted as a private key begins with the character that tells its network and whether it is compressed, and
has 51 or 52 characters. -/
theorem C96_wif (H : Hashes) (t : Text) (k : PrivateKey) (h : PrivateKey.fromWif H t = .ok k) :
    (∃ c rest, t = c :: rest ∧ c ∈ wifStart (decide (k.network = .testnet)) k.compressed) ∧
      t.length = if k.compressed then 52 else 51 := by
  obtain ⟨s, test, c, -, -, rfl, body, hl, -, hb⟩ := (C13_from_wif_iff H t k).1 h
  obtain ⟨cs, hcs, hb⟩ := base58Check_split hb
  rw [List.cons_append, List.cons_append] at hb
  obtain ⟨h1, h2, h3, h4⟩ := wif_text hb
  show (∃ c' rest, t = c' :: rest ∧ c' ∈ wifStart (decide (netOf test = .testnet)) c) ∧ t.length = if c then 52 else 51
  rw [netOf_test]
  cases test <;> cases c
  · exact h1 (by simp [hl, hcs]) rfl
  · exact h3 (by simp [hl, hcs]) rfl
  · exact h2 (by simp [hl, hcs]) rfl
  · exact h4 (by simp [hl, hcs]) rfl

theorem extended_start {H : Hashes} {test : Bool} {priv : Bool} {depth parent index : Nat} {chain key payload rest : Bytes}
    {t : Text} (hb : Base58Check H (payload ++ rest) t)
    (he : Extended (if priv then xprvVersion test else xpubVersion test) depth parent index chain key payload) :
    111 ≤ t.length ∧ (t.length = 111 → rest = [] ∧ t.take 4 = extendedStart test priv) := by
  obtain ⟨cs, hcs, hb⟩ := base58Check_split hb
  obtain ⟨v, d, p, i, hv, ⟨hd, -⟩, ⟨hp, -⟩, ⟨hi, -⟩, hc, hk, rfl⟩ := he
  rw [show v ++ d ++ p ++ i ++ chain ++ key ++ rest ++ cs = v ++ (d ++ p ++ i ++ chain ++ key ++ rest ++ cs) by simp] at hb
  have hl : (d ++ p ++ i ++ chain ++ key ++ rest ++ cs).length = 78 + rest.length := by simp; omega
  obtain ⟨h1, h2⟩ := extended_text hv (by cases test <;> cases priv <;> decide) (by cases test <;> cases priv <;> decide)
    (by omega) hb
  refine ⟨h1, fun ht => ?_⟩
  obtain ⟨h3, ds, h4, h5, r, hr, h6⟩ := h2 ht
  refine ⟨List.length_eq_zero_iff.1 (by omega), ?_⟩
  have text : ∀ (u : Text) (a b c d : Nat), Digits58 u [a, b, c, d] → u = [a, b, c, d].map base58Char :=
    fun u a b c d h => digits58_text h
  cases test <;> cases priv
  · rw [text _ 55 47 52 34 (four_digits h4 h5 55 47 52 34 (by decide) (by decide) (by decide) (by
      rw [h6]; show (0x0488b21e * 256 ^ 78 + r) / 58 ^ 107 = _; norm_num at *; omega))]; decide
  · rw [text _ 55 47 49 53 (four_digits h4 h5 55 47 49 53 (by decide) (by decide) (by decide) (by
      rw [h6]; show (0x0488ade4 * 256 ^ 78 + r) / 58 ^ 107 = _; norm_num at *; omega))]; decide
  · rw [text _ 51 47 52 34 (four_digits h4 h5 51 47 52 34 (by decide) (by decide) (by decide) (by
      rw [h6]; show (0x043587cf * 256 ^ 78 + r) / 58 ^ 107 = _; norm_num at *; omega))]; decide
  · rw [text _ 51 47 49 53 (four_digits h4 h5 51 47 49 53 (by decide) (by decide) (by decide) (by
      rw [h6]; show (0x04358394 * 256 ^ 78 + r) / 58 ^ 107 = _; norm_num at *; omega))]; decide

/-- C96. What is accepted as an extended key has at least 111 characters, and begins with `xprv`, `xpub`, `tprv` or `tpub`, as
its network and kind require, if it has no more.  (Longer texts have trailing bytes, see C56.) -/
theorem C96_extended (H : Hashes) (t : Text) :
    (∀ k, HDPrivateKey.fromString H t = .ok k → 111 ≤ t.length ∧
      (t.length = 111 → t.take 4 = extendedStart (decide (k.network = .testnet)) true)) ∧
    ∀ k, HDPublicKey.fromString H t = .ok k → 111 ≤ t.length ∧
      (t.length = 111 → t.take 4 = extendedStart (decide (k.network = .testnet)) false) := by
  constructor
  · intro k h
    obtain ⟨test, depth, index, b45, kb, payload, rest, hb, he, -, -, hn, -⟩ := C56_private_sound H t k h
    rw [hn, netOf_test]
    obtain ⟨h1, h2⟩ := extended_start (priv := true) hb he
    exact ⟨h1, fun e => (h2 e).2⟩
  · intro k h
    obtain ⟨test, depth, index, key, payload, rest, hb, he, -, -, hn, -⟩ := C56_public_sound H t k h
    rw [hn, netOf_test]
    obtain ⟨h1, h2⟩ := extended_start (priv := false) hb he
    exact ⟨h1, fun e => (h2 e).2⟩

/-- The texts in base 58. -/
inductive TextKind
  | address | wif | extendedPrivate | extendedPublic
  deriving DecidableEq

/-- Is the text accepted as such? -/
def TextKind.Accepts (H : Hashes) (t : Text) : TextKind → Prop
  | .address => ∃ a, Address.fromString H t = .ok a
  | .wif => ∃ k, PrivateKey.fromWif H t = .ok k
  | .extendedPrivate => ∃ k, HDPrivateKey.fromString H t = .ok k
  | .extendedPublic => ∃ k, HDPublicKey.fromString H t = .ok k

/-- The two kinds of extended keys have different versions. -/
theorem extended_exclusive {H : Hashes} {t : Text} {k : HDPrivateKey} {k' : HDPublicKey}
    (h : HDPrivateKey.fromString H t = .ok k) (h' : HDPublicKey.fromString H t = .ok k') : False := by
  obtain ⟨test, depth, index, b45, kb, payload, rest, hb, he, -⟩ := C56_private_sound H t k h
  obtain ⟨test', depth', index', key', payload', rest', hb', he', -⟩ := C56_public_sound H t k' h'
  have e : payload ++ rest = payload' ++ rest' := by
    rw [base58Check_iff] at hb hb'
    exact Except.ok.inj (hb.symm.trans hb')
  obtain ⟨v, d, p, i, ⟨hv, ev⟩, -, -, -, -, -, rfl⟩ := he
  obtain ⟨v', d', p', i', ⟨hv', ev'⟩, -, -, -, -, -, rfl⟩ := he'
  have : v = v' := by
    have := congrArg (List.take 4) e
    simpa [List.take_append, hv, hv', List.take_of_length_le] using this
  subst this
  rw [ev] at ev'
  revert ev'
  cases test <;> cases test' <;> decide

/-- C96. No text is accepted as two different things. -/
theorem C96_disjoint (H : Hashes) (t : Text) (k k' : TextKind) (h : k.Accepts H t) (h' : k'.Accepts H t) : k = k' := by
  have ha : TextKind.address.Accepts H t → t.length ≤ 35 := fun ⟨a, h⟩ => (C96_address H t a h).2.2
  have hw : TextKind.wif.Accepts H t → 51 ≤ t.length ∧ t.length ≤ 52 := fun ⟨a, h⟩ => by
    have := (C96_wif H t a h).2
    split at this <;> omega
  have hx : TextKind.extendedPrivate.Accepts H t → 111 ≤ t.length := fun ⟨a, h⟩ => ((C96_extended H t).1 a h).1
  have hy : TextKind.extendedPublic.Accepts H t → 111 ≤ t.length := fun ⟨a, h⟩ => ((C96_extended H t).2 a h).1
  cases k <;> cases k' <;> first
    | rfl
    | (exfalso; first | exact extended_exclusive h.choose_spec h'.choose_spec | exact extended_exclusive h'.choose_spec h.choose_spec)
    | (exfalso
       first
       | (have := ha h; have := hw h'; omega) | (have := hw h; have := ha h'; omega)
       | (have := ha h; have := hx h'; omega) | (have := hx h; have := ha h'; omega)
       | (have := ha h; have := hy h'; omega) | (have := hy h; have := ha h'; omega)
       | (have := hw h; have := hx h'; omega) | (have := hx h; have := hw h'; omega)
       | (have := hw h; have := hy h'; omega) | (have := hy h; have := hw h'; omega))

theorem toBytes32_length {v : Int} {b : Bytes} (h : toBytes32 v = .ok b) : b.length = 32 := by
  unfold toBytes32 at h
  simp only at h
  split at h
  · cases h
  · cases h
    rw [List.length_drop, List.length_append, List.length_replicate]
    omega

theorem sec_length {k : PublicKey} {b : Bytes} (h : k.toBytes = .ok b) : b.length = if k.compressed then 33 else 65 := by
  unfold PublicKey.toBytes publicPairToSec at h
  cases hx : toBytes32 k.pair.1 with
  | error e => rw [hx] at h; cases h
  | ok x =>
    rw [hx] at h
    have lx := toBytes32_length hx
    cases hc : k.compressed with
    | true =>
      rw [hc] at h
      cases h
      simp [lx]
    | false =>
      rw [hc] at h
      cases hy : toBytes32 k.pair.2 with
      | error e => rw [hy] at h; cases h
      | ok y =>
        rw [hy] at h
        cases h
        simp [lx, toBytes32_length hy]

theorem decodeHex_length {t : Text} {b : Bytes} (h : decodeHex t = .ok b) : t.length = 2 * b.length := by
  unfold decodeHex at h
  split at h
  · cases hu : unhexlify t with
    | none => rw [hu] at h; cases h
    | some d =>
      rw [hu] at h
      obtain rfl : d = b := Except.ok.inj h
      have := congrArg List.length ((unhexlify_iff _ _).1 hu).2
      rw [encodeHex_length, List.length_map] at this
      exact this.symm
  · cases h

/-- C96. The hexadecimal forms of addresses, private keys and public keys are told apart by their lengths, and no
hexadecimal private key is accepted as a text in base 58. -/
theorem C96_hex (t : Text) (n : NetValue) (c : Bool) :
    (∀ a, Address.fromHex t = .ok a → t.length = 42) ∧ (∀ k, PrivateKey.fromHex t n c = .ok k → t.length = 64) ∧
    (∀ k, PublicKey.fromHex t n = .ok k → if k.compressed then 66 ≤ t.length else 130 ≤ t.length) ∧
    ∀ k, PrivateKey.fromHex t n c = .ok k → ∀ H kind, ¬ TextKind.Accepts H t kind := by
  have hp : ∀ k, PrivateKey.fromHex t n c = .ok k → t.length = 64 := by
    intro k h
    unfold PrivateKey.fromHex at h
    split at h
    · cases h
    · cases h
    · next b hb =>
      rw [decodeHex_length hb]
      unfold PrivateKey.fromBytes at h
      split at h
      · cases h
      · omega
  refine ⟨?_, hp, ?_, ?_⟩
  · intro a h
    unfold Address.fromHex at h
    split at h
    · cases h
    · cases h
    · next b hb =>
      rw [decodeHex_length hb]
      unfold Address.fromBytes at h
      split at h
      · cases h
      · omega
  · intro k h
    unfold PublicKey.fromHex at h
    split at h
    · cases h
    · cases h
    · next b hb =>
      rw [decodeHex_length hb]
      have hpre := sec_length (C19_prefix_partial b n k h)
      rw [List.length_take] at hpre
      cases hc : k.compressed <;> simp only [hc, if_true, if_false, Bool.false_eq_true] at hpre ⊢ <;> omega
  · intro k h H kind hk
    have := hp k h
    cases kind with
    | address => have := (C96_address H t _ hk.choose_spec).2.2; omega
    | wif =>
      have := (C96_wif H t _ hk.choose_spec).2
      split at this <;> omega
    | extendedPrivate => have := ((C96_extended H t).1 _ hk.choose_spec).1; omega
    | extendedPublic => have := ((C96_extended H t).2 _ hk.choose_spec).1; omega

example : ∃ t, PrivateKey.fromWif Hashes.toy t = .ok ⟨1, netOf true, true⟩ ∧ (∃ rest, t = 'c' :: rest) ∧
    ∀ a, Address.fromString Hashes.toy t ≠ .ok a := by
  obtain ⟨t, -, ht⟩ := C12_roundtrip Hashes.toy 1 true true (by decide) (by decide)
  refine ⟨t, ht, ?_, fun a ha => ?_⟩
  · obtain ⟨⟨c, rest, hr, hc⟩, -⟩ := C96_wif _ _ _ ht
    rw [show wifStart _ _ = ['c'] from rfl] at hc
    exact ⟨rest, by rw [hr, List.mem_singleton.1 hc]⟩
  · cases C96_disjoint _ t .wif .address ⟨_, ht⟩ ⟨_, ha⟩

example : ∃ t k, HDPrivateKey.fromString Hashes.toy t = .ok k ∧ t.length = 111 ∧ t.take 4 = ['t', 'p', 'r', 'v'] := by
  obtain ⟨x, y, f, -, -, -, -, h⟩ := C56_private Hashes.toy true 3 258 0x80000009 sampleChain sampleKey sampleXprv
    (encodeBase58h Hashes.toy sampleXprv)
    ⟨_, _, _, _, ⟨rfl, by decide⟩, ⟨rfl, by decide⟩, ⟨rfl, by decide⟩, ⟨rfl, by decide⟩, rfl, rfl, rfl⟩
    ((base58Check_iff _ _ _).2 (decode_encodeBase58h _ _)) (by decide +kernel) (by decide +kernel)
  have hl : (encodeBase58h Hashes.toy sampleXprv).length = 111 := by decide +kernel
  exact ⟨_, _, h, hl, ((C96_extended _ _).1 _ h).2 hl⟩

example : PrivateKey.fromHex (encodeHex (List.replicate 31 0 ++ [9])) = .ok ⟨9, Network.livenet, true⟩ ∧
    Address.fromHex (encodeHex (0xc4 :: List.replicate 20 7)) = .ok ⟨List.replicate 20 7, netOf true, .script⟩ := by
  decide +kernel

end Bitforge
