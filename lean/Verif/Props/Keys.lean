import Verif.Proofs.Keys

/-! # C10–C16: networks, private keys, addresses -/

namespace Bitforge
open Spec

/-! ## C10 network lookup -/

/-- The nine attributes of a network. -/
def netAttrs : List String := ["name", "pubkeyhash", "wif_prefix", "scripthash", "hd_public_key",
  "hd_private_key", "magic", "port", "seeds"]

/-- C10. Looking up any attribute of a known network by its own value returns that network. -/
theorem C10_own_value (n : Network) (hn : n ∈ Network.all) (attr : String) (ha : attr ∈ netAttrs) :
    ∃ v, n.getAttr attr = some v ∧ Network.find v attr = .ok n ∧ Network.find? v attr = some n := by
  have : ∀ n ∈ Network.all, ∀ attr ∈ netAttrs, ∃ v, n.getAttr attr = some v ∧
      Network.find v attr = .ok n ∧ Network.find? v attr = some n := by
    intro n hn
    simp only [Network.all, List.mem_cons, List.not_mem_nil, or_false] at hn
    rcases hn with rfl | rfl <;> intro a ha <;>
      simp only [netAttrs, List.mem_cons, List.not_mem_nil, or_false] at ha <;>
      rcases ha with rfl | rfl | rfl | rfl | rfl | rfl | rfl | rfl | rfl <;>
      exact ⟨_, rfl, by decide +kernel, by decide +kernel⟩
  exact this n hn attr ha

/-- C10. What is found by a value (not a network object) is a known network with that value. -/
theorem C10_sound (v : NetValue) (hv : ∀ m, v ≠ .network m) (attr : String) (n : Network)
    (h : Network.find v attr = .ok n) : n ∈ Network.all ∧ n.getAttr attr = some v := by
  unfold Network.find Network.find? at h
  have key : ∀ l : List Network, Network.findLoop v attr l = some n → n ∈ l ∧ n.getAttr attr = some v := by
    intro l
    induction l with
    | nil => intro h; cases h
    | cons m l ih =>
      intro h
      unfold Network.findLoop at h
      split at h
      · cases h
      · next w hw =>
        split at h
        · next e => simp at h; subst h; exact ⟨by simp, by rw [hw, e]⟩
        · obtain ⟨h1, h2⟩ := ih h; exact ⟨by simp [h1], h2⟩
  cases v with
  | network m => exact absurd rfl (hv m)
  | int _ | text _ | list _ =>
    simp only at h
    split at h
    · next m hm => simp at h; subst h; exact key _ hm
    · cases h

/-- C10. A value no known network has raises UnknownNetwork, or gives None. -/
theorem C10_unknown (v : NetValue) (hv : ∀ m, v ≠ .network m) (attr : String)
    (h : ∀ n ∈ Network.all, n.getAttr attr ≠ some v) :
    Network.find v attr = .error .unknownNetwork ∧ Network.find? v attr = none := by
  have e : Network.find v attr = .error .unknownNetwork := by
    cases hf : Network.find v attr with
    | ok n => exact absurd (C10_sound v hv attr n hf).2 (h n (C10_sound v hv attr n hf).1)
    | error e =>
      unfold Network.find at hf
      split at hf
      · cases hf
      · exact hf.symm
  refine ⟨e, ?_⟩
  unfold Network.find at e
  split at e
  · cases e
  · assumption

/-- C10. A network object is returned as it is. -/
theorem C10_object (n : Network) (attr : String) : Network.find (.network n) attr = .ok n := rfl

/-- C10. The version numbers are Bitcoin's. -/
theorem C10_constants : ∀ test : Bool,
    (netOf test).name = (if test then "testnet" else "livenet").toList ∧
    (netOf test).wifPrefix = (pick wifVersions test).val ∧
    (netOf test).pubkeyhash = (pick p2pkhVersions test).val ∧
    (netOf test).scripthash = (pick p2shVersions test).val ∧
    (netOf test).hdPublicKey = (if test then 0x043587cf else 0x0488b21e) ∧
    (netOf test).hdPrivateKey = (if test then 0x04358394 else 0x0488ade4) ∧
    (netOf test).magic = (if test then 0x0b110907 else 0xf9beb4d9) ∧
    (netOf test).port = (if test then 18333 else 8333) ∧ netOf test ∈ Network.all := by
  decide +kernel

example : Network.find (.int 111) "pubkeyhash" = .ok Network.testnet ∧
    Network.find (.int 112) "pubkeyhash" = .error .unknownNetwork ∧
    Network.find (.int 111) "colour" = .error .unknownNetwork := by decide +kernel
example : ∀ n ∈ Network.all, n.getAttr "pubkeyhash" ≠ some (.int 112) := by decide +kernel

/-! ## C11 private key range -/

/-- The ways of obtaining a `PrivateKey`. -/
inductive Obtained (H : Hashes) : PrivateKey → Prop
  | new {secret network compressed random k} (h : PrivateKey.new secret network compressed random = .ok k) :
      Obtained H k
  | fromBytes {b network compressed k} (h : PrivateKey.fromBytes b network compressed = .ok k) : Obtained H k
  | fromHex {t network compressed k} (h : PrivateKey.fromHex t network compressed = .ok k) : Obtained H k
  | fromWif {t k} (h : PrivateKey.fromWif H t = .ok k) : Obtained H k

/-- C11. Every private key has a secret in range. -/
theorem C11_in_range (H : Hashes) (k : PrivateKey) (h : Obtained H k) :
    0 < k.secret ∧ k.secret < 0xfffffffffffffffffffffffffffffffebaaedce6af48a03bbfd25e8cd0364141 := by
  have new : ∀ {s n c r}, PrivateKey.new s n c r = .ok k → 0 < k.secret ∧ k.secret < PrivateKey.keyMax := by
    intro s n c r h
    unfold PrivateKey.new at h
    split at h
    · cases h
    · simp only at h
      split at h
      · cases h
      · next hr => simp at h; subst h; simpa using hr
  have fb : ∀ {b n c}, PrivateKey.fromBytes b n c = .ok k → 0 < k.secret ∧ k.secret < PrivateKey.keyMax := by
    intro b n c h
    unfold PrivateKey.fromBytes at h
    split at h
    · cases h
    · exact new h
  cases h with
  | new h => exact new h
  | fromBytes h => exact fb h
  | fromHex h =>
    unfold PrivateKey.fromHex at h
    split at h
    · cases h
    · cases h
    · exact fb h
  | fromWif h =>
    obtain ⟨d, _, h | h⟩ := (fromWif_ok_iff H _ k).1 h
    · match d, h with
      | b :: rest, h =>
        obtain ⟨t, _, h1, h2, rfl⟩ := (fromWifBody_cons _ _ _ _).1 h.2
        exact ⟨by simpa using h1, h2⟩
    · match hd : d.dropLast, h with
      | [], h => cases h.2.2
      | b :: rest, h =>
        obtain ⟨t, _, h1, h2, rfl⟩ := (fromWifBody_cons _ _ _ _).1 h.2.2
        exact ⟨by simpa using h1, h2⟩

/-- C11. The constructor accepts exactly the secrets in range and keeps them; others raise InvalidSecret. -/
theorem C11_constructor (s : Int) (n : Network) (c : Bool) :
    PrivateKey.make s (.network n) c =
      if 0 < s ∧ s < 0xfffffffffffffffffffffffffffffffebaaedce6af48a03bbfd25e8cd0364141 then .ok ⟨s, n, c⟩
      else .error .privInvalidSecret := make_network s n c

/-- C11. Without a secret, any value the random generator may return (`1 ≤ r ≤ n-1`) is used as it is. -/
theorem C11_random (r : Int) (n : Network) (c : Bool) (h1 : 1 ≤ r) (h2 : r ≤ PrivateKey.keyMax - 1) :
    PrivateKey.new none (.network n) c r = .ok ⟨r, n, c⟩ := by
  have := make_network r n c
  rw [if_pos ⟨by omega, by omega⟩] at this
  exact this

/-- C11. An unknown network is reported before the secret is looked at. -/
theorem C11_unknown_network (s : Option Int) (v : NetValue) (c : Bool) (r : Int)
    (h : Network.find v = .error .unknownNetwork) :
    PrivateKey.new s v c r = .error .privUnknownNetwork := by
  simp [PrivateKey.new, PrivateKey.findNetwork, h]

example : PrivateKey.make 5 = .ok ⟨5, Network.livenet, true⟩ ∧ PrivateKey.make 0 = .error .privInvalidSecret ∧
    PrivateKey.make secpN = .error .privInvalidSecret := by decide +kernel
example : Obtained Hashes.toy ⟨5, Network.livenet, true⟩ :=
  .new (secret := some 5) (network := .network .livenet) (compressed := true) (random := 0) (by decide +kernel)

/-! ## C12, C13 WIF -/

/-- C12. `to_wif` of a key of a known network is its Wallet Import Format. -/
theorem C12_to_wif (H : Hashes) (s : Nat) (test c : Bool) (hs : 0 < s) (hn : s < secpN) (t : Text) :
    PrivateKey.toWif H ⟨s, netOf test, c⟩ = .ok t ↔ Wif H s test c t := by
  have hb : beValue (PrivateKey.toBytes ⟨s, netOf test, c⟩) = s := by
    have := decodeInt_toBytes (k := ⟨s, netOf test, c⟩) (by simpa using hs)
      (by simpa [PrivateKey.keyMax] using hn)
    rw [decodeInt_big] at this; simpa using this
  have hl : (PrivateKey.toBytes ⟨s, netOf test, c⟩).length = 32 := encodeInt_length _ _ _
  rw [toWif_known H _ test rfl]
  simp only [Except.ok.injEq]
  constructor
  · rintro rfl
    exact ⟨_, hl, hb, (base58Check_iff _ _ _).2 (decode_encodeBase58h H _)⟩
  · rintro ⟨body, h1, h2, h3⟩
    have : body = PrivateKey.toBytes ⟨s, netOf test, c⟩ := beValue_inj _ _ (by rw [h1, hl]) (by rw [h2, hb])
    rw [← this]
    exact (decodeBase58h_iff H _ _).1 ((base58Check_iff _ _ _).1 h3)

/-- C13. `from_wif` accepts exactly the Wallet Import Formats of secrets in range, and returns the key they
denote. -/
theorem C13_from_wif_iff (H : Hashes) (t : Text) (k : PrivateKey) :
    PrivateKey.fromWif H t = .ok k ↔
      ∃ (s : Nat) (test c : Bool), 0 < s ∧ s < secpN ∧ k = ⟨s, netOf test, c⟩ ∧ Wif H s test c t := by
  rw [fromWif_ok_iff]
  constructor
  · rintro ⟨d, hd, h | h⟩
    · match d, h with
      | b :: rest, h =>
        obtain ⟨test, hb, h1, h2, hk⟩ := (fromWifBody_cons _ _ _ _).1 h.2
        refine ⟨decodeInt rest, test, false, h1, by simpa [PrivateKey.keyMax] using h2, hk, rest,
          by simpa using h.1, (decodeInt_big rest).symm, ?_⟩
        rw [base58Check_iff, hd, hb]; simp
    · obtain ⟨hl, hlast, hbody⟩ := h
      obtain ⟨d', rfl⟩ : ∃ d', d = d' ++ [1] := by
        rcases List.getLast?_eq_some_iff.1 hlast with ⟨d', hd'⟩; exact ⟨d', hd'⟩
      rw [List.dropLast_concat] at hbody
      match d', hl, hbody with
      | b :: rest, hl, hbody =>
        obtain ⟨test, hb, h1, h2, hk⟩ := (fromWifBody_cons _ _ _ _).1 hbody
        refine ⟨decodeInt rest, test, true, h1, by simpa [PrivateKey.keyMax] using h2, hk, rest,
          by simpa using hl, (decodeInt_big rest).symm, ?_⟩
        rw [base58Check_iff, hd, hb]; simp
      | [], hl, _ => simp at hl
  · rintro ⟨s, test, c, h1, h2, rfl, body, hl, hv, hc⟩
    refine ⟨_, (base58Check_iff _ _ _).1 hc, ?_⟩
    have hd : decodeInt body = s := by rw [decodeInt_big, hv]
    cases c
    · left
      refine ⟨by simp [hl], ?_⟩
      simp only [Bool.false_eq_true, if_false, List.append_nil]
      rw [fromWifBody_cons]
      exact ⟨test, rfl, by omega, by rw [hd]; simpa [PrivateKey.keyMax] using h2, by rw [hd]⟩
    · right
      simp only [if_true]
      refine ⟨by simp [hl], by rw [List.getLast?_concat], ?_⟩
      rw [List.dropLast_concat, fromWifBody_cons]
      exact ⟨test, rfl, by omega, by rw [hd]; simpa [PrivateKey.keyMax] using h2, by rw [hd]⟩

/-- C12. Round trip: `from_wif(k.to_wif()) == k`. -/
theorem C12_roundtrip (H : Hashes) (s : Int) (test c : Bool) (h1 : 0 < s) (h2 : s < secpN) :
    ∃ t, PrivateKey.toWif H ⟨s, netOf test, c⟩ = .ok t ∧ PrivateKey.fromWif H t = .ok ⟨s, netOf test, c⟩ := by
  obtain ⟨n, rfl⟩ := Int.eq_ofNat_of_zero_le (by omega : 0 ≤ s)
  refine ⟨_, toWif_known H _ test rfl, ?_⟩
  rw [C13_from_wif_iff]
  refine ⟨n, test, c, by omega, by omega, rfl, ?_⟩
  exact (C12_to_wif H n test c (by omega) (by omega) _).1 (toWif_known H _ test rfl)

/-- C13. Canonical: an accepted string is the `to_wif` of the key it gives. -/
theorem C13_canonical (H : Hashes) (t : Text) (k : PrivateKey) (h : PrivateKey.fromWif H t = .ok k) :
    k.toWif H = .ok t := by
  obtain ⟨s, test, c, h1, h2, rfl, hw⟩ := (C13_from_wif_iff H t k).1 h
  exact (C12_to_wif H s test c h1 h2 t).2 hw

/-- C13. The documented exceptions, for well-checksummed strings with payload `d`. -/
theorem C13_reject (H : Hashes) (t : Text) (d : Bytes) (hd : Base58Check H d t) :
    (d.length ≠ 33 → d.length ≠ 34 → PrivateKey.fromWif H t = .error .privInvalidWifLength) ∧
    (d.length = 34 → d.getLast? ≠ some 1 → PrivateKey.fromWif H t = .error .privInvalidCompressionByte) ∧
    (d.length = 33 ∨ d.length = 34 ∧ d.getLast? = some 1 → d.head? ≠ some 0x80 → d.head? ≠ some 0xef →
      PrivateKey.fromWif H t = .error .privUnknownNetwork) := by
  rw [base58Check_iff] at hd
  refine ⟨?_, ?_, ?_⟩
  · intro h1 h2; simp [PrivateKey.fromWif, hd, h1, h2]
  · intro h1 h2; simp [PrivateKey.fromWif, hd, h1, h2]
  · intro h1 h2 h3
    have body : ∀ b rest c, some b ≠ some (0x80 : Byte) → some b ≠ some (0xef : Byte) →
        PrivateKey.fromWifBody (b :: rest) c = .error .privUnknownNetwork := by
      intro b rest c hb hb'
      simp only [PrivateKey.fromWifBody]
      rw [find_wif_error b (by simpa using hb) (by simpa using hb')]
    match d, h1, h2, h3, hd with
    | [], h1, _, _, _ => simp at h1
    | b :: rest, h1, h2, h3, hd =>
      unfold PrivateKey.fromWif
      rw [hd]
      rcases h1 with h1 | ⟨h1, h1'⟩
      · simp only [h1, if_true]; exact body b rest false h2 h3
      · simp only [h1, h1']
        rw [if_neg (by decide), if_pos trivial, if_neg (by simp)]
        match rest, h1 with
        | r :: rs, _ => exact body b _ true h2 h3

/-- C13. ASCII text that is not Base58Check raises InvalidBase58h. -/
theorem C13_reject_base58 (H : Hashes) (t : Text) (ha : isAscii t = true) (h : ∀ d, ¬ Base58Check H d t) :
    PrivateKey.fromWif H t = .error .privInvalidBase58h := by
  unfold PrivateKey.fromWif
  cases hd : decodeBase58h H t with
  | ok d => exact absurd ((base58Check_iff H d t).2 hd) (h d)
  | error e =>
    rcases decodeBase58h_error H t e hd with rfl | ⟨_, h2⟩
    · rfl
    · rw [ha] at h2; cases h2

example : ∃ t, PrivateKey.toWif Hashes.toy ⟨1, netOf true, true⟩ = .ok t ∧
    PrivateKey.fromWif Hashes.toy t = .ok ⟨1, netOf true, true⟩ :=
  C12_roundtrip Hashes.toy 1 true true (by decide) (by decide)
example : PrivateKey.fromWif Hashes.toy (encodeBase58h Hashes.toy [1, 2]) = .error .privInvalidWifLength := by
  decide +kernel
example : Base58Check Hashes.toy [1, 2] (encodeBase58h Hashes.toy [1, 2]) :=
  (base58Check_iff _ _ _).2 (decode_encodeBase58h _ _)

/-! ## C14 private key bytes and hex -/

/-- C14. The byte form is 32 bytes, big-endian. -/
theorem C14_to_bytes (k : PrivateKey) (h1 : 0 < k.secret) (h2 : k.secret < secpN) :
    k.toBytes.length = 32 ∧ (beValue k.toBytes : Int) = k.secret := by
  refine ⟨encodeInt_length _ _ _, ?_⟩
  rw [← decodeInt_big]; exact decodeInt_toBytes h1 h2

/-- C14. Exact behaviour of `from_bytes`. -/
theorem C14_from_bytes_iff (b : Bytes) (n : Network) (c : Bool) :
    PrivateKey.fromBytes b (.network n) c =
      if b.length ≠ 32 then .error .privInvalidBinaryLength
      else if 0 < beValue b ∧ beValue b < secpN then .ok ⟨beValue b, n, c⟩ else .error .privInvalidSecret := by
  unfold PrivateKey.fromBytes
  split
  · rfl
  · rw [make_network, decodeInt_big]
    simp [PrivateKey.keyMax]

/-- C14. Both forms round-trip, given the network and flag. -/
theorem C14_roundtrip (k : PrivateKey) (h1 : 0 < k.secret) (h2 : k.secret < secpN) :
    PrivateKey.fromBytes k.toBytes (.network k.network) k.compressed = .ok k ∧
    PrivateKey.fromHex k.toHex (.network k.network) k.compressed = .ok k := by
  have hb : PrivateKey.fromBytes k.toBytes (.network k.network) k.compressed = .ok k := by
    unfold PrivateKey.fromBytes
    rw [if_neg (by simp [PrivateKey.toBytes, encodeInt_length]), make_network, decodeInt_toBytes h1 h2,
      if_pos ⟨h1, h2⟩]
  refine ⟨hb, ?_⟩
  unfold PrivateKey.fromHex PrivateKey.toHex
  rw [decodeHex_encodeHex]; exact hb

/-- C14. Conversely `from_bytes(b).to_bytes() == b`: one byte string per key. -/
theorem C14_canonical (b : Bytes) (v : NetValue) (c : Bool) (k : PrivateKey)
    (h : PrivateKey.fromBytes b v c = .ok k) : k.toBytes = b ∧ k.compressed = c := by
  unfold PrivateKey.fromBytes at h
  split at h
  · cases h
  · next hl =>
    obtain ⟨n, _, _, _, rfl⟩ := (make_ok_iff _ _ _ _).1 h
    refine ⟨?_, rfl⟩
    have := encodeInt_decodeInt b true
    rw [Decidable.not_not.1 hl] at this
    exact this

example : PrivateKey.fromBytes (List.replicate 31 0 ++ [9]) = .ok ⟨9, Network.livenet, true⟩ := by decide +kernel
example : PrivateKey.fromBytes [1, 2, 3] = .error .privInvalidBinaryLength := by decide +kernel

/-! ## C15, C16 addresses -/

/-- The type an address has, as the specification's flag. -/
def typeOf (isScript : Bool) : AddrType := if isScript then .script else .publicKey

/-- C15. The byte form of an address of a known network. -/
theorem C15_to_bytes (phash : Bytes) (h : phash.length = 20) (test isScript : Bool) (b : Bytes) :
    Address.toBytes ⟨phash, netOf test, typeOf isScript⟩ = .ok b ↔ AddressBytes phash test isScript b := by
  have : Address.toBytes ⟨phash, netOf test, typeOf isScript⟩ =
      .ok (pick (if isScript then p2shVersions else p2pkhVersions) test :: phash) := by
    unfold Address.toBytes
    have : pyChr (Address.version ⟨phash, netOf test, typeOf isScript⟩) =
        .ok (pick (if isScript then p2shVersions else p2pkhVersions) test) := by
      cases test <;> cases isScript <;> rfl
    rw [this]; rfl
  rw [this]
  simp only [Except.ok.injEq, AddressBytes]
  exact ⟨fun e => ⟨h, e.symm⟩, fun e => e.2.symm⟩

/-- C16. `from_bytes` accepts exactly the four kinds of 21-byte strings and classifies them by version. -/
theorem C16_from_bytes_iff (b : Bytes) (a : Address) :
    Address.fromBytes b = .ok a ↔
      ∃ phash test isScript, AddressBytes phash test isScript b ∧ a = ⟨phash, netOf test, typeOf isScript⟩ := by
  constructor
  · intro h
    unfold Address.fromBytes at h
    split at h
    · cases h
    · next hl =>
      simp only [Decidable.not_not] at hl
      match b, hl, h with
      | v :: phash, hl, h =>
        rw [classify_eq] at h
        have hp : phash.length = 20 := by simpa using hl
        have new : ∀ n t, Address.new ((v :: phash).drop 1) (.network n) (some t) = .ok ⟨phash, n, t⟩ := by
          intro n t; simp [Address.new, Network.find, Network.find?, hp]
        split at h
        · cases h
        · next n ty he =>
          rw [new] at h
          simp only [Except.ok.injEq] at h
          subst h
          split at he
          · next hv => simp at he; obtain ⟨rfl, rfl⟩ := he
                       exact ⟨phash, false, false, ⟨hp, by simp [pick, p2pkhVersions, hv]⟩, rfl⟩
          · split at he
            · next hv => simp at he; obtain ⟨rfl, rfl⟩ := he
                         exact ⟨phash, true, false, ⟨hp, by simp [pick, p2pkhVersions, hv]⟩, rfl⟩
            · split at he
              · next hv => simp at he; obtain ⟨rfl, rfl⟩ := he
                           exact ⟨phash, false, true, ⟨hp, by simp [pick, p2shVersions, hv]⟩, rfl⟩
              · split at he
                · next hv => simp at he; obtain ⟨rfl, rfl⟩ := he
                             exact ⟨phash, true, true, ⟨hp, by simp [pick, p2shVersions, hv]⟩, rfl⟩
                · cases he
  · rintro ⟨phash, test, isScript, ⟨hp, rfl⟩, rfl⟩
    unfold Address.fromBytes
    rw [if_neg (by simp [hp]), classify_eq]
    cases test <;> cases isScript <;>
      simp [pick, p2shVersions, p2pkhVersions, Address.new, Network.find, Network.find?, hp, netOf, typeOf]

/-- C16. Rejections: wrong length, unknown version. -/
theorem C16_from_bytes_reject (b : Bytes) :
    (b.length ≠ 21 → Address.fromBytes b = .error .addrInvalidBinaryLength) ∧
    (b.length = 21 → (∀ v ∈ [(0x00 : Byte), 0x6f, 0x05, 0xc4], b.head? ≠ some v) →
      Address.fromBytes b = .error .addrInvalidVersion) := by
  constructor
  · intro h; simp [Address.fromBytes, h]
  · intro h hv
    match b, h, hv with
    | v :: rest, h, hv =>
      have e : Address.classifyBytes (v :: rest) = .error .addrInvalidVersion := by
        rw [classify_eq]
        rw [if_neg, if_neg, if_neg, if_neg] <;> rintro rfl <;> simp at hv
      unfold Address.fromBytes
      rw [if_neg (by simpa using h), e]

/-- C16. `classify_bytes` looks only at the first byte, for byte strings of every length; the empty string raises
`IndexError`. -/
theorem C16_classify (b : Bytes) : Address.classifyBytes b = match b with
    | [] => .error .indexError
    | v :: _ => match [false, true].findSome? fun isScript => [false, true].findSome? fun test =>
        if v = pick (if isScript then p2shVersions else p2pkhVersions) test then some (netOf test, typeOf isScript)
        else none with
      | some r => .ok r
      | none => .error .addrInvalidVersion := by
  match b with
  | [] => rfl
  | v :: rest =>
    simp only
    rw [classify_eq]
    simp only [List.findSome?, pick, p2shVersions, p2pkhVersions, netOf, typeOf, Bool.false_eq_true, if_false, if_true]
    split_ifs <;> rfl

example : Address.classifyBytes [0xc4] = .ok (Network.testnet, .script) := by decide +kernel

/-- C16. Canonical: parsing then printing gives the input back, for bytes, and for text. -/
theorem C16_canonical (H : Hashes) (b : Bytes) (t : Text) (a : Address) :
    (Address.fromBytes b = .ok a → a.toBytes = .ok b) ∧
    (Address.fromString H t = .ok a → a.toString H = .ok t) := by
  have hb : ∀ b, Address.fromBytes b = .ok a → a.toBytes = .ok b := by
    intro b h
    obtain ⟨phash, test, isScript, h1, rfl⟩ := (C16_from_bytes_iff b a).1 h
    exact (C15_to_bytes phash h1.1 test isScript b).2 h1
  refine ⟨hb b, ?_⟩
  intro h
  unfold Address.fromString at h
  split at h
  · cases h
  · cases h
  · next d hd =>
    unfold Address.toString
    rw [hb d h]
    simp only [Except.ok.injEq]
    exact (decodeBase58h_iff H t d).1 hd

/-- C16. `from_string` accepts exactly the Base58Check spellings of address bytes. -/
theorem C16_from_string_iff (H : Hashes) (t : Text) (a : Address) :
    Address.fromString H t = .ok a ↔
      ∃ b phash test isScript, Base58Check H b t ∧ AddressBytes phash test isScript b ∧
        a = ⟨phash, netOf test, typeOf isScript⟩ := by
  unfold Address.fromString
  constructor
  · intro h
    split at h
    · cases h
    · cases h
    · next d hd =>
      obtain ⟨p, te, s, h1, h2⟩ := (C16_from_bytes_iff d a).1 h
      exact ⟨d, p, te, s, (base58Check_iff H d t).2 hd, h1, h2⟩
  · rintro ⟨b, p, te, s, h0, h1, h2⟩
    rw [(base58Check_iff H b t).1 h0]
    exact (C16_from_bytes_iff b a).2 ⟨p, te, s, h1, h2⟩

/-- C15. All three forms round-trip for every address of a known network. -/
theorem C15_roundtrip (H : Hashes) (phash : Bytes) (h : phash.length = 20) (test isScript : Bool) :
    (∃ b, Address.toBytes ⟨phash, netOf test, typeOf isScript⟩ = .ok b ∧
      Address.fromBytes b = .ok ⟨phash, netOf test, typeOf isScript⟩) ∧
    (∃ t, Address.toString H ⟨phash, netOf test, typeOf isScript⟩ = .ok t ∧
      Address.fromString H t = .ok ⟨phash, netOf test, typeOf isScript⟩) ∧
    (∃ t, Address.toHex ⟨phash, netOf test, typeOf isScript⟩ = .ok t ∧
      Address.fromHex t = .ok ⟨phash, netOf test, typeOf isScript⟩) := by
  have hb := (C15_to_bytes phash h test isScript _).2 ⟨h, rfl⟩
  have hf := (C16_from_bytes_iff _ _).2 ⟨phash, test, isScript, ⟨h, rfl⟩, rfl⟩
  refine ⟨⟨_, hb, hf⟩, ?_, ?_⟩
  · simp only [Address.toString, hb, Except.ok.injEq, exists_eq_left', Address.fromString,
      decode_encodeBase58h, hf]
  · simp only [Address.toHex, hb, Except.ok.injEq, exists_eq_left', Address.fromHex, decodeHex_encodeHex, hf]

/-- C15. The constructor accepts exactly 20-byte hashes with a proper type. -/
theorem C15_constructor (phash : Bytes) (n : Network) (ty : Option AddrType) (a : Address) :
    Address.new phash (.network n) ty = .ok a ↔ phash.length = 20 ∧ ty = some a.type ∧ a = ⟨phash, n, a.type⟩ := by
  unfold Address.new
  simp only [Network.find, Network.find?]
  cases ty with
  | none => simp
  | some t =>
    by_cases h : phash.length = 20
    · simp only [h, ne_eq, not_true_eq_false, if_false, Except.ok.injEq, Option.some.injEq, true_and]
      constructor
      · rintro rfl; simp
      · rintro ⟨rfl, h⟩; exact h.symm
    · simp [h]

/-- C15. Key and script addresses carry the RIPEMD-160 of the SHA-256 and the right type. -/
theorem C15_from_key_or_script (H : Hashes) (data : Bytes) (n : Network) :
    Address.fromPublicKeyBytes H data n = .ok ⟨H.ripemd160 (H.sha256 data), n, .publicKey⟩ ∧
    Address.fromScriptBytes H data (.network n) = .ok ⟨H.ripemd160 (H.sha256 data), n, .script⟩ := by
  constructor <;>
    simp [Address.fromPublicKeyBytes, Address.fromScriptBytes, Address.new, Network.find, Network.find?,
      H.ripemd160_length]

example : AddressBytes (List.replicate 20 7) true true (0xc4 :: List.replicate 20 7) := ⟨by simp, rfl⟩
example : Address.fromBytes (0xc4 :: List.replicate 20 7) = .ok ⟨List.replicate 20 7, netOf true, .script⟩ := by
  decide +kernel
example : Address.fromBytes (0x06 :: List.replicate 20 7) = .error .addrInvalidVersion := by decide +kernel

end Bitforge
