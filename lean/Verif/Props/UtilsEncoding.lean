import Verif.UtilsEncoding
import Verif.Proofs.HdKey
import Verif.Props.PubKey

/-! # C76, C77: the WIF and address functions of `bitforge/utils/encoding.py` -/

namespace Bitforge
open Spec Utils

/-- Every text is Base58Check of one payload, or an EncodingError, or (only if not ASCII) a UnicodeDecodeError. -/
theorem a2b_cases (H : Hashes) (t : Text) : (∃ d, Base58Check H d t ∧ a2bHashedBase58 H t = .ok d) ∨
    (isAscii t = true ∧ (∀ d, ¬ Base58Check H d t) ∧ a2bHashedBase58 H t = .error .encodingError) ∨
    (isAscii t = false ∧ (∀ d, ¬ Base58Check H d t) ∧ a2bHashedBase58 H t = .error .unicodeDecodeError) := by
  cases h : a2bHashedBase58 H t with
  | ok d => exact .inl ⟨d, check_of_a2b h, rfl⟩
  | error e =>
    have hn : ∀ d, ¬ Base58Check H d t := fun d hd => by rw [a2b_of_check hd] at h; cases h
    unfold a2bHashedBase58 a2bBase58 at h
    by_cases ha : isAscii t = true
    · rw [ha] at h
      simp only [if_true] at h
      right; left
      refine ⟨ha, hn, ?_⟩
      split at h
      · next e' he =>
        split at he
        · cases he
        · cases he; cases h; rfl
      · split at h
        · cases h
        · cases h; rfl
    · right; right
      simp only [ha, Bool.false_eq_true, if_false] at h
      cases h
      exact ⟨by simpa using ha, hn, rfl⟩

/-! ## C76 WIF -/

/-- C76. `secret_exponent_to_wif` writes the Wallet Import Format of every secret of 256 bits. -/
theorem C76_to_wif (H : Hashes) (s : Nat) (hs : s < 2 ^ 256) (test c : Bool) (t : Text) :
    secretExponentToWif H s c [pick wifVersions test] = .ok t ↔ Wif H s test c t := by
  have hl : (encodeInt (s : Int) true (some 32)).length = 32 := encodeInt_length _ _ _
  have hv : beValue (encodeInt (s : Int) true (some 32)) = s := by
    rw [beValue_encodeInt, Int.toNat_natCast, Nat.mod_eq_of_lt]
    norm_num at hs ⊢
    exact hs
  unfold secretExponentToWif
  rw [toBytes32_ok _ (by omega) (by norm_num; omega)]
  have e : ∀ body : Bytes, (if c = true then [pick wifVersions test] ++ body ++ [1] else [pick wifVersions test] ++ body) =
      pick wifVersions test :: body ++ if c = true then [1] else [] := by
    intro body; cases c <;> simp
  simp only [Except.ok.injEq, e]
  constructor
  · rintro rfl
    exact ⟨_, hl, hv, check_of_a2b ((a2bHashed_iff _ _ _).2 rfl)⟩
  · rintro ⟨body, h1, h2, h3⟩
    have : body = encodeInt (s : Int) true (some 32) := beValue_inj _ _ (by rw [h1, hl]) (by rw [h2, hv])
    rw [← this]
    exact (a2bHashed_iff _ _ _).1 (a2b_of_check h3)

/-- C76. What is too large for 32 bytes is refused. -/
theorem C76_to_wif_large (H : Hashes) (s : Int) (hs : 2 ^ 256 ≤ s) (c : Bool) (p : Bytes) :
    secretExponentToWif H s c p = .error .valueError := by
  unfold secretExponentToWif
  rw [toBytes32_large _ (by norm_num at hs ⊢; omega)]

theorem wifTuple_check {H : Hashes} {d : Bytes} {t : Text} (h : Base58Check H d t) :
    wifToPrefixSecretCompressed H t =
      if 33 ≤ d.length then .ok (d.take 1, beValue ((d.drop 1).take 32), decide (33 < d.length)) else .error .valueError := by
  unfold wifToPrefixSecretCompressed
  rw [a2b_of_check h]
  simp only [fromBytes32_str, List.length_take, List.length_drop]
  by_cases hl : 33 ≤ d.length
  · rw [if_pos (by omega), if_pos hl]
    simp only [Except.ok.injEq, Prod.mk.injEq, true_and, decide_eq_decide]
    omega
  · rw [if_neg (by omega), if_neg hl]

/-- C76. What the reader returns: it reads a payload of at least 33 bytes, and takes 34 or more for a compressed key. -/
theorem C76_reads_partial (H : Hashes) (t : Text) (p : Bytes) (s : Nat) (c : Bool) :
    wifToPrefixSecretCompressed H t = .ok (p, s, c) ↔ ∃ (b : Byte) (body rest : Bytes), body.length = 32 ∧
      Base58Check H (b :: body ++ rest) t ∧ p = [b] ∧ s = beValue body ∧ (c = true ↔ rest ≠ []) := by
  constructor
  · intro h
    rcases a2b_cases H t with ⟨d, hd, _⟩ | ⟨_, _, he⟩ | ⟨_, _, he⟩
    · rw [wifTuple_check hd] at h
      split at h
      · next hl =>
        cases h
        match d, hl with
        | b :: d, hl =>
          refine ⟨b, d.take 32, d.drop 32, ?_, by simpa using hd, by simp, by simp, ?_⟩
          · simp only [List.length_cons] at hl; rw [List.length_take]; omega
          · simp only [List.length_cons] at hl
            simp only [decide_eq_true_eq, List.length_cons, ne_eq, List.drop_eq_nil_iff]
            omega
      · cases h
    · unfold wifToPrefixSecretCompressed at h; rw [he] at h; cases h
    · unfold wifToPrefixSecretCompressed at h; rw [he] at h; cases h
  · rintro ⟨b, body, rest, hl, hd, rfl, rfl, hc⟩
    rw [wifTuple_check hd, if_pos (by simp only [List.length_append, List.length_cons]; omega)]
    simp only [Except.ok.injEq, Prod.mk.injEq, List.cons_append, List.take_succ_cons, List.take_zero, true_and,
      List.drop_succ_cons, List.drop_zero]
    refine ⟨by rw [← hl, List.take_left], ?_⟩
    rw [Bool.eq_iff_iff, hc, decide_eq_true_eq, ← List.length_pos_iff]
    simp only [List.length_append, List.length_cons]
    omega

/-- C76. The reader inverts the writer. -/
theorem C76_roundtrip (H : Hashes) (s : Nat) (hs : s < 2 ^ 256) (test c : Bool) :
    ∃ t, secretExponentToWif H s c [pick wifVersions test] = .ok t ∧
      wifToPrefixSecretCompressed H t = .ok ([pick wifVersions test], s, c) ∧
      wifToSecretCompressed H t [[pick wifVersions test]] = .ok (s, c) ∧
      isValidWif H t [[pick wifVersions test]] = .ok true := by
  cases h : secretExponentToWif H s c [pick wifVersions test] with
  | error e =>
    unfold secretExponentToWif at h
    rw [toBytes32_ok _ (by omega) (by norm_num; omega)] at h
    cases h
  | ok t =>
    obtain ⟨body, hl, hv, hd⟩ := (C76_to_wif H s hs test c t).1 h
    have h1 : wifToPrefixSecretCompressed H t = .ok ([pick wifVersions test], s, c) :=
      (C76_reads_partial H t _ _ _).2 ⟨_, body, _, hl, hd, rfl, hv.symm, by cases c <;> simp⟩
    have h2 : wifToSecretCompressed H t [[pick wifVersions test]] = .ok (s, c) := by
      unfold wifToSecretCompressed; rw [h1]; simp
    exact ⟨t, rfl, h1, h2, by unfold isValidWif wifToSecretExponent; rw [h2]⟩

/-- C76. A text from which `PrivateKey.from_wif` makes a key gives the same secret here. -/
theorem C76_agrees (H : Hashes) (t : Text) (k : PrivateKey) (h : PrivateKey.fromWif H t = .ok k) :
    ∃ (s : Nat) (test : Bool), k.secret = s ∧ k.network = netOf test ∧ secretExponentToWif H s k.compressed [pick wifVersions test] = .ok t ∧
      wifToSecretCompressed H t [[pick wifVersions test]] = .ok (s, k.compressed) := by
  obtain ⟨s, test, c, h1, h2, rfl, hw⟩ := (C13_from_wif_iff H t k).1 h
  have hs : s < 2 ^ 256 := lt_trans h2 (by decide)
  obtain ⟨t', ht', _, h3, _⟩ := C76_roundtrip H s hs test c
  have := (C76_to_wif H s hs test c t).2 hw
  rw [this] at ht'
  cases ht'
  exact ⟨s, test, rfl, rfl, this, h3⟩

/-- C76, exactly what `is_valid_wif` does with the prefixes allowed: False for text that is not Base58Check, and for
other prefixes; ValueError for less than 33 bytes. -/
theorem C76_is_valid_partial (H : Hashes) (t : Text) (allow : List Bytes) :
    (∀ d, Base58Check H d t → isValidWif H t allow =
      if 33 ≤ d.length then .ok (decide (d.take 1 ∈ allow)) else .error .valueError) ∧
    ((∀ d, ¬ Base58Check H d t) → isValidWif H t allow =
      if isAscii t then .ok false else .error .unicodeDecodeError) := by
  constructor
  · intro d hd
    unfold isValidWif wifToSecretExponent wifToSecretCompressed
    rw [wifTuple_check hd]
    by_cases hl : 33 ≤ d.length
    · rw [if_pos hl, if_pos hl]
      by_cases hm : d.take 1 ∈ allow <;> simp [hm]
    · rw [if_neg hl, if_neg hl]
  · intro hn
    unfold isValidWif wifToSecretExponent wifToSecretCompressed wifToPrefixSecretCompressed
    rcases a2b_cases H t with ⟨d, hd, _⟩ | ⟨ha, _, he⟩ | ⟨ha, _, he⟩
    · exact absurd hd (hn d)
    · rw [he, ha]; rfl
    · rw [he, ha]; rfl

/-- C76 is false of the code: whatever follows the 32 bytes of the secret, `is_valid_wif` is True, and the key is
called compressed; no private key has such a text unless it is the single byte 01. -/
theorem C76_suffix_refuted (H : Hashes) (body rest : Bytes) (hl : body.length = 32) (h0 : rest ≠ []) (h1 : rest ≠ [1]) :
    ∃ t, isValidWif H t = .ok true ∧ wifToSecretCompressed H t = .ok (beValue body, true) ∧
      ∀ k, PrivateKey.fromWif H t ≠ .ok k := by
  have hd : Base58Check H (0x80 :: body ++ rest) (b2aHashedBase58 H (0x80 :: body ++ rest)) :=
    check_of_a2b ((a2bHashed_iff _ _ _).2 rfl)
  refine ⟨b2aHashedBase58 H (0x80 :: body ++ rest), ?_, ?_, ?_⟩
  · rw [(C76_is_valid_partial H _ _).1 _ hd, if_pos (by simp only [List.length_append, List.length_cons]; omega)]
    simp
  · unfold wifToSecretCompressed
    rw [(C76_reads_partial H _ [0x80] (beValue body) true).2 ⟨_, body, rest, hl, hd, rfl, rfl, by simpa using h0⟩]
    simp
  · intro k hk
    obtain ⟨s, test, c, _, _, _, body', hl', _, hd'⟩ := (C13_from_wif_iff H _ k).1 hk
    have := a2b_of_check hd'
    rw [a2b_of_check hd] at this
    simp only [Except.ok.injEq, List.cons_append, List.cons.injEq] at this
    obtain ⟨_, h⟩ := List.append_inj this.2 (by rw [hl, hl'])
    cases c
    · exact h0 h
    · exact h1 h

/-- C76 is false of the code: the secrets 0 and n, which are not keys, have valid texts. -/
theorem C76_range_refuted (H : Hashes) (s : Nat) (hs : s < 2 ^ 256) (h : s = 0 ∨ secpN ≤ s) (c : Bool) :
    ∃ t, secretExponentToWif H s c = .ok t ∧ isValidWif H t = .ok true ∧ ∀ k, PrivateKey.fromWif H t ≠ .ok k := by
  obtain ⟨t, h1, _, h3, h4⟩ := C76_roundtrip H s hs false c
  refine ⟨t, h1, h4, ?_⟩
  intro k hk
  obtain ⟨s', test, c', h5, h6, _, hw⟩ := (C13_from_wif_iff H _ k).1 hk
  obtain ⟨t', h7, h8, _⟩ := C76_roundtrip H s' (lt_trans h6 (by decide)) test c'
  rw [(C76_to_wif H s' (lt_trans h6 (by decide)) test c' t).2 hw] at h7
  cases h7
  obtain ⟨body, hl, hv, hd⟩ := (C76_to_wif H s hs false c t).1 h1
  have := (C76_reads_partial H t _ _ _).2 ⟨_, body, _, hl, hd, rfl, rfl, Iff.rfl.trans (by cases c <;> simp : (c = true ↔ _))⟩
  rw [this] at h8
  simp only [Except.ok.injEq, Prod.mk.injEq] at h8
  omega

/-- C76 is false of the code: `is_valid_wif` raises ValueError for every Base58Check text of less than 33 bytes. -/
theorem C76_short_refuted (H : Hashes) (d : Bytes) (hl : d.length < 33) :
    isValidWif H (b2aHashedBase58 H d) = .error .valueError := by
  rw [(C76_is_valid_partial H _ _).1 d (check_of_a2b ((a2bHashed_iff _ _ _).2 rfl)), if_neg (by omega)]

/-- A text with a wrong suffix, one with the secret 0, a short one, and one that is a key. -/
example : isValidWif .toy (b2aHashedBase58 .toy (0x80 :: List.replicate 32 7 ++ [2, 3])) = .ok true ∧
    isValidWif .toy (b2aHashedBase58 .toy (0x80 :: List.replicate 32 0)) = .ok true ∧
    isValidWif .toy (b2aHashedBase58 .toy [0x80, 7]) = .error .valueError ∧
    isValidWif .toy (b2aHashedBase58 .toy (0xef :: List.replicate 32 7)) = .ok false ∧
    isValidWif .toy "0".toList = .ok false ∧
    (PrivateKey.fromWif .toy (b2aHashedBase58 .toy (0x80 :: List.replicate 32 7 ++ [1]))).toBool = true := by
  decide +kernel

/-! ## C77 addresses -/

/-- C77. `public_pair_to_bitcoin_address` gives the text of the address of the key. -/
theorem C77_to_address (H : Hashes) (pair : Int × Int) (test c : Bool) :
    publicPairToBitcoinAddress H pair c [pick p2pkhVersions test] =
      match PublicKey.toBytes ⟨pair, netOf test, c⟩ with
      | .error e => .error e
      | .ok b => Address.toString H ⟨H.ripemd160 (H.sha256 b), netOf test, .publicKey⟩ := by
  unfold publicPairToBitcoinAddress publicPairToHash160Sec PublicKey.toBytes
  simp only []
  cases publicPairToSec pair c with
  | error e => rfl
  | ok b =>
    have := (C15_to_bytes (H.ripemd160 (H.sha256 b)) (H.ripemd160_length _) test false _).2 ⟨H.ripemd160_length _, rfl⟩
    simp only [Address.toString]
    rw [show AddrType.publicKey = typeOf false from rfl, this]
    rfl

/-- C77. Reading an address: the hash and the prefix of every text of an address of a public key. -/
theorem C77_reads (H : Hashes) (t : Text) (h p : Bytes) :
    bitcoinAddressToHash160SecWithPrefix H t = .ok (h, p) ↔
      ∃ test b, AddressBytes h test false b ∧ Base58Check H b t ∧ p = [pick p2pkhVersions test] := by
  constructor
  · intro hh
    unfold bitcoinAddressToHash160SecWithPrefix at hh
    rcases a2b_cases H t with ⟨d, hd, ha⟩ | ⟨_, _, he⟩ | ⟨_, _, he⟩
    · rw [ha] at hh
      simp only [] at hh
      split at hh
      · cases hh
      · next hl =>
        split at hh
        · cases hh
        · next hm =>
          cases hh
          simp only [Decidable.not_not] at hl hm
          match d, hl with
          | v :: d, hl =>
            simp only [List.take_succ_cons, List.take_zero, List.mem_cons, List.cons.injEq, and_true, List.not_mem_nil,
              or_false] at hm
            have hl' : d.length = 20 := by simpa using hl
            rcases hm with rfl | rfl
            · exact ⟨true, _, ⟨hl', rfl⟩, hd, rfl⟩
            · exact ⟨false, _, ⟨hl', rfl⟩, hd, rfl⟩
    · rw [he] at hh; cases hh
    · rw [he] at hh; cases hh
  · rintro ⟨test, b, ⟨hl, rfl⟩, hd, rfl⟩
    unfold bitcoinAddressToHash160SecWithPrefix
    rw [a2b_of_check hd]
    simp only [List.length_cons, hl]
    cases test <;> simp [pick, p2pkhVersions]

/-- C77. `bitcoin_address_to_hash160_sec` inverts `hash160_sec_to_bitcoin_address`, and refuses the other network. -/
theorem C77_roundtrip (H : Hashes) (h : Bytes) (hl : h.length = 20) (test other : Bool) :
    bitcoinAddressToHash160Sec H (hash160SecToBitcoinAddress H h [pick p2pkhVersions test]) [pick p2pkhVersions other] =
      if other = test then .ok h else .error .encodingError := by
  unfold bitcoinAddressToHash160Sec
  rw [(C77_reads H (hash160SecToBitcoinAddress H h [pick p2pkhVersions test]) h [pick p2pkhVersions test]).2
    ⟨test, _, ⟨hl, rfl⟩, check_of_a2b ((a2bHashed_iff _ _ _).2 rfl), rfl⟩]
  cases test <;> cases other <;> rfl

/-- C77, part that holds: with one prefix allowed, `is_valid_bitcoin_address` is True exactly for the addresses of public
keys with that prefix.  Missing: addresses of scripts (see the refutation). -/
theorem C77_is_valid_partial (H : Hashes) (t : Text) (test : Bool) :
    isValidBitcoinAddress H t [pick p2pkhVersions test] = .ok true ↔
      ∃ h b, AddressBytes h test false b ∧ Base58Check H b t := by
  have hinf : ∀ a b, [pick p2pkhVersions a] <:+: [pick p2pkhVersions b] ↔ a = b := by decide
  unfold isValidBitcoinAddress
  constructor
  · intro h
    split at h
    · cases h
    · cases h
    · next h' p hr =>
      obtain ⟨tt, b, hb, hd, rfl⟩ := (C77_reads H t h' p).1 hr
      simp only [Except.ok.injEq, decide_eq_true_eq, hinf] at h
      subst h
      exact ⟨h', b, hb, hd⟩
  · rintro ⟨h, b, hb, hd⟩
    rw [(C77_reads H t h _).2 ⟨test, b, hb, hd, rfl⟩]
    simp only [hinf, decide_true]

/-- C77. When `is_valid_bitcoin_address` raises: text that is not ASCII, and payloads of 21 bytes of which the first is
not ASCII.  All other texts give a Boolean. -/
theorem C77_raises_partial (H : Hashes) (t : Text) (allow : Bytes) :
    (∀ e, isValidBitcoinAddress H t allow = .error e → e = .unicodeDecodeError) ∧
    ((∃ e, isValidBitcoinAddress H t allow = .error e) ↔
      isAscii t = false ∨ ∃ (v : Byte) (d : Bytes), d.length = 20 ∧ 128 ≤ v.val ∧ Base58Check H (v :: d) t) := by
  rcases a2b_cases H t with ⟨d, hd, ha⟩ | ⟨hs, hn, ha⟩ | ⟨hs, hn, ha⟩
  · have hs : isAscii t = true := by
      by_contra hs
      have : a2bHashedBase58 H t = .error .unicodeDecodeError := by
        unfold a2bHashedBase58 a2bBase58
        rw [if_neg hs]
      rw [this] at ha
      cases ha
    have key : ∀ (v : Byte) (e : Bytes), Base58Check H (v :: e) t → d = v :: e := fun v e he => by
      have := a2b_of_check he
      rw [ha] at this
      exact Except.ok.inj this
    unfold isValidBitcoinAddress bitcoinAddressToHash160SecWithPrefix
    rw [ha]
    simp only []
    by_cases hl : d.length = 21
    · match d, hl with
      | v :: e, hl =>
        have hl' : e.length = 20 := by simpa using hl
        by_cases hv : v = 0x6f ∨ v = 0
        · have : ¬ 128 ≤ v.val := by rcases hv with rfl | rfl <;> decide
          have hm : List.take 1 (v :: e) ∈ [[(0x6f : Byte)], [0]] := by rcases hv with rfl | rfl <;> simp
          rw [if_neg (by simpa using hl), if_neg (not_not.2 hm)]
          simp only [reduceCtorEq, false_implies, implies_true, true_and, exists_false, false_iff, hs, Bool.true_eq_false,
            false_or, not_exists, not_and]
          rintro v' e' _ h2 h3
          cases key v' e' h3
          exact this h2
        · have hm : List.take 1 (v :: e) ∉ [[(0x6f : Byte)], [0]] := by simpa using hv
          rw [if_neg (by simpa using hl), if_pos hm]
          by_cases h128 : v.val < 128
          · rw [show (List.headD (v :: e) 0) = v from rfl, if_pos h128]
            simp only [reduceCtorEq, false_implies, implies_true, true_and, exists_false,
              false_iff, hs, Bool.true_eq_false, false_or, not_exists, not_and]
            rintro v' e' _ h2 h3
            cases key v' e' h3
            omega
          · rw [show (List.headD (v :: e) 0) = v from rfl, if_neg h128]
            refine ⟨by rintro e' h; cases h; rfl, fun _ => .inr ⟨v, e, hl', by omega, hd⟩, fun _ => ⟨_, rfl⟩⟩
    · rw [if_pos hl]
      simp only [reduceCtorEq, false_implies, implies_true, true_and, exists_false, false_iff, hs, Bool.true_eq_false,
        false_or, not_exists, not_and]
      rintro v' e' h1 _ h3
      rw [key v' e' h3] at hl
      simp [h1] at hl
  · unfold isValidBitcoinAddress bitcoinAddressToHash160SecWithPrefix
    rw [ha]
    simp only [reduceCtorEq, false_implies, implies_true, true_and, exists_false, false_iff, hs, Bool.true_eq_false,
      false_or, not_exists, not_and]
    exact fun v d _ _ => hn _
  · unfold isValidBitcoinAddress bitcoinAddressToHash160SecWithPrefix
    rw [ha]
    exact ⟨by rintro e h; cases h; rfl, fun _ => .inl hs, fun _ => ⟨_, rfl⟩⟩

/-- C77 is false of the code: addresses of scripts are not valid on the main network, and raise UnicodeDecodeError on the
test network. -/
theorem C77_script_refuted (H : Hashes) (h : Bytes) (hl : h.length = 20) (allow : Bytes) :
    ∃ t u, Address.toString H ⟨h, .livenet, .script⟩ = .ok t ∧ Address.toString H ⟨h, .testnet, .script⟩ = .ok u ∧
      isValidBitcoinAddress H t allow = .ok false ∧ isValidBitcoinAddress H u allow = .error .unicodeDecodeError := by
  refine ⟨encodeBase58h H (5 :: h), encodeBase58h H (0xc4 :: h), rfl, rfl, ?_, ?_⟩
  all_goals
    unfold isValidBitcoinAddress bitcoinAddressToHash160SecWithPrefix encodeBase58h
    rw [(a2bHashed_iff _ _ _).2 rfl]
    simp [hl]

/-- C77. With several prefixes, each of one byte, the address of either is valid if its prefix is among them. -/
theorem C77_prefixes (H : Hashes) (h : Bytes) (hl : h.length = 20) (test : Bool) (allow : Bytes) :
    isValidBitcoinAddress H (hash160SecToBitcoinAddress H h [pick p2pkhVersions test]) allow =
      .ok (decide (pick p2pkhVersions test ∈ allow)) := by
  unfold isValidBitcoinAddress
  rw [(C77_reads H (hash160SecToBitcoinAddress H h [pick p2pkhVersions test]) h [pick p2pkhVersions test]).2
    ⟨test, _, ⟨hl, rfl⟩, check_of_a2b ((a2bHashed_iff _ _ _).2 rfl), rfl⟩]
  simp only [Except.ok.injEq, decide_eq_decide]
  constructor
  · intro hi; exact hi.subset (by simp)
  · intro hm
    obtain ⟨a, b, rfl⟩ := List.append_of_mem hm
    exact ⟨a, b, by simp⟩

example : isValidBitcoinAddress .toy (hash160SecToBitcoinAddress .toy (List.replicate 20 7)) = .ok true ∧
    isValidBitcoinAddress .toy (hash160SecToBitcoinAddress .toy (List.replicate 20 7) [0x6f]) = .ok false ∧
    isValidBitcoinAddress .toy (hash160SecToBitcoinAddress .toy (List.replicate 20 7) [0xc4]) = .error .unicodeDecodeError ∧
    bitcoinAddressToHash160Sec .toy (hash160SecToBitcoinAddress .toy (List.replicate 20 7)) = .ok (List.replicate 20 7) := by
  decide +kernel

example : (publicPairToBitcoinAddress .toy (5, 7)).toBool = true := by decide +kernel

end Bitforge
