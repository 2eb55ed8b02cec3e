import Verif.Proofs.PubKey
import Verif.Proofs.SecpReduced
import Verif.Spec.Sec

/-! # C17–C20, C61: public keys -/

namespace Bitforge
open Spec WeierstrassCurve.Affine

theorem onSecp_iff (x y : Int) : OnSecp x y ↔ secp.containsPoint x y = true := by
  unfold OnSecp CurveFp.containsPoint
  rw [beq_iff_eq]
  have e : y ^ 2 - (x ^ 3 + 7) = y * y - (x * x * x + secp.a * x + secp.b) := by
    show _ = y * y - (x * x * x + 0 * x + 7)
    ring
  have hp : (2 ^ 256 - 2 ^ 32 - 977 : Int) = (secp.p : Int) := by decide
  rw [e, hp]

/-! ## C17 -/

/-- C17. Whatever the constructor, the key returned is a point of the curve. -/
theorem C17_on_curve (k : PublicKey)
    (h : (∃ pair net c, PublicKey.new pair net c = .ok k) ∨ (∃ priv, PublicKey.fromPrivateKey priv = .ok k) ∨
      (∃ b net, PublicKey.fromBytes b net = .ok k) ∨ (∃ t net, PublicKey.fromHex t net = .ok k)) :
    OnSecp k.pair.1 k.pair.2 := by
  have key : ∀ pair net c, PublicKey.new pair net c = .ok k → OnSecp k.pair.1 k.pair.2 := by
    intro pair net c h
    obtain ⟨n, _, hc, rfl⟩ := (pub_new_ok_iff _ _ _ _).1 h
    exact (onSecp_iff _ _).2 hc
  have keyB : ∀ b net, PublicKey.fromBytes b net = .ok k → OnSecp k.pair.1 k.pair.2 := by
    intro b net h
    unfold PublicKey.fromBytes at h
    split at h
    · split at h <;> cases h
    · exact key _ _ _ h
  rcases h with ⟨pair, net, c, h⟩ | ⟨priv, h⟩ | ⟨b, net, h⟩ | ⟨t, net, h⟩
  · exact key _ _ _ h
  · unfold PublicKey.fromPrivateKey at h
    split at h
    · cases h
    · cases h
    · exact key _ _ _ h
  · exact keyB _ _ h
  · unfold PublicKey.fromHex at h
    split at h
    · cases h
    · cases h
    · exact keyB _ _ h

/-- C17. A pair on the curve is accepted as it is, for a known network. -/
theorem C17_accepts (x y : Int) (h : OnSecp x y) (n : Network) (c : Bool) :
    PublicKey.new (x, y) (.network n) c = .ok ⟨(x, y), n, c⟩ := by
  rw [pub_new_ok_iff]
  exact ⟨n, rfl, (onSecp_iff _ _).1 h, rfl⟩

/-- C17. A pair off the curve is rejected with InvalidPair. -/
theorem C17_rejects (x y : Int) (h : ¬ OnSecp x y) (n : Network) (c : Bool) :
    PublicKey.new (x, y) (.network n) c = .error .pubInvalidPair := by
  unfold PublicKey.new Ecdsa.isPublicPairValid
  rw [onSecp_iff] at h
  rw [pub_findNetwork]
  simp [h]

example : OnSecp secpGx secpGy ∧ ¬ OnSecp secpGx (secpGy + 1) ∧
    (∃ k, PublicKey.new (secpGx, secpGy) = .ok k) := by
  refine ⟨by unfold OnSecp; decide, by unfold OnSecp; decide, _, C17_accepts _ _ (by unfold OnSecp; decide) _ _⟩

/-! ## C18 -/

theorem reduced_lt {v : Int} (h : reduced v) : v < 256 ^ 32 := by
  have := secp_p_lt
  have := ((reduced_iff v).1 h).2
  omega

/-- C18. `to_bytes()` is the SEC encoding of the point. -/
theorem C18_to_bytes (k : PublicKey) (hx : reduced k.pair.1) (hy : reduced k.pair.2) :
    ∃ b, k.toBytes = .ok b ∧ Sec k.pair.1.toNat k.pair.2.toNat k.compressed b := by
  have lx := reduced_lt hx
  have ly := reduced_lt hy
  unfold PublicKey.toBytes publicPairToSec
  rw [toBytes32_ok _ hx.1 lx, toBytes32_ok _ hy.1 ly]
  have vx : beValue (encodeInt k.pair.1 true (some 32)) = k.pair.1.toNat := by
    rw [beValue_encodeInt, Nat.mod_eq_of_lt]; have := hx.1; omega
  have vy : beValue (encodeInt k.pair.2 true (some 32)) = k.pair.2.toNat := by
    rw [beValue_encodeInt, Nat.mod_eq_of_lt]; have := hy.1; omega
  cases k.compressed with
  | true =>
    refine ⟨_, rfl, _, encodeInt_length _ _ _, vx, ?_⟩
    have := hy.1
    have e : (k.pair.2 % 2).toNat = k.pair.2.toNat % 2 := by omega
    rw [e]
    rcases Nat.mod_two_eq_zero_or_one k.pair.2.toNat with h | h <;> simp [h] <;> rfl
  | false => exact ⟨_, rfl, _, encodeInt_length _ _ _, vx, _, encodeInt_length _ _ _, vy, rfl⟩

/-- Any SEC encoding of a point of the curve parses to that point. -/
theorem fromBytes_sec (x y : Int) (c : Bool) (n : Network) (b : Bytes) (hc : OnSecp x y)
    (hx : reduced x) (hy : reduced y) (hs : Sec x.toNat y.toNat c b) :
    PublicKey.fromBytes ⟨.str, b⟩ (.network n) = .ok ⟨(x, y), n, c⟩ := by
  obtain ⟨bx, lx, vx, hb⟩ := hs
  have hx0 := hx.1
  have hy0 := hy.1
  have ex : ((x.toNat : Nat) : Int) = x := by omega
  have ey : ((y.toNat : Nat) : Int) = y := by omega
  have hcp := (onSecp_iff x y).1 hc
  cases c with
  | true =>
    simp only [if_true] at hb
    set par : Byte := if y.toNat % 2 = 0 then 0x02 else 0x03 with hpar
    have hd : ((⟨.str, b⟩ : Data).slice 1 33) = ⟨.str, bx⟩ := by
      rw [hb]; simp [Data.slice, ← lx]
    have hp4 : [par] ≠ ([4] : Bytes) := by rw [hpar]; split <;> decide
    have hp23 : [par] = ([2] : Bytes) ∨ [par] = ([3] : Bytes) := by
      rw [hpar]; split
      · exact .inl rfl
      · exact .inr rfl
    have ht : b.take 1 = [par] := by rw [hb]; rfl
    have heven : (decide ([par] = ([2] : Bytes))) = decide (y.toNat % 2 = 0) := by
      rw [hpar]; by_cases h : y.toNat % 2 = 0 <;> simp [h]
    have hsec : secToPublicPair ⟨.str, b⟩ = .ok (x, y) := by
      unfold secToPublicPair
      rw [hd, fromBytes32_str, if_pos lx, vx]
      simp only [bind, Except.bind, ht]
      rw [if_neg hp4, if_pos hp23, heven, ex]
      obtain ⟨y', hy', _, _, h1, h2⟩ := publicPairForX_spec x (decide (y.toNat % 2 = 0))
      rw [hy']
      have hc' := h2 y hcp
      obtain ⟨p1, p2, p3⟩ := h1 hc'
      have := y_unique hcp hc' ((reduced_iff y).1 hy) ⟨by omega, p2⟩ (by
        rw [p3]; rcases Nat.mod_two_eq_zero_or_one y.toNat with h | h <;> simp [h] <;> omega)
      rw [this]
    unfold PublicKey.fromBytes
    rw [hsec]
    have : isSecCompressed ⟨.str, b⟩ = true := by
      unfold isSecCompressed; simp only [ht]; simpa using hp23
    simp only [this]
    exact C17_accepts _ _ hc _ _
  | false =>
    simp only [Bool.false_eq_true, if_false] at hb
    obtain ⟨by', ly, vy, hb⟩ := hb
    have hd : ((⟨.str, b⟩ : Data).slice 1 33) = ⟨.str, bx⟩ := by
      rw [hb]; simp [Data.slice, List.take_append, lx]
    have hd2 : ((⟨.str, b⟩ : Data).slice 33 65) = ⟨.str, by'⟩ := by
      rw [hb]; simp [Data.slice, List.take_append, List.drop_append, lx, ly, List.take_of_length_le]
    have ht : b.take 1 = [4] := by rw [hb]; rfl
    have hsec : secToPublicPair ⟨.str, b⟩ = .ok (x, y) := by
      unfold secToPublicPair
      rw [hd, fromBytes32_str, if_pos lx, vx]
      simp only [bind, Except.bind, ht, if_true]
      rw [hd2, fromBytes32_str, if_pos ly, vy]
      simp only [Ecdsa.isPublicPairValid, ex, ey, hcp, if_true]
    unfold PublicKey.fromBytes
    rw [hsec]
    have : isSecCompressed ⟨.str, b⟩ = false := by
      unfold isSecCompressed; simp only [ht]; decide
    simp only [this]
    exact C17_accepts _ _ hc _ _

/-- C18. Every SEC encoding of a curve point with reduced coordinates is accepted and gives that point; with
`C18_to_bytes`, parsing inverts serialising. -/
theorem C18_from_sec (x y : Int) (c : Bool) (n : Network) (b : Bytes) (hc : OnSecp x y)
    (hx : reduced x) (hy : reduced y) (hs : Sec x.toNat y.toNat c b) :
    PublicKey.fromBytes ⟨.str, b⟩ (.network n) = .ok ⟨(x, y), n, c⟩ := fromBytes_sec x y c n b hc hx hy hs

/-- C18. Round trip through bytes. -/
theorem C18_bytes (k : PublicKey) (hc : OnSecp k.pair.1 k.pair.2) (hx : reduced k.pair.1)
    (hy : reduced k.pair.2) :
    ∃ b, k.toBytes = .ok b ∧ b.length = (if k.compressed then 33 else 65) ∧
      PublicKey.fromBytes ⟨.str, b⟩ (.network k.network) = .ok k := by
  obtain ⟨b, hb, hs⟩ := C18_to_bytes k hx hy
  refine ⟨b, hb, ?_, fromBytes_sec _ _ _ _ _ hc hx hy hs⟩
  obtain ⟨bx, lx, _, h⟩ := hs
  cases hk : k.compressed with
  | true => rw [hk] at h; simp only [if_true] at h; rw [h]; simp [lx]
  | false =>
    rw [hk] at h; simp only [Bool.false_eq_true, if_false] at h
    obtain ⟨by', ly, _, rfl⟩ := h
    simp [lx, ly]

/-- C18. Round trip through hexadecimal text. -/
theorem C18_hex (k : PublicKey) (hc : OnSecp k.pair.1 k.pair.2) (hx : reduced k.pair.1)
    (hy : reduced k.pair.2) :
    ∃ t, k.toHex = .ok t ∧ PublicKey.fromHex t (.network k.network) = .ok k := by
  obtain ⟨b, hb, _, hk⟩ := C18_bytes k hc hx hy
  refine ⟨encodeHex b, ?_, ?_⟩
  · unfold PublicKey.toHex; rw [hb]; rfl
  · unfold PublicKey.fromHex; rw [decodeHex_encodeHex]; exact hk

example : OnSecp secpGx secpGy ∧ reduced secpGx ∧ reduced secpGy := by
  refine ⟨by unfold OnSecp; decide, by unfold reduced; decide, by unfold reduced; decide⟩

/-! ## C19 -/

/-- C19, partial: the accepted bytes start with the serialisation of the key returned.  Missing: the bytes may
be longer, and coordinates need not be reduced (`C19_trailing_refuted`, `C19_unreduced_refuted`). -/
theorem C19_prefix_partial (b : Bytes) (net : NetValue) (k : PublicKey)
    (h : PublicKey.fromBytes ⟨.str, b⟩ net = .ok k) :
    k.toBytes = .ok (b.take (if k.compressed then 33 else 65)) := by
  have henc : ∀ v : Bytes, v.length = 32 → toBytes32 ((beValue v : Nat) : Int) = .ok v := by
    intro v hv
    have hlt : beValue v < 256 ^ 32 := by
      have := leValue_lt v.reverse; rw [List.length_reverse, hv] at this; exact this
    rw [toBytes32_ok _ (by omega) (by omega)]
    have := encodeInt_decodeInt v true
    rw [decodeInt_big, hv] at this
    rw [this]
  unfold PublicKey.fromBytes at h
  cases hs : secToPublicPair ⟨.str, b⟩ with
  | error e => rw [hs] at h; simp only at h; split at h <;> cases h
  | ok pair =>
    rw [hs] at h
    obtain ⟨n, _, hc, rfl⟩ := (pub_new_ok_iff _ _ _ _).1 h
    unfold secToPublicPair at hs
    simp only [Data.slice, fromBytes32_str] at hs
    by_cases lx : (List.drop 1 (List.take 33 b)).length = 32
    swap
    · rw [if_neg lx] at hs; cases hs
    rw [if_pos lx] at hs
    simp only [bind, Except.bind] at hs
    obtain ⟨b0, rest, rfl⟩ : ∃ b0 rest, b = b0 :: rest := by
      cases b with
      | nil => simp at lx
      | cons b0 rest => exact ⟨b0, rest, rfl⟩
    simp only [List.take_succ_cons, List.drop_succ_cons, List.drop_zero, List.take_zero] at lx hs
    unfold PublicKey.toBytes publicPairToSec
    unfold isSecCompressed
    simp only [List.take_succ_cons, List.take_zero]
    by_cases h4 : [b0] = ([4] : Bytes)
    · rw [if_pos h4] at hs
      by_cases ly : (List.drop 32 (List.take 64 rest)).length = 32
      swap
      · rw [if_neg ly] at hs; cases hs
      rw [if_pos ly] at hs
      simp only at hs
      split at hs
      · cases hs
        have hb0 : b0 = 4 := by simpa using h4
        subst hb0
        simp only [henc _ lx, henc _ ly, bind, Except.bind]
        have d2 : ¬ (([4] : Bytes) = [2] ∨ ([4] : Bytes) = [3]) := by decide
        simp only [d2, decide_false, Bool.false_eq_true, if_false]
        have : List.take 32 rest ++ List.drop 32 (List.take 64 rest) = List.take 64 rest := by
          rw [show List.take 32 rest = List.take 32 (List.take 64 rest) by rw [List.take_take]; rfl]
          exact List.take_append_drop _ _
        rw [List.cons_append, this]; rfl
      · cases hs
    · rw [if_neg h4] at hs
      by_cases h23 : [b0] = ([2] : Bytes) ∨ [b0] = ([3] : Bytes)
      swap
      · rw [if_neg h23] at hs; cases hs
      rw [if_pos h23] at hs
      obtain ⟨y, hy, h0, _, h1, _⟩ := publicPairForX_spec ((beValue (List.take 32 rest) : Nat) : Int)
        (decide ([b0] = ([2] : Bytes)))
      have hs' := hy.symm.trans hs
      cases hs'
      obtain ⟨p1, p2, p3⟩ := h1 hc
      simp only [henc _ lx, bind, Except.bind, h23, decide_true, if_true, List.take_succ_cons]
      congr 2
      rw [p3]
      rcases h23 with e | e
      · have : b0 = 2 := by simpa using e
        subst this; simp; rfl
      · have : b0 = 3 := by simpa using e
        subst this; simp; rfl

/-- C19, partial: a byte string of the right length is the serialisation of the key returned. -/
theorem C19_exact_partial (b : Bytes) (net : NetValue) (k : PublicKey)
    (h : PublicKey.fromBytes ⟨.str, b⟩ net = .ok k) (hl : b.length = if k.compressed then 33 else 65) :
    k.toBytes = .ok b := by
  rw [C19_prefix_partial b net k h, ← hl, List.take_length]

/-- C19, partial: among byte strings of the right length spelling reduced coordinates, each key has one. -/
theorem C19_unique_partial (b b' : Bytes) (net : NetValue) (k : PublicKey)
    (h : PublicKey.fromBytes ⟨.str, b⟩ net = .ok k) (h' : PublicKey.fromBytes ⟨.str, b'⟩ net = .ok k)
    (hl : b.length = if k.compressed then 33 else 65) (hl' : b'.length = if k.compressed then 33 else 65) :
    b = b' := by
  have e := C19_exact_partial b net k h hl
  rw [C19_exact_partial b' net k h' hl'] at e
  exact (Except.ok.inj e).symm

/-- C19. A `bytearray` is never accepted (Python 2). -/
theorem C19_bytearray (b : Bytes) (net : NetValue) :
    PublicKey.fromBytes ⟨.bytearray, b⟩ net = .error .pubInvalidBinary := by
  unfold PublicKey.fromBytes secToPublicPair
  simp only [Data.slice, fromBytes32_bytearray]
  split
  · next e he =>
    have : e = .encodingError ∨ e = .unicodeDecodeError ∨ e = .valueError := by
      split at he
      · have := (Except.error.inj he).symm
        split at this
        · exact .inl this
        · exact .inr (.inl this)
      · exact .inr (.inr (Except.error.inj he).symm)
    rcases this with rfl | rfl | rfl <;> simp
  · next he =>
    exfalso
    split at he <;> cases he

/-- C19 is false of the code: bytes after the encoding are ignored. -/
theorem C19_trailing_refuted : ∃ (b : Bytes) (k : PublicKey),
    PublicKey.fromBytes ⟨.str, b⟩ = .ok k ∧ k.toBytes ≠ .ok b :=
  ⟨4 :: encodeInt secpGx true (some 32) ++ encodeInt secpGy true (some 32) ++ [0],
    ⟨(secpGx, secpGy), .livenet, false⟩, by decide +kernel, by decide +kernel⟩

/-- The `y` coordinate of a point with `x = 1`. -/
def yOfOne : Int := 0x4218f20ae6c646b363db68605822fb14264ca8d2587fdd6fbc750d587e76a7ee

/-- C19 is false of the code: a coordinate that is not reduced modulo `p` is accepted, so one point has two
spellings of the right length. -/
theorem C19_unreduced_refuted : ∃ (b b' : Bytes) (k k' : PublicKey), b ≠ b' ∧ b.length = 65 ∧ b'.length = 65 ∧
    PublicKey.fromBytes ⟨.str, b⟩ = .ok k ∧ PublicKey.fromBytes ⟨.str, b'⟩ = .ok k' ∧
    k.pair.1 % (2 ^ 256 - 2 ^ 32 - 977) = k'.pair.1 % (2 ^ 256 - 2 ^ 32 - 977) ∧ k.pair.2 = k'.pair.2 :=
  ⟨4 :: encodeInt 1 true (some 32) ++ encodeInt yOfOne true (some 32),
    4 :: encodeInt (secpP + 1) true (some 32) ++ encodeInt yOfOne true (some 32),
    ⟨(1, yOfOne), .livenet, false⟩, ⟨(secpP + 1, yOfOne), .livenet, false⟩,
    by decide +kernel, by decide +kernel, by decide +kernel, by decide +kernel, by decide +kernel,
    by decide +kernel, rfl⟩

example : ∃ k, PublicKey.fromBytes ⟨.str, 2 :: encodeInt secpGx true (some 32)⟩ = .ok k ∧
    k.compressed = true := ⟨⟨(secpGx, secpGy), .livenet, true⟩, by decide +kernel, rfl⟩

/-! ## C20 -/

/-- C20. Every private key has a public key, with the coordinates of `secret · G`, reduced modulo `p`, and
the private key's network and compression. -/
theorem C20_public_key (d : Int) (net : NetValue) (c : Bool) (k : PrivateKey)
    (h : PrivateKey.make d net c = .ok k) :
    ∃ x y, k.toPublicKey = .ok ⟨(x, y), k.network, c⟩ ∧ reduced x ∧ reduced y ∧ OnSecp x y ∧
      IsPoint x y (d.toNat • G) := by
  obtain ⟨n, _, h0, h1, rfl⟩ := (make_ok_iff _ _ _ _).1 h
  obtain ⟨x, y, o, hm, hx, hx', hy, hy', hD⟩ := mul_G d (by omega) h1
  have hp := denotes_isPoint hD
  have hon : OnSecp x y := by
    obtain ⟨hn, _⟩ := hp
    exact (onSecp_iff x y).2 ((containsPoint_iff_nonsingular secp_regular x y).2 hn)
  refine ⟨x, y, ?_, (reduced_iff x).2 ⟨hx, hx'⟩, (reduced_iff y).2 ⟨hy, hy'⟩, hon, hp⟩
  have hpub : Ecdsa.publicPairForSecretExponent secp secpG d = .ok (some (x, y)) := by
    unfold Ecdsa.publicPairForSecretExponent
    rw [hm]; rfl
  unfold PrivateKey.toPublicKey PublicKey.fromPrivateKey
  simp only
  rw [hpub]
  exact C17_accepts _ _ hon _ _

/-- C20. Distinct secrets have distinct points. -/
theorem C20_injective (d d' : Int) (net net' : NetValue) (c c' : Bool) (k k' : PrivateKey)
    (h : PrivateKey.make d net c = .ok k) (h' : PrivateKey.make d' net' c' = .ok k') (p p' : PublicKey)
    (hp : k.toPublicKey = .ok p) (hp' : k'.toPublicKey = .ok p') (he : p.pair = p'.pair) : d = d' := by
  obtain ⟨x, y, hk, _, _, _, hP⟩ := C20_public_key d net c k h
  obtain ⟨x', y', hk', _, _, _, hP'⟩ := C20_public_key d' net' c' k' h'
  rw [hp] at hk; cases hk
  rw [hp'] at hk'; cases hk'
  cases he
  obtain ⟨_, e1⟩ := hP
  obtain ⟨_, e2⟩ := hP'
  obtain ⟨_, _, h0, h1, _⟩ := (make_ok_iff _ _ _ _).1 h
  obtain ⟨_, _, h0', h1', _⟩ := (make_ok_iff _ _ _ _).1 h'
  have hk : PrivateKey.keyMax = (secpN : Int) := rfl
  have := smul_G_inj (k := d.toNat) (l := d'.toNat) (by omega) (by omega) (e1.trans e2.symm)
  omega

/-- C20. `to_address()` of a private key never fails either: it is the P2PKH address of the SEC bytes. -/
theorem C20_address (H : Hashes) (d : Int) (net : NetValue) (c : Bool) (k : PrivateKey)
    (h : PrivateKey.make d net c = .ok k) :
    ∃ p b, k.toPublicKey = .ok p ∧ p.toBytes = .ok b ∧
      k.toAddress H = .ok ⟨H.ripemd160 (H.sha256 b), k.network, .publicKey⟩ := by
  obtain ⟨x, y, hk, hx, hy, hon, _⟩ := C20_public_key d net c k h
  obtain ⟨b, hb, _⟩ := C18_to_bytes ⟨(x, y), k.network, c⟩ hx hy
  refine ⟨_, b, hk, hb, ?_⟩
  unfold PrivateKey.toAddress
  rw [hk]
  show PublicKey.toAddress H _ = _
  unfold PublicKey.toAddress
  rw [hb]
  simp [bind, Except.bind, Address.fromPublicKeyBytes, Address.new, Network.find, Network.find?,
    H.ripemd160_length]

example : ∃ k, PrivateKey.make (secpN - 1) (.network .testnet) false = .ok k := ⟨_, by
  rw [make_network, if_pos (by decide)]⟩

/-! ## C61 -/

/-- C61. The group of points has exactly `n` elements, where `n` is the declared order of the generator. -/
theorem C61_cofactor_one : Nat.card SecpGroup = secpN ∧ secpG.order = some secpN ∧ secpN.Prime :=
  ⟨card_secp, rfl, secpNPrime.out⟩

/-- C61. Every public key the constructor accepts is `secret · G` for exactly one secret in range. -/
theorem C61_unique_secret (x y : Int) (net : NetValue) (c : Bool) (k : PublicKey)
    (h : PublicKey.new (x, y) net c = .ok k) :
    ∃ d : Nat, 1 ≤ d ∧ d < secpN ∧ IsPoint x y (d • G) ∧
      ∀ d' : Nat, d' < secpN → IsPoint x y (d' • G) → d' = d := by
  obtain ⟨n, _, hc, _⟩ := (pub_new_ok_iff _ _ _ _).1 h
  have hn := (containsPoint_iff_nonsingular secp_regular x y).1 hc
  obtain ⟨d, hd, e⟩ := exists_smul_G (.some _ _ hn)
  refine ⟨d, ?_, hd, ⟨hn, e⟩, ?_⟩
  · by_contra h0
    have : d = 0 := by omega
    rw [this, zero_nsmul] at e
    exact Point.some_ne_zero _ e.symm
  · rintro d' hd' ⟨_, e'⟩
    exact smul_G_inj hd' hd (e'.trans e.symm)

/-- C61. With reduced coordinates that secret's `to_public_key()` is the key itself. -/
theorem C61_has_private_key (x y : Int) (hx : reduced x) (hy : reduced y) (n : Network) (c : Bool)
    (k : PublicKey) (h : PublicKey.new (x, y) (.network n) c = .ok k) :
    ∃ (d : Int) (s : PrivateKey), PrivateKey.make d (.network n) c = .ok s ∧ s.toPublicKey = .ok k := by
  obtain ⟨d, h1, h2, ⟨hn, hP⟩, _⟩ := C61_unique_secret x y _ c k h
  obtain ⟨n', hn', _, rfl⟩ := (pub_new_ok_iff _ _ _ _).1 h
  cases hn'
  have hk : PrivateKey.keyMax = (secpN : Int) := rfl
  have hm : PrivateKey.make (d : Int) (.network n) c = .ok ⟨d, n, c⟩ := by
    rw [make_network, if_pos ⟨by omega, by omega⟩]
  obtain ⟨x', y', hk', hx', hy', _, hn2, hP'⟩ := C20_public_key d _ c _ hm
  rw [Int.toNat_natCast, hP] at hP'
  injection hP' with e1 e2
  refine ⟨d, _, hm, ?_⟩
  rw [hk', reduced_inj (c := secp) ((reduced_iff x').1 hx').1 ((reduced_iff x').1 hx').2 ((reduced_iff x).1 hx).1
    ((reduced_iff x).1 hx).2 e1.symm, reduced_inj (c := secp) ((reduced_iff y').1 hy').1 ((reduced_iff y').1 hy').2
    ((reduced_iff y).1 hy).1 ((reduced_iff y).1 hy).2 e2.symm]

example : ∃ k, PublicKey.new (1, yOfOne) (.network .testnet) false = .ok k :=
  ⟨⟨(1, yOfOne), .testnet, false⟩, by decide +kernel⟩

end Bitforge
