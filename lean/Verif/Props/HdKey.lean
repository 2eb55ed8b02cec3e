import Verif.RealHashes
import Verif.Proofs.HdKey

/-! # C56–C58, C64, C65: extended keys -/

namespace Bitforge
open Spec

/-! ## C56 parsing -/

theorem lt_keyMax (n : Nat) : (n : Int) < PrivateKey.keyMax ↔ n < secpN := Int.ofNat_lt

/-- C56. Parsing the BIP 32 serialisation of a private extended key gives back all its fields.  (`rest`: what
follows the 78 bytes is ignored, see `C56_private_trailing`.) -/
theorem fromData_private (H : Hashes) (test : Bool) (depth parent index : Nat) (chain kb payload rest : Bytes)
    (b45 : Byte) (h : Extended (xprvVersion test) depth parent index chain (b45 :: kb) payload)
    (h0 : 0 < beValue kb) (h1 : beValue kb < secpN) :
    ∃ x y f, reduced x ∧ reduced y ∧ IsPoint x y (beValue kb • G) ∧ Fingerprint H x y true f ∧
      HDPrivateKey.fromData H (payload ++ rest) = .ok ⟨⟨beValue kb, netOf test, true⟩, chain, depth, index,
        parent, netOf test, f⟩ := by
  obtain ⟨v, d, p, i, ⟨hv, ev⟩, ⟨hd, ed⟩, ⟨hp, ep⟩, ⟨hi, ei⟩, hc, hk, rfl⟩ := h
  obtain ⟨c1, c2, c3, c4, c5, _, c7⟩ := cuts v d p i chain (b45 :: kb) rest hv hd hp hi hc hk
  obtain ⟨x, y, f, hx, hy, _, hP, hF, _, _, hnew⟩ := hdpriv_new H (beValue kb) (netOf test) true (by omega)
    (by exact_mod_cast h1) chain depth index parent (netOf test)
  rw [Int.toNat_natCast] at hP
  refine ⟨x, y, f, hx, hy, hP, hF, ?_⟩
  have hfb : PrivateKey.fromBytes kb (.network (netOf test)) = .ok ⟨beValue kb, netOf test, true⟩ := by
    unfold PrivateKey.fromBytes
    have : kb.length = 32 := by simpa using hk
    rw [if_neg (by simp [this]), decodeInt_big]
    exact (make_ok_iff _ _ _ _).2 ⟨_, rfl, by omega, (lt_keyMax _).2 h1, rfl⟩
  unfold HDPrivateKey.fromData
  simp only [c1, c2, c3, c4, c5, c7, intFromBytes_eq, ev, ed, ep, ei, find_hd_private, List.drop_succ_cons,
    List.drop_zero, hfb, hnew]

/-- C56. `HDPrivateKey.from_string` of a BIP 32 serialisation returns the serialised fields. -/
theorem C56_private (H : Hashes) (test : Bool) (depth parent index : Nat) (chain kb payload : Bytes) (t : Text)
    (h : Extended (xprvVersion test) depth parent index chain (0 :: kb) payload) (ht : Base58Check H payload t)
    (h0 : 0 < beValue kb) (h1 : beValue kb < secpN) :
    ∃ x y f, reduced x ∧ reduced y ∧ IsPoint x y (beValue kb • G) ∧ Fingerprint H x y true f ∧
      HDPrivateKey.fromString H t = .ok ⟨⟨beValue kb, netOf test, true⟩, chain, depth, index, parent,
        netOf test, f⟩ := by
  obtain ⟨x, y, f, k1, k2, k3, k4, k5⟩ :=
    fromData_private H test depth parent index chain kb payload [] 0 h h0 h1
  refine ⟨x, y, f, k1, k2, k3, k4, ?_⟩
  unfold HDPrivateKey.fromString
  rw [a2b_of_check ht]
  simpa using k5

/-- A chain code and a secret for examples. -/
def sampleChain : Bytes := List.replicate 32 0x11
def sampleKey : Bytes := List.replicate 31 0 ++ [5]
/-- A 78-byte `tprv` payload. -/
def sampleXprv : Bytes :=
  [0x04, 0x35, 0x83, 0x94] ++ [3] ++ [0, 0, 1, 2] ++ [0x80, 0, 0, 9] ++ sampleChain ++ 0 :: sampleKey

example : Extended (xprvVersion true) 3 258 0x80000009 sampleChain (0 :: sampleKey) sampleXprv ∧
    Base58Check Hashes.toy sampleXprv (encodeBase58h Hashes.toy sampleXprv) ∧ 0 < beValue sampleKey ∧
    beValue sampleKey < secpN :=
  ⟨⟨_, _, _, _, ⟨rfl, by decide⟩, ⟨rfl, by decide⟩, ⟨rfl, by decide⟩, ⟨rfl, by decide⟩, rfl, rfl, rfl⟩,
    (base58Check_iff _ _ _).2 (decode_encodeBase58h _ _), by decide +kernel, by decide +kernel⟩

/-- C56. `HDPublicKey.from_string` of a BIP 32 serialisation returns the serialised fields. -/
theorem C56_public (H : Hashes) (test : Bool) (depth parent index : Nat) (chain key payload : Bytes) (t : Text)
    (x y : Int) (hx : reduced x) (hy : reduced y) (hon : OnSecp x y) (hs : Sec x.toNat y.toNat true key)
    (h : Extended (xpubVersion test) depth parent index chain key payload) (ht : Base58Check H payload t) :
    ∃ f, Fingerprint H x y true f ∧
      HDPublicKey.fromString H t = .ok ⟨⟨(x, y), netOf test, true⟩, chain, depth, index, parent,
        netOf test, f⟩ := by
  obtain ⟨v, d, p, i, ⟨hv, ev⟩, ⟨hd, ed⟩, ⟨hp, ep⟩, ⟨hi, ei⟩, hc, hk, rfl⟩ := h
  obtain ⟨c1, c2, c3, c4, c5, c6, _⟩ := cuts v d p i chain key [] hv hd hp hi hc hk
  rw [List.append_nil] at c1 c2 c3 c4 c5 c6
  obtain ⟨f, hf, hF⟩ := fingerprint_ok H ⟨(x, y), netOf test, true⟩ hx hy
  refine ⟨f, hF, ?_⟩
  unfold HDPublicKey.fromString
  rw [a2b_of_check ht]
  have := fromBytes_sec x y true (netOf test) key hon hx hy hs
  unfold HDPublicKey.fromData HDPublicKey.new
  simp only [c1, c2, c3, c4, c5, c6, intFromBytes_eq, ev, ed, ep, ei, find_hd_public, this, hf]

/-- The SEC encoding of the generator. -/
def sampleSec : Bytes := 2 :: encodeInt secpGx true (some 32)

example : reduced secpGx ∧ reduced secpGy ∧ OnSecp secpGx secpGy ∧ Sec secpGx.toNat secpGy.toNat true sampleSec ∧
    Extended (xpubVersion false) 0 0 7 sampleChain sampleSec
      ([0x04, 0x88, 0xb2, 0x1e] ++ [0] ++ [0, 0, 0, 0] ++ [0, 0, 0, 7] ++ sampleChain ++ sampleSec) :=
  ⟨by unfold reduced; decide, by unfold reduced; decide, by unfold OnSecp; decide,
    ⟨encodeInt secpGx true (some 32), by decide +kernel, by decide +kernel, by
      rw [if_pos rfl, if_pos (by decide +kernel)]; rfl⟩,
    _, _, _, _, ⟨rfl, by decide⟩, ⟨rfl, by decide⟩, ⟨rfl, by decide⟩, ⟨rfl, by decide⟩, rfl, by decide +kernel, rfl⟩

/-- C56. Text that is not Base58Check, or that has an unknown version, or whose key is not a valid secret, is
rejected: whatever `HDPrivateKey.from_string` accepts starts with a serialised extended key, up to the byte in
front of the secret. -/
theorem C56_private_sound (H : Hashes) (t : Text) (k : HDPrivateKey) (h : HDPrivateKey.fromString H t = .ok k) :
    ∃ (test : Bool) (depth index : Nat) (b45 : Byte) (kb payload rest : Bytes),
      Base58Check H (payload ++ rest) t ∧
      Extended (xprvVersion test) depth k.parent index k.chain (b45 :: kb) payload ∧ k.depth = depth ∧
      k.index = index ∧ k.network = netOf test ∧ k.privkey = ⟨beValue kb, netOf test, true⟩ ∧
      0 < beValue kb ∧ beValue kb < secpN := by
  unfold HDPrivateKey.fromString at h
  split at h
  · cases h
  next data hd =>
  unfold HDPrivateKey.fromData at h
  extract_lets chain depth index parent version at h
  split at h
  · cases h
  next network hn =>
  split at h
  · cases h
  next privkey hp =>
  obtain ⟨test, hver, rfl⟩ : ∃ test, version = xprvVersion test ∧ network = netOf test := by
    obtain ⟨hmem, ha⟩ := C10_sound (.int version) (by intro m; simp) _ _ hn
    simp only [Network.all, List.mem_cons, List.not_mem_nil, or_false] at hmem
    rcases hmem with rfl | rfl
    · refine ⟨false, ?_, rfl⟩
      have : Network.getAttr Network.livenet "hd_private_key" = some (.int (0x0488ade4 : Nat)) := by decide +kernel
      rw [this] at ha
      simp only [Option.some.injEq, NetValue.int.injEq] at ha
      exact_mod_cast ha.symm
    · refine ⟨true, ?_, rfl⟩
      have : Network.getAttr Network.testnet "hd_private_key" = some (.int (0x04358394 : Nat)) := by decide +kernel
      rw [this] at ha
      simp only [Option.some.injEq, NetValue.int.injEq] at ha
      exact_mod_cast ha.symm
  have hlen : (cut data 46 78).length = 32 := by
    by_contra hc
    unfold PrivateKey.fromBytes at hp
    rw [if_pos hc] at hp; cases hp
  have hdl : 78 ≤ data.length := by
    unfold cut at hlen; simp at hlen; omega
  have hk : privkey = ⟨beValue (cut data 46 78), netOf test, true⟩ ∧ 0 < beValue (cut data 46 78) ∧
      beValue (cut data 46 78) < secpN := by
    unfold PrivateKey.fromBytes at hp
    rw [if_neg (by simp [hlen]), decodeInt_big] at hp
    obtain ⟨n, hn', h0, h1, rfl⟩ := (make_ok_iff _ _ _ _).1 hp
    cases hn'
    exact ⟨rfl, by omega, (lt_keyMax _).1 h1⟩
  unfold HDPrivateKey.new at h
  split at h
  · cases h
  split at h
  · cases h
  cases h
  have hcut := cut_length data hdl
  obtain ⟨b45, hb45⟩ : ∃ b, cut data 45 46 = [b] := List.length_eq_one_iff.mp (hcut 45 46 (by omega))
  refine ⟨test, depth, index, b45, cut data 46 78, data.take 78, data.drop 78, ?_, ⟨cut data 0 4, cut data 4 5,
    cut data 5 9, cut data 9 13, ⟨hcut _ _ (by omega), ?_⟩, ⟨hcut _ _ (by omega), ?_⟩, ⟨hcut _ _ (by omega), ?_⟩,
    ⟨hcut _ _ (by omega), ?_⟩, hcut _ _ (by omega), by simp [hlen], ?_⟩, rfl, rfl, rfl, hk.1, hk.2.1, hk.2.2⟩
  · rw [List.take_append_drop]; exact check_of_a2b hd
  · rw [← intFromBytes_eq]; exact hver
  · rw [← intFromBytes_eq]
  · rw [← intFromBytes_eq]
  · rw [← intFromBytes_eq]
  · rw [take_eq_cuts, cut_split data 45 46 78 (by omega) (by omega), hb45]
    simp [chain]

/-- C56. Whatever `HDPublicKey.from_string` accepts starts with a serialised extended key. -/
theorem C56_public_sound (H : Hashes) (t : Text) (k : HDPublicKey) (h : HDPublicKey.fromString H t = .ok k) :
    ∃ (test : Bool) (depth index : Nat) (key payload rest : Bytes), Base58Check H (payload ++ rest) t ∧
      Extended (xpubVersion test) depth k.parent index k.chain key payload ∧ k.depth = depth ∧ k.index = index ∧
      k.network = netOf test ∧ k.pubkey.toBytes = .ok key ∧ k.pubkey.compressed = true ∧
      k.pubkey.network = netOf test ∧ OnSecp k.pubkey.pair.1 k.pubkey.pair.2 := by
  unfold HDPublicKey.fromString at h
  split at h
  · cases h
  next data hd =>
  unfold HDPublicKey.fromData at h
  extract_lets chain depth index parent version at h
  split at h
  · cases h
  next network hn =>
  split at h
  · cases h
  next pubkey hp =>
  obtain ⟨test, hver, rfl⟩ : ∃ test, version = xpubVersion test ∧ network = netOf test := by
    obtain ⟨hmem, ha⟩ := C10_sound (.int version) (by intro m; simp) _ _ hn
    simp only [Network.all, List.mem_cons, List.not_mem_nil, or_false] at hmem
    rcases hmem with rfl | rfl
    · refine ⟨false, ?_, rfl⟩
      have : Network.getAttr Network.livenet "hd_public_key" = some (.int (0x0488b21e : Nat)) := by decide +kernel
      rw [this] at ha
      simp only [Option.some.injEq, NetValue.int.injEq] at ha
      exact_mod_cast ha.symm
    · refine ⟨true, ?_, rfl⟩
      have : Network.getAttr Network.testnet "hd_public_key" = some (.int (0x043587cf : Nat)) := by decide +kernel
      rw [this] at ha
      simp only [Option.some.injEq, NetValue.int.injEq] at ha
      exact_mod_cast ha.symm
  have hpre := C19_prefix_partial _ _ _ hp
  have hon := C17_on_curve pubkey (.inr (.inr (.inl ⟨_, _, hp⟩)))
  obtain ⟨hcomp, hlen, hnet⟩ : pubkey.compressed = true ∧ (cut data 45 78).length = 33 ∧
      pubkey.network = netOf test := by
    have hle : (cut data 45 78).length ≤ 33 := by unfold cut; simp
    unfold PublicKey.fromBytes at hp
    split at hp
    · split at hp <;> cases hp
    next pair hpair =>
    obtain ⟨n, hn', _, rfl⟩ := (pub_new_ok_iff _ _ _ _).1 hp
    cases hn'
    unfold secToPublicPair at hpair
    simp only [Data.slice, fromBytes32_str, bind, Except.bind] at hpair
    split at hpair
    · cases hpair
    next x hx =>
    split at hx
    swap
    · cases hx
    next hxl =>
    have h33 : (cut data 45 78).length = 33 := by
      simp at hxl; omega
    refine ⟨?_, h33, rfl⟩
    split at hpair
    · have : ((List.take 65 (cut data 45 78)).drop 33).length = 0 := by simp; omega
      rw [if_neg (by omega)] at hpair
      cases hpair
    · split at hpair
      · next h23 => simpa [isSecCompressed] using h23
      · cases hpair
  have hdl : 78 ≤ data.length := by
    unfold cut at hlen; simp at hlen; omega
  unfold HDPublicKey.new at h
  split at h
  · cases h
  cases h
  have hcut := cut_length data hdl
  rw [hcomp, if_pos rfl, List.take_of_length_le (by omega)] at hpre
  refine ⟨test, depth, index, cut data 45 78, data.take 78, data.drop 78, ?_, ⟨cut data 0 4, cut data 4 5,
    cut data 5 9, cut data 9 13, ⟨hcut _ _ (by omega), ?_⟩, ⟨hcut _ _ (by omega), ?_⟩, ⟨hcut _ _ (by omega), ?_⟩,
    ⟨hcut _ _ (by omega), ?_⟩, hcut _ _ (by omega), hlen, ?_⟩, rfl, rfl, rfl, hpre, hcomp, hnet, hon⟩
  · rw [List.take_append_drop]; exact check_of_a2b hd
  · rw [← intFromBytes_eq]; exact hver
  · rw [← intFromBytes_eq]
  · rw [← intFromBytes_eq]
  · rw [← intFromBytes_eq]
  · exact take_eq_cuts data

/-- C56. The parser is lax: bytes after the 78, and the byte in front of the secret, are not looked at. -/
theorem C56_private_trailing (H : Hashes) (test : Bool) (depth parent index : Nat)
    (chain kb payload rest : Bytes) (b45 : Byte) (t : Text)
    (h : Extended (xprvVersion test) depth parent index chain (b45 :: kb) payload)
    (ht : Base58Check H (payload ++ rest) t) (h0 : 0 < beValue kb) (h1 : beValue kb < secpN) :
    ∃ f, HDPrivateKey.fromString H t = .ok ⟨⟨beValue kb, netOf test, true⟩, chain, depth, index, parent,
      netOf test, f⟩ := by
  obtain ⟨x, y, f, k1, k2, k3, k4, k5⟩ :=
    fromData_private H test depth parent index chain kb payload rest b45 h h0 h1
  refine ⟨f, ?_⟩
  unfold HDPrivateKey.fromString
  rw [a2b_of_check ht]
  exact k5

example : Base58Check Hashes.toy (sampleXprv ++ [9]) (encodeBase58h Hashes.toy (sampleXprv ++ [9])) :=
  (base58Check_iff _ _ _).2 (decode_encodeBase58h _ _)

/-! ## C57 `to_string` -/

theorem asciiSum_ok {parts : List Bytes} {b : Bytes} (h : asciiSum parts = .ok b) : b = parts.flatten := by
  unfold asciiSum at h
  split at h
  · cases h; rfl
  · cases h

theorem asciiSum_fails {parts : List Bytes} (part : Bytes) (hm : part ∈ parts) (b : Byte) (hb : b ∈ part)
    (h : 128 ≤ b.val) : asciiSum parts = .error .unicodeDecodeError := by
  unfold asciiSum
  rw [if_neg]
  intro hc
  rw [List.all_eq_true] at hc
  have := hc part hm
  rw [List.all_eq_true] at this
  have := this b hb
  simp at this
  omega

/-- C57 is false of the code: on both networks `HDPrivateKey.to_string` always raises UnicodeDecodeError, because
the version number has a byte above 127 and is added to a `unicode` literal. -/
theorem C57_private_refuted (H : Hashes) (k : HDPrivateKey) (hn : k.network ∈ Network.all) :
    k.toString H = .error .unicodeDecodeError := by
  have key : ∃ b ∈ intToBytes k.network.hdPrivateKey 4, 128 ≤ b.val := by
    simp only [Network.all, List.mem_cons, List.not_mem_nil, or_false] at hn
    rcases hn with h | h <;> rw [h]
    · exact ⟨0x88, by decide +kernel, by decide⟩
    · exact ⟨0x83, by decide +kernel, by decide⟩
  obtain ⟨b, hb, hb'⟩ := key
  unfold HDPrivateKey.toString
  rw [asciiSum_fails _ (by simp) b hb hb']

/-- C57 is false of the code: so does `HDPublicKey.to_string`. -/
theorem C57_public_refuted (H : Hashes) (k : HDPublicKey) (hn : k.network ∈ Network.all) :
    k.toString H = .error .unicodeDecodeError := by
  have key : ∃ b ∈ intToBytes k.network.hdPublicKey 4, 128 ≤ b.val := by
    simp only [Network.all, List.mem_cons, List.not_mem_nil, or_false] at hn
    rcases hn with h | h <;> rw [h]
    · exact ⟨0x88, by decide +kernel, by decide⟩
    · exact ⟨0x87, by decide +kernel, by decide⟩
  obtain ⟨b, hb, hb'⟩ := key
  unfold HDPublicKey.toString
  simp only
  rw [asciiSum_fails _ (by simp) b hb hb']

example : (⟨⟨5, .livenet, true⟩, sampleChain, 0, 0, 0, .livenet, 0⟩ : HDPrivateKey).network ∈ Network.all := by
  decide

theorem b2aUnicode_ok {H : Hashes} {b : Bytes} {t : Text} (h : b2aHashedBase58Unicode H b = .ok t) :
    Base58Check H b t := by
  unfold b2aHashedBase58Unicode at h
  split at h
  · cases h
  · cases h
    exact check_of_a2b ((a2bHashed_iff H _ b).2 rfl)

/-- C57, partial: what `HDPrivateKey.to_string` returns, if it returns, is the BIP 32 serialisation (this can
happen only for user-defined networks).  Missing: it never returns on the networks of the library. -/
theorem C57_private_partial (H : Hashes) (k : HDPrivateKey) (t : Text) (hc : k.chain.length = 32)
    (hs : 0 < k.privkey.secret) (hs' : k.privkey.secret < secpN)
    (hv : k.network.hdPrivateKey < 2 ^ 32) (hd : 0 ≤ k.depth ∧ k.depth < 256) (hi : 0 ≤ k.index ∧ k.index < 2 ^ 32)
    (hp : k.parent < 2 ^ 32) (h : k.toString H = .ok t) :
    ∃ kb payload, Base58Check H payload t ∧ (beValue kb : Int) = k.privkey.secret ∧
      Extended k.network.hdPrivateKey k.depth.toNat k.parent k.index.toNat k.chain (0 :: kb) payload := by
  unfold HDPrivateKey.toString at h
  split at h
  · cases h
  next b hb =>
  have hb := asciiSum_ok hb
  have hl : k.privkey.toBytes.length = 32 := by
    unfold PrivateKey.toBytes; exact encodeInt_length _ _ _
  refine ⟨k.privkey.toBytes, b, b2aUnicode_ok h, ?_, ?_⟩
  · rw [← decodeInt_big]; exact decodeInt_toBytes hs hs'
  · have b1 := bigEndian_intToBytes k.network.hdPrivateKey 4 (by omega) (by norm_num; omega)
    have b2 := bigEndian_intToBytes k.depth 1 hd.1 (by norm_num; omega)
    have b3 := bigEndian_intToBytes k.parent 4 (by omega) (by norm_num; omega)
    have b4 := bigEndian_intToBytes k.index 4 hi.1 (by norm_num; omega)
    rw [Int.toNat_natCast] at b1 b3
    refine ⟨_, _, _, _, b1, b2, b3, b4, hc, by simp [hl], ?_⟩
    rw [hb]; simp

/-- A network whose version bytes are ASCII, on which `to_string` can return. -/
def asciiNet : Network := { Network.livenet with hdPrivateKey := 0x01020304 }
example : ∃ t, (⟨⟨5, asciiNet, true⟩, sampleChain, 1, 2, 3, asciiNet, 0⟩ : HDPrivateKey).toString Hashes.toy
    = .ok t := ⟨_, by unfold HDPrivateKey.toString; rfl⟩

/-! ## C58 `derive` -/

/-- C58. Hardened derivation from a public key is refused. -/
theorem C58_hardened (H : Hashes) (k : HDPublicKey) (i : Int) : k.derive H i true = .error .valueError := by
  unfold HDPublicKey.derive; rfl

/-- C58 is false of the code: `HDPrivateKey.derive` never returns (a `PrivateKey` has no attribute `seed`). -/
theorem C58_private_refuted (k : HDPrivateKey) (i : Int) (hardened : Bool) : ∃ e, k.derive i hardened = .error e := by
  unfold HDPrivateKey.derive
  cases hardened with
  | true =>
    simp only [if_true, bind, Except.bind]
    cases asciiSum [[0], k.privkey.toBytes, intToBytes k.index 4] <;> exact ⟨_, rfl⟩
  | false =>
    simp only [Bool.false_eq_true, if_false, bind, Except.bind]
    cases k.privkey.toPublicKey with
    | error e => exact ⟨_, rfl⟩
    | ok p =>
      simp only
      cases p.toBytes <;> exact ⟨_, rfl⟩

/-- C58. The error is AttributeError for unhardened derivation from a valid key. -/
theorem C58_private_error (k : HDPrivateKey) (i : Int) (h0 : 0 < k.privkey.secret) (h1 : k.privkey.secret < secpN) :
    k.derive i false = .error .attributeError := by
  obtain ⟨x, y, f, hx, hy, _, _, _, hk, _⟩ := hdpriv_new Hashes.toy k.privkey.secret k.privkey.network
    k.privkey.compressed h0 h1 [] 0 0 0 .livenet
  obtain ⟨b, hb, _⟩ := C18_to_bytes ⟨(x, y), k.privkey.network, k.privkey.compressed⟩ hx hy
  unfold HDPrivateKey.derive
  have e : k.privkey = ⟨k.privkey.secret, k.privkey.network, k.privkey.compressed⟩ := rfl
  rw [← e] at hk
  simp only [Bool.false_eq_true, if_false, hk, hb, bind, Except.bind]

/-- C58 is false of the code: the key and chain code of a derived public key do not depend on the child number
asked for. -/
theorem C58_index_refuted (H : Hashes) (k : HDPublicKey) (i j : Int) :
    (k.derive H i).map (fun c => (c.pubkey, c.chain)) = (k.derive H j).map (fun c => (c.pubkey, c.chain)) := by
  unfold HDPublicKey.derive HDPublicKey.new
  simp only [bind, Except.bind, Bool.false_eq_true, and_false, if_false]
  cases k.pubkey.toBytes with
  | error e => rfl
  | ok b =>
    simp only
    cases Point.mul secp secpG _ with
    | error e => rfl
    | ok L =>
      simp only
      cases Point.make secp _ _ _ with
      | error e => rfl
      | ok O =>
        simp only
        cases Point.add secp L O with
        | error e => rfl
        | ok R =>
          simp only
          cases R.pair with
          | none => rfl
          | some pr =>
            simp only
            cases PublicKey.new pr (.network k.network) with
            | error e => rfl
            | ok pk =>
              simp only
              cases fingerprintOf H pk <;> rfl

/-- C58, partial: a public key derives the child of BIP 32 whose number is the key's *own* index (so the child
is right when `i` equals it); the other fields are as they should be.  Missing: other child numbers. -/
theorem C58_public_partial (H : Hashes) (k : HDPublicKey) (i : Int) (hc : k.pubkey.compressed = true)
    (hx : reduced k.pubkey.pair.1) (hy : reduced k.pubkey.pair.2) (hon : OnSecp k.pubkey.pair.1 k.pubkey.pair.2)
    (hi : 0 ≤ k.index ∧ k.index < 2 ^ 32) :
    ∃ child chain', CkdPub H k.chain k.pubkey.pair.1 k.pubkey.pair.2 k.index.toNat child chain' ∧
      (child ≠ 0 → ∃ x y f, reduced x ∧ reduced y ∧ IsPoint x y child ∧ Fingerprint H x y true f ∧
        k.derive H i = .ok ⟨⟨(x, y), k.network, true⟩, chain', k.depth + 1, i, k.fingerprint, k.network, f⟩) ∧
      (child = 0 → ∃ e, k.derive H i = .error e) := by
  obtain ⟨sec, hsec, hSec⟩ := C18_to_bytes k.pubkey hx hy
  rw [hc] at hSec
  have hcp := (onSecp_iff _ _).1 hon
  have hn := (containsPoint_iff_nonsingular secp_regular _ _).1 hcp
  have hQ : IsPoint k.pubkey.pair.1 k.pubkey.pair.2 (.some _ _ hn) := ⟨hn, rfl⟩
  have bi := bigEndian_intToBytes k.index 4 hi.1 (by norm_num; omega)
  refine ⟨_, _, ⟨sec, _, _, hSec, bi, hQ, rfl, rfl⟩, ?_, ?_⟩
  · intro hne
    obtain ⟨L, R, x', y', hL, hO, hR, hpair, rx, ry, hcont, hP⟩ := derive_point _ _ _ _ hx hy hQ hne
    obtain ⟨f, hf, hF⟩ := fingerprint_ok H ⟨(x', y'), k.network, true⟩ rx ry
    refine ⟨x', y', f, rx, ry, hP, hF, ?_⟩
    have hnew : PublicKey.new (x', y') (.network k.network) = .ok ⟨(x', y'), k.network, true⟩ :=
      (pub_new_ok_iff _ _ _ _).2 ⟨_, rfl, hcont, rfl⟩
    unfold HDPublicKey.derive HDPublicKey.new
    simp only [bind, Except.bind, Bool.false_eq_true, and_false, if_false, hsec, intFromBytes_eq, hL, hO, hR, hpair,
      hnew, hf]
  · intro h0
    unfold HDPublicKey.derive
    simp only [bind, Except.bind, Bool.false_eq_true, and_false, if_false, hsec, intFromBytes_eq]
    cases hL : Point.mul secp secpG ((beValue ((H.hmacSha512 k.chain (sec ++ intToBytes k.index 4)).take 32) : Nat) : Int) with
    | error e => exact ⟨_, rfl⟩
    | ok L =>
      simp only
      cases hO : Point.make secp k.pubkey.pair.1 k.pubkey.pair.2 (some secpN) with
      | error e => exact ⟨_, rfl⟩
      | ok O =>
        simp only
        cases hR : Point.add secp L O with
        | error e => exact ⟨_, rfl⟩
        | ok R =>
          simp only
          have hRinf : R = .infinity := by
            have hN : (0 : Int) < secpN := by decide
            generalize beValue ((H.hmacSha512 k.chain (sec ++ intToBytes k.index 4)).take 32) = e at *
            have e0 : 0 ≤ effective secpG e := by rw [effective_secpG]; exact Int.emod_nonneg _ (by decide)
            obtain ⟨L', hL', hD⟩ := secp_mul (denotes_G (some secpN)) (e : Int) e0
            change Point.mul secp secpG (e : Int) = .ok L' at hL'
            rw [hL] at hL'
            cases hL'
            have hD' : Denotes secp L (e • G) := by
              have : (effective (.affine secpGx secpGy (some secpN)) (e : Int)).toNat • G = e • G := by
                change (effective secpG (e : Int)).toNat • G = e • G
                rw [effective_secpG, ← natCast_zsmul, Int.toNat_of_nonneg (by rw [← effective_secpG]; exact e0),
                  ← natCast_zsmul, ← addOrderOf_G, mod_addOrderOf_zsmul]
              rwa [this] at hD
            have hx' := (reduced_iff _).1 hx
            have hDQ : Denotes secp (.affine k.pubkey.pair.1 k.pubkey.pair.2 (some secpN)) (.some _ _ hn) :=
              .affine _ _ _ hx'.1 hx'.2 hn
            have hO' : O = .affine k.pubkey.pair.1 k.pubkey.pair.2 (some secpN) := by
              unfold Point.make at hO
              rw [if_pos hcp] at hO
              cases hO; rfl
            subst hO'
            obtain ⟨R', hR', hDR⟩ := add_denotes secp_regular hD' hDQ
            rw [hR] at hR'
            cases hR'
            rw [h0] at hDR
            cases R with
            | infinity => rfl
            | affine x y o =>
              exfalso
              obtain ⟨_, hp⟩ := denotes_isPoint hDR
              exact WeierstrassCurve.Affine.Point.some_ne_zero _ hp.symm
          subst hRinf
          exact ⟨_, rfl⟩

/-- The generator as an extended public key. -/
def sampleXpub : HDPublicKey := ⟨⟨(secpGx, secpGy), .livenet, true⟩, sampleChain, 0, 7, 0, .livenet, 0⟩
example : reduced sampleXpub.pubkey.pair.1 ∧ reduced sampleXpub.pubkey.pair.2 ∧
    OnSecp sampleXpub.pubkey.pair.1 sampleXpub.pubkey.pair.2 ∧ (0 ≤ sampleXpub.index ∧ sampleXpub.index < 2 ^ 32) :=
  ⟨by unfold reduced; decide, by unfold reduced; decide, by unfold OnSecp; decide, by decide⟩

/-- C58 is false of the code: a child number in the hardened range is not refused when `hardened` is not set. -/
theorem C58_hardened_index_refuted : ∃ k c : HDPublicKey, k.derive .real 0x80000000 = .ok c ∧
    c.index = 0x80000000 := by
  have : ((sampleXpub.derive Hashes.real 0x80000000).toOption.map (·.index)) = some 0x80000000 := by decide +kernel
  cases h : sampleXpub.derive Hashes.real 0x80000000 with
  | error e => rw [h] at this; cases this
  | ok c => rw [h] at this; exact ⟨_, c, h, by simpa [Except.toOption] using this⟩

/-! ## C64 neutering -/

/-- C64. `to_hd_public_key` keeps chain code, depth, index, parent, network and fingerprint, and its key is
`secret · G`. -/
theorem C64_neuter (H : Hashes) (s : Int) (n : Network) (c : Bool) (h0 : 0 < s) (h1 : s < secpN) (chain : Bytes)
    (depth index : Int) (parent : Nat) (net : Network) (k : HDPrivateKey)
    (h : HDPrivateKey.new H ⟨s, n, c⟩ chain depth index parent net = .ok k) :
    ∃ x y, IsPoint x y (s.toNat • G) ∧ reduced x ∧ reduced y ∧
      k.toHdPublicKey H = .ok ⟨⟨(x, y), n, c⟩, chain, depth, index, parent, net, k.fingerprint⟩ := by
  obtain ⟨x, y, f, hx, hy, _, hp, _, hk, hf, hnew⟩ := hdpriv_new H s n c h0 h1 chain depth index parent net
  rw [hnew] at h
  cases h
  refine ⟨x, y, hp, hx, hy, ?_⟩
  unfold HDPrivateKey.toHdPublicKey HDPublicKey.fromHdPrivateKey HDPublicKey.new
  simp only [hk, hf]

example : (0 : Int) < 5 ∧ (5 : Int) < secpN ∧ ∃ k, HDPrivateKey.new Hashes.toy ⟨5, .livenet, true⟩ sampleChain 1 2 3
    .livenet = .ok k := by
  obtain ⟨x, y, f, _, _, _, _, _, _, _, h⟩ := hdpriv_new Hashes.toy 5 .livenet true (by decide) (by decide)
    sampleChain 1 2 3 .livenet
  exact ⟨by decide, by decide, _, h⟩

/-- C64. A key and a chain code alone make a root key of the live network: depth, index and parent are zero. -/
theorem C64_root (H : Hashes) (k : PrivateKey) (q : PublicKey) (chain : Bytes) (hk : k.toPublicKey = .ok q)
    (hx : reduced q.pair.1) (hy : reduced q.pair.2) : ∃ f, Fingerprint H q.pair.1 q.pair.2 q.compressed f ∧
      HDPrivateKey.new H k chain = .ok ⟨k, chain, 0, 0, 0, .livenet, f⟩ ∧
      HDPublicKey.new H q chain = .ok ⟨q, chain, 0, 0, 0, .livenet, f⟩ := by
  obtain ⟨f, hf, hF⟩ := fingerprint_ok H q hx hy
  refine ⟨f, hF, ?_, ?_⟩
  · unfold HDPrivateKey.new
    simp only [hk, hf]
  · unfold HDPublicKey.new
    simp only [hf]

example : ∃ q : PublicKey, (⟨5, .testnet, true⟩ : PrivateKey).toPublicKey = .ok q ∧ reduced q.pair.1 ∧ reduced q.pair.2 := by
  obtain ⟨x, y, hk, hx, hy, -⟩ := C20_public_key 5 (.network .testnet) true _
    ((make_ok_iff _ _ _ _).2 ⟨.testnet, rfl, by decide, by decide, rfl⟩)
  exact ⟨_, hk, hx, hy⟩

/-! ## C65 master keys -/

/-- C65. A seed of at least 32 bytes gives the BIP 32 master key, unless the left half of the HMAC is 0 or not
below the group order, when it is rejected. -/
theorem C65_master (H : Hashes) (seed : Bytes) (hl : 32 ≤ seed.length) :
    let I := H.hmacSha512 (asciiBytes "Bitcoin seed") seed
    if 0 < beValue (I.take 32) ∧ beValue (I.take 32) < secpN then
      ∃ x y f, IsPoint x y (beValue (I.take 32) • G) ∧ Fingerprint H x y true f ∧
        HDPrivateKey.fromSeed H seed =
          .ok ⟨⟨beValue (I.take 32), .livenet, true⟩, I.drop 32, 0, 0, 0, .livenet, f⟩
    else HDPrivateKey.fromSeed H seed = .error .privInvalidSecret := by
  intro I
  have hI : H.hmacSha512 HDPrivateKey.hmacMagicKey seed = I := by
    show _ = H.hmacSha512 _ seed
    congr 1
  have hlen : (I.take 32).length = 32 := by
    have : I.length = 64 := H.hmacSha512_length _ _
    simp [this]
  have hfs : HDPrivateKey.fromSeed H seed = match PrivateKey.make (beValue (I.take 32)) with
      | .error e => .error e
      | .ok privkey => HDPrivateKey.new H privkey (I.drop 32) := by
    unfold HDPrivateKey.fromSeed
    rw [if_neg (by omega)]
    simp only [hI]
    unfold PrivateKey.fromBytes
    rw [if_neg (by simp [hlen]), decodeInt_big]
    rfl
  rw [hfs]
  by_cases h : 0 < beValue (I.take 32) ∧ beValue (I.take 32) < secpN
  · rw [if_pos h]
    obtain ⟨x, y, f, _, _, _, hP, hF, _, _, hnew⟩ := hdpriv_new H (beValue (I.take 32)) .livenet true
      (by omega) (by exact_mod_cast h.2) (I.drop 32) 0 0 0 .livenet
    have hm : PrivateKey.make (beValue (I.take 32)) = .ok ⟨beValue (I.take 32), .livenet, true⟩ :=
      (make_ok_iff _ _ _ _).2 ⟨_, rfl, by omega, (lt_keyMax _).2 h.2, rfl⟩
    rw [Int.toNat_natCast] at hP
    exact ⟨x, y, f, hP, hF, by rw [hm]; exact hnew⟩
  · rw [if_neg h]
    have hk : PrivateKey.keyMax = ((secpN : Nat) : Int) := rfl
    have hm : PrivateKey.make (beValue (I.take 32)) = .error .privInvalidSecret := by
      unfold PrivateKey.make PrivateKey.new
      have : PrivateKey.findNetwork (.network .livenet) = .ok .livenet := rfl
      rw [this]
      simp only [Option.getD_some]
      rw [if_pos (by rw [hk]; omega)]
    rw [hm]

/-- C65. Shorter seeds are refused. -/
theorem C65_short (H : Hashes) (seed : Bytes) (hl : seed.length < 32) :
    HDPrivateKey.fromSeed H seed = .error .valueError := by
  unfold HDPrivateKey.fromSeed; rw [if_pos hl]

example : 32 ≤ (List.replicate 32 (1 : Byte)).length ∧ ([1, 2] : Bytes).length < 32 := by decide

end Bitforge
