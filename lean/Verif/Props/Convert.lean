import Verif.Props.DeriveOutcome

/-! # C125: what keys and addresses are made of, and what they become, in every case -/

namespace Bitforge
open Spec

/-! ## The outcomes -/

/-- The network meant by a network or by a name; `e` if there is none. -/
inductive NetworkMeant (e : Err) (v : NetValue) : Except Err Network → Prop
  | itself {n} : v = .network n → NetworkMeant e v (.ok n)
  | named {n} : n ∈ [Network.livenet, .testnet] → v = .text n.name → NetworkMeant e v (.ok n)
  | unknown : (∀ n, v ≠ .network n) → v ≠ .text "livenet".toList → v ≠ .text "testnet".toList → NetworkMeant e v (.error e)

/-- `PrivateKey(secret, network, compressed)`; without a secret `random` is taken. -/
inductive SecretMade (s : Option Int) (v : NetValue) (c : Bool) (random : Int) : Except Err PrivateKey → Prop
  | network {e} : NetworkMeant .privUnknownNetwork v (.error e) → SecretMade s v c random (.error e)
  | range {n d} : NetworkMeant .privUnknownNetwork v (.ok n) → d = s.getD random →
      d ≤ 0 ∨ 0xFFFFFFFFFFFFFFFFFFFFFFFFFFFFFFFEBAAEDCE6AF48A03BBFD25E8CD0364141 ≤ d →
      SecretMade s v c random (.error .privInvalidSecret)
  | key {n d} : NetworkMeant .privUnknownNetwork v (.ok n) → d = s.getD random →
      0 < d → d < 0xFFFFFFFFFFFFFFFFFFFFFFFFFFFFFFFEBAAEDCE6AF48A03BBFD25E8CD0364141 → SecretMade s v c random (.ok ⟨d, n, c⟩)

/-- `PublicKey(pair, network, compressed)`. -/
inductive PairMade (p : Int × Int) (v : NetValue) (c : Bool) : Except Err PublicKey → Prop
  | network {e} : NetworkMeant .pubUnknownNetwork v (.error e) → PairMade p v c (.error e)
  | off {n} : NetworkMeant .pubUnknownNetwork v (.ok n) → ¬ OnSecp p.1 p.2 → PairMade p v c (.error .pubInvalidPair)
  | key {n} : NetworkMeant .pubUnknownNetwork v (.ok n) → OnSecp p.1 p.2 → PairMade p v c (.ok ⟨p, n, c⟩)

/-- `Address(phash, network, type)`. -/
inductive HashMade (b : Bytes) (v : NetValue) (t : Option AddrType) : Except Err Address → Prop
  | network {e} : NetworkMeant .addrUnknownNetwork v (.error e) → HashMade b v t (.error e)
  | type {n} : NetworkMeant .addrUnknownNetwork v (.ok n) → t = none → HashMade b v t (.error .addrInvalidType)
  | length {n} : NetworkMeant .addrUnknownNetwork v (.ok n) → t ≠ none → b.length ≠ 20 →
      HashMade b v t (.error .addrInvalidHashLength)
  | address {n a} : NetworkMeant .addrUnknownNetwork v (.ok n) → t = some a → b.length = 20 → HashMade b v t (.ok ⟨b, n, a⟩)

/-- The public key of a private key, whatever its secret is. -/
inductive PublicOf (k : PrivateKey) : Except Err PublicKey → Prop
  | infinity : k.secret • G = 0 → PublicOf k (.error .typeError)
  | point {x y} : reduced x → reduced y → IsPoint x y (k.secret • G) → PublicOf k (.ok ⟨(x, y), k.network, k.compressed⟩)

/-- The address of a public key. -/
inductive AddressOf (H : Hashes) (q : PublicKey) : Except Err Address → Prop
  | fails {e} : SecWritten q (.error e) → AddressOf H q (.error e)
  | hash {b} : SecWritten q (.ok b) → AddressOf H q (.ok ⟨H.ripemd160 (H.sha256 b), q.network, .publicKey⟩)

/-- The address of a private key. -/
inductive AddressOfSecret (H : Hashes) (k : PrivateKey) : Except Err Address → Prop
  | infinity : k.secret • G = 0 → AddressOfSecret H k (.error .typeError)
  | hash {q b} : PublicOf k (.ok q) → SecWritten q (.ok b) →
      AddressOfSecret H k (.ok ⟨H.ripemd160 (H.sha256 b), k.network, .publicKey⟩)

/-- The address of a script. -/
inductive AddressOfScript (H : Hashes) (s : Script) (v : NetValue) : Except Err Address → Prop
  | fails {e} : ScriptWritten s (.error e) → AddressOfScript H s v (.error e)
  | network {b e} : ScriptWritten s (.ok b) → NetworkMeant .addrUnknownNetwork v (.error e) → AddressOfScript H s v (.error e)
  | hash {b n} : ScriptWritten s (.ok b) → NetworkMeant .addrUnknownNetwork v (.ok n) →
      AddressOfScript H s v (.ok ⟨H.ripemd160 (H.sha256 b), n, .script⟩)

/-- `HDPrivateKey(...)`. -/
inductive XprvMade (H : Hashes) (k : PrivateKey) (chain : Bytes) (depth index : Int) (parent : Nat) (net : Network) :
    Except Err HDPrivateKey → Prop
  | infinity : k.secret • G = 0 → XprvMade H k chain depth index parent net (.error .typeError)
  | key {q f} : PublicOf k (.ok q) → FingerprintMade H q (.ok f) →
      XprvMade H k chain depth index parent net (.ok ⟨k, chain, depth, index, parent, net, f⟩)

/-- The extended public key of an extended private key. -/
inductive XpubOf (H : Hashes) (k : HDPrivateKey) : Except Err HDPublicKey → Prop
  | infinity : k.privkey.secret • G = 0 → XpubOf H k (.error .typeError)
  | key {q f} : PublicOf k.privkey (.ok q) → FingerprintMade H q (.ok f) →
      XpubOf H k (.ok ⟨q, k.chain, k.depth, k.index, k.parent, k.network, f⟩)

/-- `derive` of an extended private key: there is no child in any case. -/
inductive XprvTried (k : HDPrivateKey) : Bool → Except Err HDPrivateKey → Prop
  | infinity : k.privkey.secret • G = 0 → XprvTried k false (.error .typeError)
  | plain : k.privkey.secret • G ≠ 0 → XprvTried k false (.error .attributeError)
  | unicode {b} : ¬ Seven (be 32 k.privkey.secret.toNat ++ twos 4 k.index) → b = true → XprvTried k b (.error .unicodeDecodeError)
  | ascii {b} : Seven (be 32 k.privkey.secret.toNat ++ twos 4 k.index) → b = true → XprvTried k b (.error .attributeError)

/-- The root of a seed. -/
inductive RootMade (H : Hashes) (seed : Bytes) : Except Err HDPrivateKey → Prop
  | short : seed.length < 32 → RootMade H seed (.error .valueError)
  | range {m : Bytes} : 32 ≤ seed.length → m = H.hmacSha512 (asciiBytes "Bitcoin seed") seed →
      ¬ (0 < beValue (m.take 32) ∧ beValue (m.take 32) < secpN) → RootMade H seed (.error .privInvalidSecret)
  | root {m : Bytes} {q f} : 32 ≤ seed.length → m = H.hmacSha512 (asciiBytes "Bitcoin seed") seed →
      0 < beValue (m.take 32) → beValue (m.take 32) < secpN →
      PublicOf ⟨beValue (m.take 32), .livenet, true⟩ (.ok q) → FingerprintMade H q (.ok f) →
      RootMade H seed (.ok ⟨⟨beValue (m.take 32), .livenet, true⟩, m.drop 32, 0, 0, 0, .livenet, f⟩)

/-! ## Making -/

theorem networkMeant (e : Err) (v : NetValue) (r : Except Err Network) :
    (match Network.find v with | .ok n => .ok n | .error _ => .error e) = r ↔ NetworkMeant e v r := by
  refine graph (f := fun v => (match Network.find v with | .ok n => .ok n | .error _ => .error e : Except Err Network))
    (R := NetworkMeant e) ?_ ?_ v r
  · rintro v _ (rfl | ⟨h, rfl⟩ | ⟨h1, h2, h3⟩)
    · rfl
    · simp only [List.mem_cons, List.not_mem_nil, or_false] at h
      rcases h with rfl | rfl <;> rfl
    · cases v with
      | network n => exact absurd rfl (h1 n)
      | int n => rfl
      | list l => rfl
      | text t =>
        have e1 : NetValue.text Network.livenet.name ≠ .text t := fun h => h2 h.symm
        have e2 : NetValue.text Network.testnet.name ≠ .text t := fun h => h3 h.symm
        simp only [Network.find, Network.find?, Network.all, Network.findLoop, Network.getAttr, if_true]
        rw [if_neg e1, if_neg e2]
  · intro v
    cases v with
    | network n => exact ⟨_, .itself rfl⟩
    | int n => exact ⟨_, .unknown (by simp) (by simp) (by simp)⟩
    | list l => exact ⟨_, .unknown (by simp) (by simp) (by simp)⟩
    | text t =>
      by_cases h2 : NetValue.text t = .text "livenet".toList
      · exact ⟨_, .named (n := .livenet) (by simp) h2⟩
      · by_cases h3 : NetValue.text t = .text "testnet".toList
        · exact ⟨_, .named (n := .testnet) (by simp) h3⟩
        · exact ⟨_, .unknown (by simp) h2 h3⟩

/-- C125. Making a private key, with or without a secret. -/
theorem C125_secret (s : Option Int) (v : NetValue) (c : Bool) (random : Int) (r : Except Err PrivateKey) :
    PrivateKey.new s v c random = r ↔ SecretMade s v c random r := by
  have hN : PrivateKey.keyMax = 0xFFFFFFFFFFFFFFFFFFFFFFFFFFFFFFFEBAAEDCE6AF48A03BBFD25E8CD0364141 := rfl
  have key : ∀ r, PrivateKey.findNetwork v = r ↔ NetworkMeant .privUnknownNetwork v r := fun r => networkMeant _ v r
  refine graph (f := fun s => PrivateKey.new s v c random) (R := fun s r => SecretMade s v c random r) ?_ ?_ s r
  · rintro s _ (h | ⟨h, rfl, hd⟩ | ⟨h, rfl, h0, h1⟩)
    · unfold PrivateKey.new; rw [(key _).2 h]
    · unfold PrivateKey.new; rw [(key _).2 h]; simp only; rw [if_pos (by rw [hN]; omega)]
    · unfold PrivateKey.new; rw [(key _).2 h]; simp only; rw [if_neg (by rw [hN]; omega)]
  · intro s
    cases h : PrivateKey.findNetwork v with
    | error e => exact ⟨_, .network ((key _).1 h)⟩
    | ok n =>
      by_cases hd : 0 < s.getD random ∧ s.getD random < 0xFFFFFFFFFFFFFFFFFFFFFFFFFFFFFFFEBAAEDCE6AF48A03BBFD25E8CD0364141
      · exact ⟨_, .key ((key _).1 h) rfl hd.1 hd.2⟩
      · exact ⟨_, .range ((key _).1 h) rfl (by omega)⟩

/-- Names, objects and unknown networks; a secret out of range is reported after the network. -/
example : PrivateKey.new (some 5) (.text "testnet".toList) false 0 = .ok ⟨5, .testnet, false⟩ ∧
    PrivateKey.new none (.network .livenet) true 7 = .ok ⟨7, .livenet, true⟩ ∧
    PrivateKey.new (some 0) (.text "regtest".toList) true 7 = .error .privUnknownNetwork ∧
    PrivateKey.new (some 0) (.text "livenet".toList) true 7 = .error .privInvalidSecret ∧
    PublicKey.new (0, 0) (.int 0) true = .error .pubUnknownNetwork ∧
    PublicKey.new (0, 0) (.text "livenet".toList) true = .error .pubInvalidPair ∧
    Address.new [1] (.network .livenet) none = .error .addrInvalidType ∧
    Address.new [1] (.network .livenet) (some .script) = .error .addrInvalidHashLength ∧
    Address.new (List.replicate 20 1) (.text "testnet".toList) (some .script) = .ok ⟨List.replicate 20 1, .testnet, .script⟩ := by
  decide +kernel

/-- C125. Making a public key. -/
theorem C125_pair (p : Int × Int) (v : NetValue) (c : Bool) (r : Except Err PublicKey) :
    PublicKey.new p v c = r ↔ PairMade p v c r := by
  have key : ∀ r, PublicKey.findNetwork v = r ↔ NetworkMeant .pubUnknownNetwork v r := fun r => networkMeant _ v r
  have hon : OnSecp p.1 p.2 ↔ Ecdsa.isPublicPairValid secp p = true := by rw [onSecp_iff]; rfl
  refine graph (f := fun c => PublicKey.new p v c) (R := fun c r => PairMade p v c r) ?_ ?_ c r
  · rintro c _ (h | ⟨h, hp⟩ | ⟨h, hp⟩)
    · unfold PublicKey.new; rw [(key _).2 h]
    · unfold PublicKey.new; rw [(key _).2 h]; simp only; rw [if_neg (fun h => hp (hon.2 h))]
    · unfold PublicKey.new; rw [(key _).2 h]; simp only; rw [if_pos (hon.1 hp)]
  · intro c
    cases h : PublicKey.findNetwork v with
    | error e => exact ⟨_, .network ((key _).1 h)⟩
    | ok n =>
      by_cases hp : OnSecp p.1 p.2
      · exact ⟨_, .key ((key _).1 h) hp⟩
      · exact ⟨_, .off ((key _).1 h) hp⟩

theorem addr_find (v : NetValue) : (∀ n, Network.find v = .ok n ↔ NetworkMeant .addrUnknownNetwork v (.ok n)) ∧
    (∀ e, NetworkMeant .addrUnknownNetwork v (.error e) ↔ e = .addrUnknownNetwork ∧ ∃ e', Network.find v = .error e') := by
  refine ⟨fun n => ?_, fun e => ?_⟩
  · rw [← networkMeant]
    cases Network.find v <;> simp
  · rw [← networkMeant]
    cases Network.find v with
    | error e' => simp [eq_comm]
    | ok n => simp

/-- C125. Making an address. -/
theorem C125_address (b : Bytes) (v : NetValue) (t : Option AddrType) (r : Except Err Address) :
    Address.new b v t = r ↔ HashMade b v t r := by
  have key := addr_find v
  refine graph (f := fun t => Address.new b v t) (R := fun t r => HashMade b v t r) ?_ ?_ t r
  · rintro t _ (h | ⟨h, rfl⟩ | ⟨h, ht, hl⟩ | ⟨h, rfl, hl⟩)
    · obtain ⟨rfl, e', h⟩ := (key.2 _).1 h
      unfold Address.new; rw [h]
    · unfold Address.new; rw [(key.1 _).2 h]
    · unfold Address.new; rw [(key.1 _).2 h]
      cases t with
      | none => exact absurd rfl ht
      | some t => simp only; rw [if_pos hl]
    · unfold Address.new; rw [(key.1 _).2 h]; simp only; rw [if_neg (by simp [hl])]
  · intro t
    cases h : Network.find v with
    | error e => exact ⟨_, .network ((key.2 _).2 ⟨rfl, _, h⟩)⟩
    | ok n =>
      have h := (key.1 _).1 h
      cases t with
      | none => exact ⟨_, .type h rfl⟩
      | some t =>
        by_cases hl : b.length = 20
        · exact ⟨_, .address h rfl hl⟩
        · exact ⟨_, .length h (by simp) hl⟩

/-! ## Turning one into another -/

theorem smul_mod_G (e : Int) : (e % (secpN : Int)).toNat • G = e • G := by
  rw [← natCast_zsmul, Int.toNat_of_nonneg (Int.emod_nonneg _ (by decide)), ← addOrderOf_G, mod_addOrderOf_zsmul]

/-- C125. The public key of a private key.  The secret is taken modulo the order of the group. -/
theorem C125_public (k : PrivateKey) (r : Except Err PublicKey) : k.toPublicKey = r ↔ PublicOf k r := by
  have key : ∀ k : PrivateKey, ∃ r, k.toPublicKey = r ∧ PublicOf k r := by
    intro k
    have e0 : 0 ≤ effective secpG k.secret := by rw [effective_secpG]; exact Int.emod_nonneg _ (by decide)
    have e1 : effective secpG k.secret < secpN := by rw [effective_secpG]; exact Int.emod_lt_of_pos _ (by decide)
    obtain ⟨R, hR, hD⟩ := secp_mul (denotes_G (some secpN)) k.secret e0
    have hr : YReduced secp R := secp_mul_reduced (denotes_G (some secpN)) (G_reduced _) k.secret e0 e1 hR
    have hD : Denotes secp R (k.secret • G) := by
      have : (effective (.affine secpGx secpGy (some secpN)) k.secret).toNat • G = k.secret • G := by
        change (effective secpG k.secret).toNat • G = _
        rw [effective_secpG, smul_mod_G]
      rwa [this] at hD
    change Point.mul secp secpG k.secret = .ok R at hR
    unfold PrivateKey.toPublicKey PublicKey.fromPrivateKey Ecdsa.publicPairForSecretExponent
    simp only [bind, Except.bind, hR]
    cases R with
    | infinity =>
      refine ⟨_, rfl, .infinity ?_⟩
      generalize k.secret • G = Q at hD
      cases hD; rfl
    | affine x y o =>
      have hp := denotes_isPoint hD
      have hx : reduced x := by
        rw [reduced_iff]
        generalize k.secret • G = Q at hD
        cases hD; exact ⟨by assumption, by assumption⟩
      refine ⟨_, ?_, .point hx ((reduced_iff _).2 hr) hp⟩
      exact (pub_new_ok_iff _ _ _ _).2 ⟨_, rfl, (containsPoint_iff_nonsingular secp_regular _ _).2 hp.1, rfl⟩
  refine graph (f := PrivateKey.toPublicKey) (R := PublicOf) ?_ (fun k => ?_) k r
  · intro k r h
    obtain ⟨r', h', hr'⟩ := key k
    rw [h']
    cases h with
    | infinity h0 =>
      cases hr' with
      | infinity => rfl
      | point _ _ hp => exact absurd (h0.symm.trans hp.2) (fun h => WeierstrassCurve.Affine.Point.some_ne_zero _ h.symm)
    | point hx hy hp =>
      cases hr' with
      | infinity h0 => exact absurd (h0.symm.trans hp.2) (fun h => WeierstrassCurve.Affine.Point.some_ne_zero _ h.symm)
      | point hx' hy' hp' =>
        obtain rfl := isPoint_x_unique hp hp' hx hx'
        obtain rfl := isPoint_y_unique hp hp' hy hy'
        rfl
  · obtain ⟨r, _, h⟩ := key k
    exact ⟨r, h⟩

/-- The key of a secret can always be written. -/
theorem public_of (k : PrivateKey) : k.secret • G = 0 ∧ k.toPublicKey = .error .typeError ∨
    k.secret • G ≠ 0 ∧ ∃ q b, PublicOf k (.ok q) ∧ k.toPublicKey = .ok q ∧ q.network = k.network ∧ SecWritten q (.ok b) ∧ q.toBytes = .ok b := by
  by_cases h : k.secret • G = 0
  · exact .inl ⟨h, (C125_public _ _).2 (.infinity h)⟩
  · refine .inr ⟨h, ?_⟩
    cases hr : k.toPublicKey with
    | error e =>
      cases (C125_public _ _).1 hr with
      | infinity h0 => exact absurd h0 h
    | ok q =>
      have hp := (C125_public _ _).1 hr
      obtain ⟨b, hb⟩ : ∃ b, q.toBytes = .ok b := by
        cases hp with
        | point hx hy _ =>
          obtain ⟨b, hb, _⟩ := C18_to_bytes ⟨(_, _), k.network, k.compressed⟩ hx hy
          exact ⟨b, hb⟩
      exact ⟨q, b, hp, rfl, by cases hp; rfl, (C119_public _ _).1 hb, hb⟩

/-- C125. The address of a public key. -/
theorem C125_address_of (H : Hashes) (q : PublicKey) (r : Except Err Address) : q.toAddress H = r ↔ AddressOf H q r := by
  refine graph (f := PublicKey.toAddress H) (R := AddressOf H) ?_ ?_ q r
  · rintro q _ (h | h)
    · unfold PublicKey.toAddress; rw [(C119_public _ _).2 h]; rfl
    · unfold PublicKey.toAddress; rw [(C119_public _ _).2 h]
      show Address.fromPublicKeyBytes H _ q.network = _
      exact (C125_address _ _ _ _).2 (.address (.itself rfl) rfl (H.ripemd160_length _))
  · intro q
    cases h : q.toBytes with
    | error e => exact ⟨_, .fails ((C119_public _ _).1 h)⟩
    | ok b => exact ⟨_, .hash ((C119_public _ _).1 h)⟩

/-- C125. The address of a private key. -/
theorem C125_address_of_secret (H : Hashes) (k : PrivateKey) (r : Except Err Address) : k.toAddress H = r ↔ AddressOfSecret H k r := by
  refine graph (f := PrivateKey.toAddress H) (R := AddressOfSecret H) ?_ ?_ k r
  · rintro k _ (h | ⟨h, hb⟩)
    · unfold PrivateKey.toAddress; rw [(C125_public _ _).2 (.infinity h)]; rfl
    · unfold PrivateKey.toAddress; rw [(C125_public _ _).2 h]
      have e := (C125_address_of H _ _).2 (.hash hb)
      cases h
      exact e
  · intro k
    rcases public_of k with ⟨h, _⟩ | ⟨_, q, b, hp, _, _, hb, _⟩
    · exact ⟨_, .infinity h⟩
    · exact ⟨_, .hash hp hb⟩

/-- C125. The address of a script. -/
theorem C125_address_of_script (H : Hashes) (s : Script) (v : NetValue) (r : Except Err Address) :
    Address.fromScript H s v = r ↔ AddressOfScript H s v r := by
  refine graph (f := fun s => Address.fromScript H s v) (R := fun s r => AddressOfScript H s v r) ?_ ?_ s r
  · rintro s _ (h | ⟨h, hn⟩ | ⟨h, hn⟩)
    · unfold Address.fromScript; rw [(C119_script _ _).2 h]
    · unfold Address.fromScript; rw [(C119_script _ _).2 h]
      exact (C125_address _ _ _ _).2 (.network hn)
    · unfold Address.fromScript; rw [(C119_script _ _).2 h]
      exact (C125_address _ _ _ _).2 (.address hn rfl (H.ripemd160_length _))
  · intro s
    cases h : s.toBytes with
    | error e => exact ⟨_, .fails ((C119_script _ _).1 h)⟩
    | ok b =>
      have h := (C119_script _ _).1 h
      cases hn : Network.find v with
      | error e => exact ⟨_, .network h (((addr_find v).2 _).2 ⟨rfl, _, hn⟩)⟩
      | ok n => exact ⟨_, .hash h (((addr_find v).1 _).1 hn)⟩

/-! ## Extended keys -/

/-- C125. Making an extended private key. -/
theorem C125_extended (H : Hashes) (k : PrivateKey) (chain : Bytes) (depth index : Int) (parent : Nat) (net : Network)
    (r : Except Err HDPrivateKey) :
    HDPrivateKey.new H k chain depth index parent net = r ↔ XprvMade H k chain depth index parent net r := by
  refine graph (f := fun k => HDPrivateKey.new H k chain depth index parent net)
    (R := fun k r => XprvMade H k chain depth index parent net r) ?_ ?_ k r
  · rintro k _ (h | ⟨h, hf⟩)
    · unfold HDPrivateKey.new; rw [(C125_public _ _).2 (.infinity h)]
    · unfold HDPrivateKey.new; rw [(C125_public _ _).2 h]; simp only; rw [(fingerprint_made _ _ _).2 hf]
  · intro k
    rcases public_of k with ⟨h, _⟩ | ⟨_, q, b, hp, _, _, hb, _⟩
    · exact ⟨_, .infinity h⟩
    · exact ⟨_, .key hp (.number hb)⟩

/-- C125. The extended public key of an extended private key. -/
theorem C125_neuter (H : Hashes) (k : HDPrivateKey) (r : Except Err HDPublicKey) : k.toHdPublicKey H = r ↔ XpubOf H k r := by
  refine graph (f := HDPrivateKey.toHdPublicKey H) (R := XpubOf H) ?_ ?_ k r
  · rintro k _ (h | ⟨h, hr⟩)
    · unfold HDPrivateKey.toHdPublicKey HDPublicKey.fromHdPrivateKey; rw [(C125_public _ _).2 (.infinity h)]
    · unfold HDPrivateKey.toHdPublicKey HDPublicKey.fromHdPrivateKey; rw [(C125_public _ _).2 h]
      exact (C122_new _ _ _ _ _ _ _ _).2 (.key hr)
  · intro k
    rcases public_of k.privkey with ⟨h, _⟩ | ⟨_, q, b, hp, _, _, hb, _⟩
    · exact ⟨_, .infinity h⟩
    · exact ⟨_, .key hp (.number hb)⟩

/-- C125. Deriving from an extended private key, whatever its secret is. -/
theorem C125_derive (k : HDPrivateKey) (i : Int) (hardened : Bool) (r : Except Err HDPrivateKey) :
    k.derive i hardened = r ↔ XprvTried k hardened r := by
  have fl : [[0], k.privkey.toBytes, intToBytes k.index 4].flatten = 0 :: (be 32 k.privkey.secret.toNat ++ twos 4 k.index) := by
    simp [intToBytes_twos, (C119_private k.privkey).1]
  have hs : Seven [[0], k.privkey.toBytes, intToBytes k.index 4].flatten ↔ Seven (be 32 k.privkey.secret.toNat ++ twos 4 k.index) := by
    rw [fl]
    unfold Seven
    simp
  refine graph (f := fun hardened => k.derive i hardened) (R := fun hardened r => XprvTried k hardened r) ?_ ?_ hardened r
  · rintro _ _ (h | h | ⟨h, rfl⟩ | ⟨h, rfl⟩)
    · show k.derive i false = _
      unfold HDPrivateKey.derive
      simp only [Bool.false_eq_true, if_false, (C125_public _ _).2 (.infinity h), bind, Except.bind]
    · show k.derive i false = _
      rcases public_of k.privkey with ⟨h0, _⟩ | ⟨_, q, b, _, hq, _, _, hb⟩
      · exact absurd h0 h
      · unfold HDPrivateKey.derive
        simp only [Bool.false_eq_true, if_false, hq, hb, bind, Except.bind]
    · show k.derive i true = _
      unfold HDPrivateKey.derive
      simp only [if_true, bind, Except.bind, (asciiSum_graph _).2 fun hc => h (hs.1 hc)]
    · show k.derive i true = _
      unfold HDPrivateKey.derive
      simp only [if_true, bind, Except.bind, (asciiSum_graph _).1 (hs.2 h)]
  · intro hardened
    cases hardened with
    | false =>
      by_cases h : k.privkey.secret • G = 0
      · exact ⟨_, .infinity h⟩
      · exact ⟨_, .plain h⟩
    | true =>
      by_cases h : Seven (be 32 k.privkey.secret.toNat ++ twos 4 k.index)
      · exact ⟨_, .ascii h rfl⟩
      · exact ⟨_, .unicode h rfl⟩

/-- C125. The keys inside extended keys. -/
theorem C125_inside (k : HDPrivateKey) (q : HDPublicKey) : k.toPrivateKey = k.privkey ∧ q.toPublicKey = q.pubkey ∧
    ∀ r, k.toPublicKey = r ↔ PublicOf k.privkey r := ⟨rfl, rfl, fun r => C125_public k.privkey r⟩

/-- C125. The root of a seed. -/
theorem C125_root (H : Hashes) (seed : Bytes) (r : Except Err HDPrivateKey) : HDPrivateKey.fromSeed H seed = r ↔ RootMade H seed r := by
  have hm : HDPrivateKey.hmacMagicKey = asciiBytes "Bitcoin seed" := by decide +kernel
  have hN : PrivateKey.keyMax = (secpN : Int) := rfl
  have hd : ∀ seed, decodeInt ((H.hmacSha512 (asciiBytes "Bitcoin seed") seed).take 32) =
      beValue ((H.hmacSha512 (asciiBytes "Bitcoin seed") seed).take 32) := fun _ => by rw [decodeInt_big]
  have hl : ∀ seed, ((H.hmacSha512 (asciiBytes "Bitcoin seed") seed).take 32).length = 32 := fun seed => by
    rw [List.length_take, H.hmacSha512_length]; rfl
  refine graph (f := HDPrivateKey.fromSeed H) (R := RootMade H) ?_ ?_ seed r
  · rintro seed _ (h | ⟨h, rfl, hr⟩ | ⟨h, rfl, h0, h1, hr, hf⟩)
    · unfold HDPrivateKey.fromSeed; rw [if_pos h]
    · unfold HDPrivateKey.fromSeed PrivateKey.fromBytes PrivateKey.make
      rw [if_neg (by omega), hm]
      simp only [hl, ne_eq, not_true_eq_false, if_false, hd]
      rw [(C125_secret _ _ _ _ _).2 (.range (.itself rfl) rfl (by
        simp only [Option.getD_some]
        have : (secpN : Int) = 0xFFFFFFFFFFFFFFFFFFFFFFFFFFFFFFFEBAAEDCE6AF48A03BBFD25E8CD0364141 := rfl
        omega))]
    · unfold HDPrivateKey.fromSeed PrivateKey.fromBytes PrivateKey.make
      rw [if_neg (by omega), hm]
      simp only [hl, ne_eq, not_true_eq_false, if_false, hd]
      have : (secpN : Int) = 0xFFFFFFFFFFFFFFFFFFFFFFFFFFFFFFFEBAAEDCE6AF48A03BBFD25E8CD0364141 := rfl
      rw [(C125_secret _ _ _ _ _).2 (.key (.itself rfl) rfl (by simp only [Option.getD_some]; omega) (by
        simp only [Option.getD_some]
        omega))]
      exact (C125_extended _ _ _ _ _ _ _ _).2 (.key hr hf)
  · intro seed
    by_cases h : seed.length < 32
    · exact ⟨_, .short h⟩
    · by_cases hs : 0 < beValue ((H.hmacSha512 (asciiBytes "Bitcoin seed") seed).take 32) ∧
          beValue ((H.hmacSha512 (asciiBytes "Bitcoin seed") seed).take 32) < secpN
      · obtain ⟨q, b, hp, _, _, hb, _⟩ := (public_of ⟨beValue ((H.hmacSha512 (asciiBytes "Bitcoin seed") seed).take 32), .livenet, true⟩).resolve_left
          (fun hc => by
            have hz : (beValue ((H.hmacSha512 (asciiBytes "Bitcoin seed") seed).take 32) : Int) • G = 0 := hc.1
            rw [natCast_zsmul] at hz
            have := addOrderOf_dvd_of_nsmul_eq_zero hz
            rw [addOrderOf_G] at this
            exact absurd (Nat.le_of_dvd hs.1 this) (by omega)) |>.2
        exact ⟨_, .root (by omega) rfl hs.1 hs.2 hp (.number hb)⟩
      · exact ⟨_, .range (by omega) rfl hs⟩

/-- A secret of zero, the order of the group, minus one, and one more than the order. -/
example : (⟨0, .livenet, true⟩ : PrivateKey).toPublicKey = .error .typeError ∧
    (⟨secpN, .livenet, true⟩ : PrivateKey).toPublicKey = .error .typeError ∧
    (⟨-1, .livenet, true⟩ : PrivateKey).toPublicKey = .ok ⟨(secpGx, secp.p - secpGy), .livenet, true⟩ ∧
    (⟨secpN + 1, .testnet, false⟩ : PrivateKey).toPublicKey = .ok ⟨(secpGx, secpGy), .testnet, false⟩ ∧
    (⟨⟨0, .livenet, true⟩, [], 0, 0, 0, .livenet, 0⟩ : HDPrivateKey).derive 3 false = .error .typeError ∧
    HDPrivateKey.fromSeed .toy [1, 2] = .error .valueError := by
  decide +kernel

/-- The address of the empty script. -/
example : Address.fromScript .toy ⟨.generic, []⟩ (.int 3) = .error .addrUnknownNetwork ∧
    (Address.fromScript .toy ⟨.generic, []⟩ (.text "testnet".toList)).toOption.map (fun a => (a.network, a.type)) =
      some (.testnet, .script) := by decide +kernel

end Bitforge
