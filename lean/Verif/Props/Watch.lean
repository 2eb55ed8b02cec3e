import Verif.Props.HdPath
import Verif.Props.Found

/-! # C143: money paid to a key of a watching wallet can be spent by the owner

A shop keeps an extended public key and gives out addresses of keys derived from it; the owner keeps the secret.  What is paid to
these addresses must be found by the shop and be spendable by the owner. -/

namespace Bitforge.Watch
open Spec Txs Scripts Found

/-- C143, part that holds: the owner of the secret of `k` can compute, by `CKDpriv` of BIP 32, the one secret whose key is the
derived public key, with the same address.  Missing: the library does not compute it (`C143_derive_refuted`), and the path is
the shifted one of C111. -/
theorem C143_key_partial (H : Hashes) (k : HDPublicKey) (hk : k.Proper H) (hi : Number k.index) (d : Nat) (h0 : 0 < d)
    (h1 : d < secpN) (hd : IsPoint k.pubkey.pair.1 k.pubkey.pair.2 (d • G)) (is : List Int) (his : ∀ i ∈ is, Number i) (j : Int)
    (c : HDPublicKey) (h : derivePath H k (is ++ [j]) = .ok c) :
    ∃ d' : Nat, PrivPath H k.chain d ((k.index :: is).map Int.toNat) d' c.chain ∧
      PrivateKey.Good ⟨d', k.network, true⟩ ∧ PrivateKey.toPublicKey ⟨d', k.network, true⟩ = .ok c.pubkey ∧
      (∃ a, PrivateKey.toAddress H ⟨d', k.network, true⟩ = .ok a ∧ c.pubkey.toAddress H = .ok a ∧ a.phash.length = 20) ∧
      ∀ q : PrivateKey, q.Good → (∃ p, q.toPublicKey = .ok p ∧ p.pair = c.pubkey.pair) → q.secret = d' := by
  obtain ⟨d', hp, hd0, hd1, hP⟩ := C111_owner H k hk hi d h0 h1 hd is his j c h
  obtain ⟨-, hat⟩ := (C111_path_partial H k hk hi is his j c).1 h
  have hg : PrivateKey.Good ⟨d', k.network, true⟩ := ⟨by simpa using hd0, by simpa [PrivateKey.keyMax] using hd1⟩
  have hm : PrivateKey.make d' (.network k.network) true = .ok ⟨d', k.network, true⟩ := by
    rw [make_network, if_pos ⟨hg.1, hg.2⟩]
  obtain ⟨x, y, hx, hrx, hry, -, hxy⟩ := C20_public_key _ _ _ _ hm
  have e : (⟨(x, y), k.network, true⟩ : PublicKey) = c.pubkey := by
    have e1 := isPoint_x_unique hxy (by simpa using hP) hrx hat.proper.x
    have e2 := isPoint_y_unique hxy (by simpa using hP) hry hat.proper.y
    have e3 := hat.network.2
    have e4 := hat.proper.compressed
    obtain ⟨⟨⟨x', y'⟩, n', b'⟩, _⟩ := c
    simp only at e1 e2 e3 e4
    rw [e1, e2, e3, e4]
  have hx' : PrivateKey.toPublicKey ⟨d', k.network, true⟩ = .ok c.pubkey := by rw [← e]; exact hx
  refine ⟨d', hp, hg, hx', ?_, ?_⟩
  · obtain ⟨p, b, hp1, hb, ha⟩ := C20_address H _ _ _ _ hm
    rw [hx'] at hp1
    obtain rfl := Except.ok.inj hp1
    refine ⟨_, ha, ?_, H.ripemd160_length _⟩
    unfold PrivateKey.toAddress at ha
    rw [hx'] at ha
    exact ha
  · rintro q hq ⟨p, hqp, hpe⟩
    exact C20_injective q.secret d' (.network q.network) (.network k.network) q.compressed true q _
      (by rw [make_network, if_pos ⟨hq.1, hq.2⟩]) hm p c.pubkey hqp hx' hpe

/-- C143, part that holds: who watches with the derived key finds what is paid to its address, and the owner can spend it: the
AddressInput of the address can be signed by the key of the secret, and is then accepted by the reference client for the script
of the payment (but for the exception of C83).  Missing: as above. -/
theorem C143_paid_partial (H : Hashes) (nonces : Nat → Nat) (hν : NoncesOk nonces) (k : HDPublicKey) (hk : k.Proper H)
    (hi : Number k.index) (d : Nat) (h0 : 0 < d) (h1 : d < secpN) (hd : IsPoint k.pubkey.pair.1 k.pubkey.pair.2 (d • G))
    (is : List Int) (his : ∀ i ∈ is, Number i) (j : Int) (c : HDPublicKey) (h : derivePath H k (is ++ [j]) = .ok c) :
    ∃ (d' : Nat) (a : Address), PrivPath H k.chain d ((k.index :: is).map Int.toNat) d' c.chain ∧ c.pubkey.toAddress H = .ok a ∧
      (∀ amount o, ReadOut ⟨amount, payScript a.phash⟩ o → Finds a.phash o) ∧
      ∀ id ix seq, ∃ x, AddressInput.create id ix a seq = .ok x ∧
        AddressInput.canSign H x [⟨d', k.network, true⟩] = .ok true ∧
        ∀ (t u v : Transaction) (n : Nat), t.InRange → t.inputs[n]? = some x →
          t.sign H (keySigner nonces) [⟨d', k.network, true⟩] n 1 = .ok u →
          (∀ y, u.inputs[n]? = some y → y.script.wires.head? ≠ some (pushOf a.phash)) → Signs H u v →
          ∀ w, v.Shows w → ∀ flags, Ref.Spends H flags w n (payScript a.phash) := by
  obtain ⟨d', hp, hg, hpub, ⟨a, ha, ha', hl⟩, -⟩ := C143_key_partial H k hk hi d h0 h1 hd is his j c h
  refine ⟨d', a, hp, ha', ?_, ?_⟩
  · intro amount o ho
    exact (C142_output _ o ho a.phash).2 ⟨_, usual_encodes a.phash hl, rfl⟩
  · intro id ix seq
    obtain ⟨x, r, hc, hcan, hr⟩ := C42_address H id ix seq a hl [⟨d', k.network, true⟩] (by
      intro q hq
      rw [List.mem_singleton.1 hq]
      exact hg)
    have hm : PrivateKey.make d' (.network k.network) true = .ok ⟨d', k.network, true⟩ := by
      rw [make_network, if_pos ⟨hg.1, hg.2⟩]
    obtain ⟨p, b, hp1, hb, hadr⟩ := C20_address H _ _ _ _ hm
    rw [ha] at hadr
    obtain rfl := Except.ok.inj hadr
    obtain rfl : r = true := hr.2 ⟨_, p, b, rfl, hp1, hb, rfl⟩
    exact ⟨x, hc, hcan, fun t u v n ht hx hs hne hv w hw flags =>
      C83_address H nonces hν t u v _ hg n id ix seq _ x hl hc hcan ht hx hs hne hv w hw flags⟩

/-- C143 is false of the code: the owner, with the extended private key, cannot derive any key. -/
theorem C143_derive_refuted (k : HDPrivateKey) (is : List Int) (hne : is ≠ []) :
    ∃ e, is.foldlM (fun (q : HDPrivateKey) i => q.derive i false) k = .error e := by
  obtain ⟨i, is, rfl⟩ := List.exists_cons_of_ne_nil hne
  obtain ⟨e, he⟩ := C58_private_refuted k i false
  exact ⟨e, by rw [List.foldlM_cons, he]; rfl⟩

/-- C143 is false of the code: the addresses given out under the same parent are all the same, so that it cannot be told which
customer has paid. -/
theorem C143_same_refuted (H : Hashes) (k : HDPublicKey) (hk : k.Proper H) (hi : Number k.index) (is : List Int)
    (his : ∀ i ∈ is, Number i) (j j' : Int) (c c' : HDPublicKey) (h : derivePath H k (is ++ [j]) = .ok c)
    (h' : derivePath H k (is ++ [j']) = .ok c') : c.pubkey.toAddress H = c'.pubkey.toAddress H := by
  rw [C111_last_refuted H k hk hi is his j j' c h] at h'
  obtain rfl := Except.ok.inj h'
  rfl

/-- Keys with different points have different addresses, or two hashes collide: what is paid to one is found for the other only
if the bytes of the two keys collide under HASH160. -/
theorem C143_apart (H : Hashes) (p q : PublicKey) (hp : p.Valid) (hq : q.Valid) (hne : p.pair ≠ q.pair) (a b : Address)
    (ha : p.toAddress H = .ok a) (hb : q.toAddress H = .ok b) (amount : Nat) (o : Output)
    (ho : ReadOut ⟨amount, payScript a.phash⟩ o) (hf : Finds b.phash o) :
    ∃ x y, p.toBytes = .ok x ∧ q.toBytes = .ok y ∧ x ≠ y ∧ H.ripemd160 (H.sha256 x) = H.ripemd160 (H.sha256 y) := by
  obtain ⟨x, hx, hsx⟩ := C18_to_bytes p hp.2.1 hp.2.2
  obtain ⟨y, hy, hsy⟩ := C18_to_bytes q hq.2.1 hq.2.2
  have hash : ∀ (r : PublicKey) (z : Bytes) (g : Address), r.toBytes = .ok z → r.toAddress H = .ok g →
      g.phash = H.ripemd160 (H.sha256 z) := by
    intro r z g hz hg
    unfold PublicKey.toAddress at hg
    rw [hz] at hg
    rw [← Except.ok.inj ((C15_from_key_or_script H z r.network).1.symm.trans hg)]
  refine ⟨x, y, hx, hy, ?_, ?_⟩
  · rintro rfl
    have e1 := C18_from_sec _ _ _ p.network _ hp.1 hp.2.1 hp.2.2 hsx
    have e2 := C18_from_sec _ _ _ p.network _ hq.1 hq.2.1 hq.2.2 hsy
    have e := Except.ok.inj (e1.symm.trans e2)
    simp only [PublicKey.mk.injEq] at e
    exact hne e.1
  · rw [← hash p x a hx ha, ← hash q y b hy hb]
    obtain ⟨⟨op, d⟩, he, hd⟩ := (C142_output _ o ho b.phash).1 hf
    obtain rfl : d = some b.phash := hd
    have hl : a.phash.length = 20 := by rw [hash p x a hx ha]; exact H.ripemd160_length _
    have e := encodes_injective he (usual_encodes a.phash hl)
    simp only [List.cons.injEq, Prod.mk.injEq, Option.some.injEq, true_and, and_true] at e
    exact e.2.symm

/-- The hypotheses are met by the generator as master key and a path of three numbers. -/
example : ∃ (d' : Nat) (a : Address) (c : HDPublicKey), derivePath lastHmac masterXpub ([4, 5] ++ [6]) = .ok c ∧
    PrivPath lastHmac masterXpub.chain 1 [0, 4, 5] d' c.chain ∧ PrivateKey.toAddress lastHmac ⟨d', .livenet, true⟩ = .ok a ∧
    c.pubkey.toAddress lastHmac = .ok a := by
  cases h : derivePath lastHmac masterXpub ([4, 5] ++ [6]) with
  | error e =>
    have : ((derivePath lastHmac masterXpub ([4, 5] ++ [6])).toOption.map fun c => (c.depth, c.index)) = some (3, 6) := by
      decide +kernel
    rw [h] at this
    cases this
  | ok c =>
    obtain ⟨d', h1, -, -, ⟨a, h2, h3, -⟩, -⟩ := C143_key_partial lastHmac masterXpub (masterXpub_proper _ rfl rfl)
      (by unfold Number; decide) 1 (by decide) (by decide) (by rw [one_nsmul]; exact isPoint_G) [4, 5]
      (by unfold Number; decide) 6 c h
    exact ⟨d', a, c, rfl, h1, h2, h3⟩

end Bitforge.Watch
