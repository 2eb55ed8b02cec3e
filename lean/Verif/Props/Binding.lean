import Verif.Spec.Binding
import Verif.Props.Keys
import Verif.Props.PubKey
import Verif.Props.Sign
import Verif.Props.InOut

/-! # C89: identifiers are binding -/

namespace Bitforge
open Spec Transaction

theorem hash160_cases (H : Hashes) {a b : Bytes} (h : H.ripemd160 (H.sha256 a) = H.ripemd160 (H.sha256 b)) :
    a = b ∨ Collide160 H a b := by
  by_cases hab : a = b
  · exact .inl hab
  · exact .inr ⟨hab, h⟩

theorem toAddress_eq {H : Hashes} {k : PublicKey} {a : Address} (h : k.toAddress H = .ok a) :
    ∃ b, k.toBytes = .ok b ∧ a = ⟨H.ripemd160 (H.sha256 b), k.network, .publicKey⟩ := by
  unfold PublicKey.toAddress at h
  cases hb : k.toBytes with
  | error e => rw [hb] at h; cases h
  | ok b =>
    rw [hb] at h
    simp only [bind, Except.bind, (C15_from_key_or_script H b k.network).1] at h
    exact ⟨b, rfl, (Except.ok.inj h).symm⟩

/-- C89. Two public keys with the same address are the same key, or their serialisations are a collision. -/
theorem C89_public_key (H : Hashes) (k k' : PublicKey) (hk : k.Valid) (hk' : k'.Valid) (a : Address)
    (h : k.toAddress H = .ok a) (h' : k'.toAddress H = .ok a) :
    k = k' ∨ ∃ b b', k.toBytes = .ok b ∧ k'.toBytes = .ok b' ∧ Collide160 H b b' := by
  obtain ⟨b, hb, rfl⟩ := toAddress_eq h
  obtain ⟨b', hb', e⟩ := toAddress_eq h'
  injection e with e1 e2
  rcases hash160_cases H e1 with rfl | hc
  · left
    obtain ⟨hc, hx, hy⟩ := hk
    obtain ⟨hc', hx', hy'⟩ := hk'
    obtain ⟨c, h1, -, h2⟩ := C18_bytes k hc hx hy
    obtain ⟨c', h1', -, h2'⟩ := C18_bytes k' hc' hx' hy'
    rw [hb] at h1
    cases h1
    rw [hb'] at h1'
    cases h1'
    rw [e2, h2'] at h2
    exact (Except.ok.inj h2).symm
  · exact .inr ⟨b, b', hb, hb', hc⟩

/-- C89. Two private keys with the same address are the same key, or the serialisations of their public keys are a
collision. -/
theorem C89_private_key (H : Hashes) (k k' : PrivateKey) (hk : k.Good) (hk' : k'.Good) (a : Address)
    (h : k.toAddress H = .ok a) (h' : k'.toAddress H = .ok a) :
    k = k' ∨ ∃ p p' b b', k.toPublicKey = .ok p ∧ k'.toPublicKey = .ok p' ∧ p.toBytes = .ok b ∧ p'.toBytes = .ok b' ∧
      Collide160 H b b' := by
  obtain ⟨p, hp, hv, hn, hc⟩ := good_public k hk
  obtain ⟨p', hp', hv', hn', hc'⟩ := good_public k' hk'
  unfold PrivateKey.toAddress at h h'
  rw [hp] at h
  rw [hp'] at h'
  rcases C89_public_key H p p' hv hv' a h h' with rfl | ⟨b, b', h1, h2, h3⟩
  · left
    have m : ∀ k : PrivateKey, k.Good → PrivateKey.make k.secret (.network k.network) k.compressed = .ok k := by
      intro k hk
      rw [make_network, if_pos ⟨hk.1, hk.2⟩]
    have hs := C20_injective _ _ _ _ _ _ _ _ (m k hk) (m k' hk') p p hp hp' rfl
    obtain ⟨s, n, c⟩ := k
    obtain ⟨s', n', c'⟩ := k'
    simp only at hs hn hn' hc hc'
    rw [hs, ← hn, hn', ← hc, hc']
  · exact .inr ⟨p, p', b, b', hp, hp', h1, h2, h3⟩

/-- C89. The text of an address determines the hash, the network and the kind of the address. -/
theorem C89_text (H : Hashes) (p p' : Bytes) (hp : p.length = 20) (hp' : p'.length = 20) (test test' s s' : Bool) (t : Text)
    (h : Address.toString H ⟨p, netOf test, typeOf s⟩ = .ok t) (h' : Address.toString H ⟨p', netOf test', typeOf s'⟩ = .ok t) :
    p = p' ∧ test = test' ∧ s = s' := by
  obtain ⟨-, ⟨u, h1, h2⟩, -⟩ := C15_roundtrip H p hp test s
  obtain ⟨-, ⟨u', h1', h2'⟩, -⟩ := C15_roundtrip H p' hp' test' s'
  rw [h] at h1
  rw [h'] at h1'
  cases h1
  cases h1'
  have e := Except.ok.inj (h2.symm.trans h2')
  injection e with e1 e2 e3
  refine ⟨e1, ?_, ?_⟩
  · cases test <;> cases test' <;> first | rfl | exact absurd e2 (by decide)
  · cases s <;> cases s' <;> first | rfl | exact absurd e3 (by decide)

theorem script_bytes_inj {s s' : Script} (hs : s.WellFormed) (hs' : s'.WellFormed) {b : Bytes} (h : s.toBytes = .ok b)
    (h' : s'.toBytes = .ok b) : s.eq s' = true := by
  rw [eq_iff_wire]
  rcases bytesOf_spec s.instructions hs with ⟨-, he⟩ | ⟨-, c, hc, he⟩
  · unfold Script.toBytes at h; rw [he] at h; cases h
  · rcases bytesOf_spec s'.instructions hs' with ⟨-, he'⟩ | ⟨-, c', hc', he'⟩
    · unfold Script.toBytes at h'; rw [he'] at h'; cases h'
    · unfold Script.toBytes at h h'
      rw [hc] at h
      rw [hc'] at h'
      cases h
      cases h'
      exact encodes_injective he he'

/-- C89. Two scripts with the same address, or paid by the same output script, are equal, or their serialisations are a
collision. -/
theorem C89_script (H : Hashes) (s s' : Script) (hs : s.WellFormed) (hs' : s'.WellFormed) (b b' : Bytes)
    (hb : s.toBytes = .ok b) (hb' : s'.toBytes = .ok b') (n n' : Network)
    (h : Address.fromScriptBytes H b (.network n) = Address.fromScriptBytes H b' (.network n') ∨
      ∃ o o' d, PayToScriptOut.create H s = .ok o ∧ PayToScriptOut.create H s' = .ok o' ∧ o.toBytes = .ok d ∧ o'.toBytes = .ok d) :
    s.eq s' = true ∨ Collide160 H b b' := by
  have e : H.ripemd160 (H.sha256 b) = H.ripemd160 (H.sha256 b') := by
    rcases h with h | ⟨o, o', d, h1, h2, h3, h4⟩
    · rw [(C15_from_key_or_script H b n).2, (C15_from_key_or_script H b' n').2] at h
      have := Except.ok.inj h
      injection this
    · obtain ⟨q, g1, -, -, g2, -⟩ := C32_script_out H s b hb
      obtain ⟨q', g1', -, -, g2', -⟩ := C32_script_out H s' b' hb'
      rw [h1] at g1
      rw [h2] at g1'
      cases g1
      cases g1'
      have e := Except.ok.inj ((h3.symm.trans g2).symm.trans (h4.symm.trans g2'))
      simpa using e
  rcases hash160_cases H e with rfl | hc
  · exact .inl (script_bytes_inj hs hs' hb hb')
  · exact .inr hc

/-- C89. Two transactions with the same id are equal, or their serialisations are a collision. -/
theorem C89_transaction (H : Hashes) (t u : Transaction) (ht : t.InRange) (hu : u.InRange) (id : Text)
    (h : t.getId H = .ok id) (h' : u.getId H = .ok id) :
    t.eq u = true ∨ ∃ b b', t.toBytes = .ok b ∧ u.toBytes = .ok b' ∧ Collide256 H b b' := by
  unfold getId getIdBytes at h h'
  cases hb : t.toBytes with
  | error e => rw [hb] at h; cases h
  | ok b =>
    cases hb' : u.toBytes with
    | error e => rw [hb'] at h'; cases h'
    | ok b' =>
      rw [hb] at h
      rw [hb'] at h'
      have e : encodeHex (H.sha256 (H.sha256 b)) = encodeHex (H.sha256 (H.sha256 b')) :=
        Except.ok.inj (h.trans h'.symm)
      have e' : H.sha256 (H.sha256 b) = H.sha256 (H.sha256 b') := by
        have := congrArg unhexlify e
        rw [unhexlify_encodeHex, unhexlify_encodeHex] at this
        exact Option.some.inj this
      by_cases hbb : b = b'
      · subst hbb
        exact .inl (C35_injective t u ht hu b hb hb')
      · exact .inr ⟨b, b', rfl, rfl, hbb, e'⟩

/-- C89. Two signatures over the same payload are for transactions that agree in the signature type, version, outputs, lock
time, the outpoints and sequence numbers of all inputs, and (unless its script is empty) the input that is signed; or
what is hashed is a collision. -/
theorem C89_payload (H : Hashes) (t u : Transaction) (ht : t.InRange) (hu : u.InRange) (n n' a a' : Nat) (ha : a < 2 ^ 32)
    (ha' : a' < 2 ^ 32) (p : Bytes) (h : t.payload H n a = .ok p) (h' : u.payload H n' a' = .ok p) :
    ∃ w w' : WireTx, t.Shows w ∧ u.Shows w' ∧
      (Collide256 H ((w.blank n).bytes ++ le 4 a) ((w'.blank n').bytes ++ le 4 a') ∨
        a = a' ∧ w.version = w'.version ∧ w.outputs = w'.outputs ∧ w.lockTime = w'.lockTime ∧
        (∀ k : Nat, w.inputs[k]?.map (fun x => (x.txid, x.index, x.sequence)) =
          w'.inputs[k]?.map (fun x => (x.txid, x.index, x.sequence))) ∧
        ∀ x, w.inputs[n]? = some x → x.script ≠ [] → n = n' ∧ w'.inputs[n]? = some x) := by
  obtain ⟨w, hw, hf, hp⟩ := C39_payload H t ht
  obtain ⟨w', hw', hf', hp'⟩ := C39_payload H u hu
  refine ⟨w, w', hw, hw', ?_⟩
  have e : H.sha256 (H.sha256 ((w.blank n).bytes ++ le 4 a)) = H.sha256 (H.sha256 ((w'.blank n').bytes ++ le 4 a')) := by
    by_cases hb : t.BlocksPayload n
    · rw [(hp n a).1 hb] at h; cases h
    · by_cases hb' : u.BlocksPayload n'
      · rw [(hp' n' a').1 hb'] at h'; cases h'
      · rw [(hp n a).2 hb] at h
        rw [(hp' n' a').2 hb'] at h'
        exact Except.ok.inj (h.trans h'.symm)
  by_cases hbb : (w.blank n).bytes ++ le 4 a = (w'.blank n').bytes ++ le 4 a'
  · exact .inr (C39_commits w w' hf hf' n n' a a' ha ha' hbb)
  · exact .inl ⟨hbb, e⟩

/-! Examples. The hash functions of `Hashes.toy` cut their argument off, so there are collisions. -/

/-- C89_public_key and C89_private_key: keys and addresses; the addresses of another secret or network differ. -/
example : (⟨(secpGx, secpGy), .livenet, true⟩ : PublicKey).Valid ∧
    (∃ a, (⟨(secpGx, secpGy), .livenet, true⟩ : PublicKey).toAddress .toy = .ok a) ∧
    (⟨1, .livenet, true⟩ : PrivateKey).Good ∧ (⟨1, .livenet, true⟩ : PrivateKey).toAddress .toy ≠
      (⟨2, .livenet, true⟩ : PrivateKey).toAddress .toy ∧
    (⟨1, .livenet, true⟩ : PrivateKey).toAddress .toy ≠ (⟨1, .testnet, true⟩ : PrivateKey).toAddress .toy := by
  refine ⟨⟨by unfold OnSecp; decide, by unfold reduced; decide, by unfold reduced; decide⟩, ⟨⟨2 ::
    (encodeInt secpGx true (some 32)).take 19, .livenet, .publicKey⟩, by decide +kernel⟩, ⟨by decide, by decide⟩, ?_, ?_⟩ <;>
    decide +kernel

/-- C89_text. -/
example : (∃ t, Address.toString .toy ⟨List.replicate 20 7, netOf true, typeOf false⟩ = .ok t) ∧
    Address.toString .toy ⟨List.replicate 20 7, netOf true, typeOf false⟩ ≠
      Address.toString .toy ⟨List.replicate 20 7, netOf true, typeOf true⟩ :=
  ⟨by obtain ⟨-, ⟨t, h, -⟩, -⟩ := C15_roundtrip .toy (List.replicate 20 7) (by simp) true false
      exact ⟨t, h⟩, by decide +kernel⟩

/-- C89_script: two different scripts that agree in their first 20 bytes, and so have the same toy address. -/
example : (⟨.generic, List.replicate 21 ⟨.num 97, none⟩⟩ : Script).WellFormed ∧
    (⟨.generic, List.replicate 21 ⟨.num 97, none⟩⟩ : Script).toBytes = .ok (List.replicate 21 97) ∧
    (⟨.generic, List.replicate 22 ⟨.num 97, none⟩⟩ : Script).toBytes = .ok (List.replicate 22 97) ∧
    Address.fromScriptBytes .toy (List.replicate 21 97) (.network .livenet) =
      Address.fromScriptBytes .toy (List.replicate 22 97) (.network .livenet) ∧
    Collide160 .toy (List.replicate 21 97) (List.replicate 22 97) := by
  refine ⟨by unfold Script.WellFormed; decide, ?_, ?_, ?_, ?_, ?_⟩ <;> decide +kernel

/-- C89_transaction: signing changes the transaction, but not its toy id; the serialisations collide. -/
example : scriptTx.InRange ∧ (∃ id, scriptTx.getId .toy = .ok id ∧ scriptTxSigned.getId .toy = .ok id) ∧
    scriptTx.eq scriptTxSigned = false ∧ scriptTx.toBytes ≠ scriptTxSigned.toBytes :=
  ⟨script_tx, ⟨"0100000001".toList ++ List.replicate 54 'a', by decide +kernel⟩, by decide +kernel, by decide +kernel⟩

/-- C89_payload. -/
example : scriptTx.InRange ∧ ∃ p, scriptTx.payload .toy 0 1 = .ok p ∧ scriptTx.payload .toy 0 2 = .ok p :=
  ⟨script_tx, [1, 0, 0, 0, 1] ++ List.replicate 27 170, by decide +kernel⟩

end Bitforge
