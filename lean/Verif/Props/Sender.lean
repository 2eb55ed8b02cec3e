import Verif.Props.Instances
import Verif.Props.Found
import Verif.Props.HdPath

/-! # C144: who has spent a payment can be told from the transaction

A program that follows the money of an address reads transactions made by others, and asks the scripts of their inputs for the key
and the signature. -/

namespace Bitforge.Sender
open Spec Txs Scripts Found

/-- The two pushes of an input that spends a payment to a hash of a key. -/
theorem pair_encodes {a b : Bytes} (ha : 1 ≤ a.length) (ha' : a.length ≤ 75) (hb : 1 ≤ b.length) (hb' : b.length ≤ 75) :
    Encodes [pushOf a, pushOf b] (shortPush a ++ shortPush b) := by
  rw [← List.append_nil (shortPush b)]
  exact .cons (Ref.pushOf_wf a (by omega)) (pushOf_isWire a ha ha') (.cons (Ref.pushOf_wf b (by omega)) (pushOf_isWire b hb hb') .nil)

/-- C144, part that holds: under the rules of nodes, the script of an input that spends a payment to the hash of a key is read as
one of class PayToPubkeyIn; `get_signature` gives the signature, and the data of the second instruction are the bytes of the
public key that has signed, and of no other: as a `str` they are read as the key, whose bytes they are and whose hash is the
one that was paid to.  Missing: `get_public_key`, see the refutation. -/
theorem C144_sender_partial (H : Hashes) (flags : Nat) (hf : NodeRules flags) (w : WireTx) (n : Nat) (hash : Bytes)
    (hl : hash.length = 20) (hs : Ref.Spends H flags w n (payScript hash)) (x : WireIn) (hx : w.inputs[n]? = some x)
    (cls : InputClass) (i : Input) (hi : ReadIn cls x i) :
    ∃ (der : Bytes) (t : Byte) (r s : Int) (key : Bytes) (p : PublicKey), i.script.cls = .payToPubkeyIn ∧
      PayToPubkeyIn.getSignature i.script = .ok (some ⟨.bytearray, der ++ [t]⟩) ∧ SigText der r s ∧
      i.script.instructions.map Instruction.data = [some ⟨.bytearray, der ++ [t]⟩, some ⟨.bytearray, key⟩] ∧
      PublicKey.fromBytes ⟨.str, key⟩ = .ok p ∧ p.toBytes = .ok key ∧ H.ripemd160 (H.sha256 key) = hash ∧
      (∃ a, p.toAddress H = .ok a ∧ a.phash = hash) ∧
      Endorsed H flags w n (Ref.payToKey hash) [der ++ [t]] (der ++ [t]) key := by
  obtain ⟨x', der, t, r, s, key, hx', hscript, hder, -, hhash, hend⟩ := C98_form H flags hf w n hash hl hs
  rw [hx] at hx'
  obtain rfl := Option.some.inj hx'
  obtain ⟨hse, -, der', ht, r', s', kx, ky, c, Q, cb, e1, -, hsec, hrx, hry, hQ, -⟩ := id hend
  have hsig : 9 ≤ (der ++ [t]).length ∧ (der ++ [t]).length ≤ 73 := by
    rcases hse with h | ⟨⟨_, _, _, _, _, _, _, _, _, _, _, _, h1, h2⟩, -⟩
    · simp at h
    · exact ⟨h1, h2⟩
  have hkl : 33 ≤ key.length ∧ key.length ≤ 65 := by
    rcases sec_head hsec with ⟨h, -⟩ | ⟨h, -⟩ <;> omega
  have henc : Encodes [pushOf (der ++ [t]), pushOf key] x.script := by
    rw [hscript]
    exact pair_encodes (by omega) (by omega) (by omega) (by omega)
  cases hi with
  | mk hb =>
    rename_i sc
    obtain ⟨ws, he, hins, htm⟩ := read_script hb
    obtain rfl := encodes_injective he henc
    have d1 := (Ref.pushOf_op (der ++ [t]) (by omega)).1
    have d2 := (Ref.pushOf_op key (by omega)).1
    have hwf := encodes_wf henc
    have hcls : sc.cls = .payToPubkeyIn := by
      have hm : sc.cls.template = some .p2pkhIn := (htm .p2pkhIn).2 (by
        show shape _ = [none, none]
        simp only [shape, List.map_cons, List.map_nil, push_shape (hwf (pushOf (der ++ [t])) (by simp)) d1,
          push_shape (hwf (pushOf key) (by simp)) d2])
      generalize sc.cls = q at hm
      cases q <;> first | rfl | cases hm
    have hfrom := C18_from_sec (kx : Int) (ky : Int) c .livenet key (isPoint_on hQ) hrx hry (by simpa using hsec)
    have hbk : PublicKey.toBytes ⟨((kx : Int), (ky : Int)), .livenet, c⟩ = .ok key := by
      refine C19_exact_partial key _ _ hfrom ?_
      obtain ⟨bx, hlx, -, hc⟩ := hsec
      cases c with
      | true =>
        rw [if_pos rfl] at hc
        rw [hc]
        simp [hlx]
      | false =>
        rw [if_neg (by decide)] at hc
        obtain ⟨by', hly, -, hc⟩ := hc
        rw [hc]
        simp [hlx, hly]
    refine ⟨der, t, r, s, key, ⟨((kx : Int), (ky : Int)), .livenet, c⟩, hcls, ?_, hder, ?_, hfrom, hbk, hhash, ?_, hend⟩
    · show PayToPubkeyIn.getSignature sc = _
      unfold PayToPubkeyIn.getSignature dataAt
      rw [hins]
      simp only [List.map_cons, List.getElem?_cons_zero, instruction, d1, Option.map_some]
    · show sc.instructions.map Instruction.data = _
      rw [hins]
      simp only [List.map_cons, List.map_nil, instruction, d1, d2, Option.map_some]
    · refine ⟨⟨H.ripemd160 (H.sha256 key), .livenet, .publicKey⟩, ?_, hhash⟩
      unfold PublicKey.toAddress
      rw [hbk]
      exact (C15_from_key_or_script H key .livenet).1

/-- C144. All such inputs can be read. -/
theorem C144_read (H : Hashes) (flags : Nat) (hf : NodeRules flags) (w : WireTx) (n : Nat) (hash : Bytes)
    (hl : hash.length = 20) (hs : Ref.Spends H flags w n (payScript hash)) (x : WireIn) (hx : w.inputs[n]? = some x)
    (cls : InputClass) : ∃ i, ReadIn cls x i := by
  obtain ⟨x', der, t, r, s, key, hx', hscript, -, -, -, hse, -, -, -, -, -, kx, ky, c, Q, cb, -, -, hsec, -⟩ :=
    C98_form H flags hf w n hash hl hs
  rw [hx] at hx'
  obtain rfl := Option.some.inj hx'
  have hsig : 9 ≤ (der ++ [t]).length ∧ (der ++ [t]).length ≤ 73 := by
    rcases hse with h | ⟨⟨_, _, _, _, _, _, _, _, _, _, _, _, h1, h2⟩, -⟩
    · simp at h
    · exact ⟨h1, h2⟩
  have hkl : 33 ≤ key.length ∧ key.length ≤ 65 := by
    rcases sec_head hsec with ⟨h, -⟩ | ⟨h, -⟩ <;> omega
  have henc : Encodes [pushOf (der ++ [t]), pushOf key] x.script := by
    rw [hscript]
    exact pair_encodes (by omega) (by omega) (by omega) (by omega)
  rcases script_fromBytes _ _ henc with ⟨_, sc, h1, -, -⟩ | ⟨hc, _⟩
  · exact ⟨_, .mk ((C129_bytes _ _).1 h1)⟩
  · exact absurd hc.1 (by simp [shape])

/-- C144, part that holds: the owner of a key tells that an input has spent a payment to it by the data of the second instruction,
which are the bytes of that key, unless these two byte strings collide. -/
theorem C144_mine_partial (H : Hashes) (flags : Nat) (hf : NodeRules flags) (w : WireTx) (n : Nat) (k : PublicKey) (hk : k.Valid)
    (a : Address) (ha : k.toAddress H = .ok a) (hl : a.phash.length = 20) (hs : Ref.Spends H flags w n (payScript a.phash))
    (x : WireIn) (hx : w.inputs[n]? = some x) (cls : InputClass) (i : Input) (hi : ReadIn cls x i) :
    ∃ (kb key : Bytes) (g : Data), k.toBytes = .ok kb ∧
      i.script.instructions.map Instruction.data = [some g, some ⟨.bytearray, key⟩] ∧
      (key = kb ∧ PublicKey.fromBytes ⟨.str, key⟩ (.network k.network) = .ok k ∨
        key ≠ kb ∧ H.ripemd160 (H.sha256 key) = H.ripemd160 (H.sha256 kb)) := by
  obtain ⟨der, t, r, s, key, p, -, -, -, hd, -, -, hh, -⟩ := C144_sender_partial H flags hf w n a.phash hl hs x hx cls i hi
  obtain ⟨kb, hkb, -, hfrom⟩ := C18_bytes k hk.1 hk.2.1 hk.2.2
  have hp : a.phash = H.ripemd160 (H.sha256 kb) := by
    unfold PublicKey.toAddress at ha
    rw [hkb] at ha
    have e := ((C15_from_key_or_script H kb k.network).1).symm.trans ha
    exact (congrArg Address.phash (Except.ok.inj e)).symm
  refine ⟨kb, key, _, hkb, hd, ?_⟩
  by_cases e : key = kb
  · exact .inl ⟨e, e ▸ hfrom⟩
  · exact .inr ⟨e, hh.trans hp⟩

/-- C144 is false of the code: `get_public_key` raises InvalidBinary for all of them. -/
theorem C144_key_refuted (H : Hashes) (flags : Nat) (hf : NodeRules flags) (w : WireTx) (n : Nat) (hash : Bytes)
    (hl : hash.length = 20) (hs : Ref.Spends H flags w n (payScript hash)) (x : WireIn) (hx : w.inputs[n]? = some x)
    (cls : InputClass) (i : Input) (hi : ReadIn cls x i) : PayToPubkeyIn.getPublicKey i.script = .error .pubInvalidBinary := by
  obtain ⟨_, _, _, _, _, _, hc, -⟩ := C144_sender_partial H flags hf w n hash hl hs x hx cls i hi
  cases hi with
  | mk hb => exact C32_parsed_key_refuted _ _ ((C129_bytes _ _).2 hb) hc

/-- C144 is false of the code in another way: whatever key `get_public_key` gives, of scripts that were not read but made, it is
one of the main network, and so is its address, though the spender may be on the other. -/
theorem C144_network_refuted (k : PublicKey) (hk : k.Valid) (hn : k.network = .testnet) (sig : Bytes) (h1 : 1 ≤ sig.length)
    (h2 : sig.length < 2 ^ 32) : ∃ s p, PayToPubkeyIn.create k ⟨.str, sig⟩ = .ok s ∧ PayToPubkeyIn.getPublicKey s = .ok p ∧
      p.pair = k.pair ∧ p ≠ k := by
  obtain ⟨s, hs, -, -, -, -, hp⟩ := C32_pubkey_in k sig hk h1 h2
  refine ⟨s, _, hs, hp, rfl, fun e => ?_⟩
  have : Network.livenet = .testnet := (congrArg PublicKey.network e).trans hn
  exact absurd this (by decide)

/-- The transaction of Verif/Props/Instances.lean, with the real hash functions. -/
example : ∃ (w : WireTx) (x : WireIn) (i : Input), w.inputs[0]? = some x ∧ ReadIn .generic x i ∧
    i.script.cls = .payToPubkeyIn ∧ PayToPubkeyIn.getPublicKey i.script = .error .pubInvalidBinary := by
  obtain ⟨w, -, -, -, hs⟩ := pair_spends
  have hf : NodeRules 365 := ⟨by decide, by decide, by decide, by decide⟩
  obtain ⟨x, hx, -⟩ := id (hs 365)
  obtain ⟨i, hi⟩ := C144_read .real 365 hf w 0 oneHash (by decide +kernel) (hs 365) x hx .generic
  obtain ⟨_, _, _, _, _, _, h1, -⟩ := C144_sender_partial .real 365 hf w 0 oneHash (by decide +kernel) (hs 365) x hx .generic i hi
  exact ⟨w, x, i, hx, hi, h1, C144_key_refuted .real 365 hf w 0 oneHash (by decide +kernel) (hs 365) x hx .generic i hi⟩

end Bitforge.Sender
