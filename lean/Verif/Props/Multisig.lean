import Verif.Props.Payment
import Verif.Props.Compile
import Verif.Props.ConsensusCases

/-! # C94: sending to several keys, and spending -/

namespace Bitforge
open Spec Transaction

/-- What is known of a redeem script. -/
structure Redeem (pubs : List PublicKey) (m : Nat) (s : Script) (bs : List Bytes) (rb : Bytes) : Prop where
  create : RedeemMultisig.create pubs m = .ok s
  keys : List.Forall₂ (fun (k : PublicKey) b => k.toBytes = .ok b ∧ b.length = if k.compressed then 33 else 65) pubs bs
  bytes : s.toBytes = .ok rb
  wires : s.wires = Ref.redeemScript m bs
  encodes : Encodes s.wires rb
  head : rb.head? = some (smallByte m)
  length : rb.length < 2 ^ 32

/-- The bytes of a compiled script encode its instructions. -/
theorem ofSchematic_encodes {c : ScriptClass} {l : List SchemItem} {s : Script} {b : Bytes} (h : ofSchematic c l = .ok s)
    (hb : s.toBytes = .ok b) : Encodes s.wires b := by
  have hwf : s.WellFormed := by
    obtain ⟨_, hi⟩ := ofSchematic_ok _ _ _ h
    have hd := (toInstructions_denotes _ _).1 hi
    intro i hi
    obtain ⟨x, _, hx⟩ := forall₂_mem_left hd.flip hi
    exact hx.1
  have hb : Script.bytesOf s.instructions = _ := hb
  rcases bytesOf_spec s.instructions hwf with ⟨_, he⟩ | ⟨_, b', hb', he⟩
  · rw [hb] at he
    cases he
  · rw [hb] at hb'
    cases hb'
    exact he

theorem redeem_made (pubs : List PublicKey) (m : Nat) (hpv : ∀ p ∈ pubs, p.Valid) (hm : m ≤ 16) (hn : pubs.length ≤ 16) :
    ∃ s bs rb, Redeem pubs m s bs rb := by
  obtain ⟨s, bs, h1, _, hf, hb⟩ := C41_redeem_bytes pubs m hpv hm hn
  have hbl : bs.length = pubs.length := hf.length_eq.symm
  have hlen : ∀ b ∈ bs, 33 ≤ b.length ∧ b.length ≤ 65 := by
    intro b hb
    obtain ⟨p, _, _, h⟩ := forall₂_mem_left hf.flip hb
    rw [h]
    split <;> omega
  have henc : Encodes s.wires (smallByte m :: ((bs.flatMap fun b => byte b.length :: b) ++ [smallByte pubs.length, 174])) := by
    have h := h1
    unfold RedeemMultisig.create at h
    simp only [bind, Except.bind] at h
    split at h
    · cases h
    · split at h
      · cases h
      · split at h
        · cases h
        · exact ofSchematic_encodes h hb
  refine ⟨s, bs, _, h1, hf, hb, ?_, henc, rfl, ?_⟩
  · have := redeem_encodes m hm bs (by omega) fun k hk => by have := hlen k hk; omega
    rw [hbl] at this
    exact encodes_injective henc this
  · have : ∀ l : List Bytes, (∀ b ∈ l, 33 ≤ b.length ∧ b.length ≤ 65) → (l.flatMap fun b => byte b.length :: b).length ≤ 66 * l.length := by
      intro l
      induction l with
      | nil => intro _; simp
      | cons a l ih =>
        intro h
        have h1 := ih fun k hk => h k (by simp [hk])
        have h2 := h a (by simp)
        simp only [List.flatMap_cons, List.length_append, List.length_cons]
        omega
    have := this bs hlen
    simp only [List.length_cons, List.length_append, List.length_nil]
    omega

theorem not_pushData {s : Script} {b : Bytes} (he : Encodes s.wires b) (hb : s.toBytes = .ok b) : ¬ s.HasPushData := by
  intro h
  have := script_toBytes s b he
  rw [if_pos (show ∃ w ∈ s.wires, _ from h), hb] at this
  cases this

theorem Redeem.fine {pubs : List PublicKey} {m : Nat} {s : Script} {bs : List Bytes} {rb : Bytes} (r : Redeem pubs m s bs rb)
    (hm : m ≤ 16) (hn : pubs.length ≤ 16) : s.Encodable ∧ ¬ s.HasPushData ∧ ¬ s.Trips := by
  refine ⟨⟨rb, r.encodes, by have := r.length; omega⟩, not_pushData r.encodes r.bytes, ?_⟩
  have hp : ∀ m : Fin 17, pushKind (Ref.smallOp m.val) = .plain := by decide +kernel
  have h1 := hp ⟨m, by omega⟩
  have h2 := hp ⟨bs.length, by have := r.keys.length_eq; omega⟩
  simp only at h1 h2
  unfold Script.Trips
  rw [r.wires]
  have e : shape (Ref.redeemScript m bs) =
      some (Ref.smallOp m) :: (shape (bs.map pushOf) ++ [some (Ref.smallOp bs.length), some 174]) := by
    unfold shape Ref.redeemScript
    simp only [List.map_cons, List.map_append, List.map_nil, h1, h2, if_true]
    rfl
  rw [e]
  rintro ⟨_, _, h | ⟨_, h⟩⟩
  · cases h
  · generalize shape (bs.map pushOf) = l at h
    have : (some (Ref.smallOp m) :: (l ++ [some (Ref.smallOp bs.length), some 174])).length - 2 = l.length + 1 := by simp
    rw [this, List.getElem?_cons_succ, List.getElem?_append_right (Nat.le_refl _), Nat.sub_self] at h
    cases h

/-- The output of a script with bytes. -/
theorem scriptOutput_fine (H : Hashes) (amount : Int) (ha : 0 ≤ amount ∧ amount < 2 ^ 64) (s : Script) (rb : Bytes)
    (hs : s.toBytes = .ok rb) : ∃ o, ScriptOutput.create H amount s = .ok o ∧ o.Fine ∧ o.amount = amount ∧
      o.script.toBytes = .ok (169 :: 20 :: (H.ripemd160 (H.sha256 rb) ++ [135])) := by
  obtain ⟨o, ho, hc, hoa, hb, _⟩ := (C43_script H amount s).2 rb hs
  have he : Encodes o.script.wires (169 :: 20 :: (H.ripemd160 (H.sha256 rb) ++ [135])) := by
    have h := ho
    unfold ScriptOutput.create at h
    split at h
    · cases h
    · rename_i r hr
      cases h
      unfold PayToScriptOut.create at hr
      split at hr
      · cases hr
      · exact ofSchematic_encodes hr hb
  have hl := H.ripemd160_length (H.sha256 rb)
  have hw := encodes_injective he (payToScript_encodes _ hl)
  refine ⟨o, ho, ⟨⟨hoa ▸ ha, _, he, by simp [hl]⟩, not_pushData he hb, ?_⟩, hoa, hb⟩
  unfold Script.Trips
  rw [hw]
  rintro ⟨h, _⟩
  have : (shape (Ref.payToScript (H.ripemd160 (H.sha256 rb)))).length = 3 := rfl
  omega

/-- C94. Both ways of sending to several keys make an output that can be serialised and parsed: `MultisigOutput` with the
script itself, `ScriptOutput` with its hash. -/
theorem C94_outputs (H : Hashes) (amount : Int) (ha : 0 ≤ amount ∧ amount < 2 ^ 64) (pubs : List PublicKey) (m : Nat)
    (hpv : ∀ p ∈ pubs, p.Valid) (hm : m ≤ 16) (hn : pubs.length ≤ 16) :
    ∃ s bs rb o o', RedeemMultisig.create pubs m = .ok s ∧ s.toBytes = .ok rb ∧
      List.Forall₂ (fun (p : PublicKey) b => p.toBytes = .ok b) pubs bs ∧ Encodes (Ref.redeemScript m bs) rb ∧
      MultisigOutput.create amount pubs m = .ok o ∧ o.Fine ∧ o.amount = amount ∧ o.script.toBytes = .ok rb ∧
      ScriptOutput.create H amount s = .ok o' ∧ o'.Fine ∧ o'.amount = amount ∧
      o'.script.toBytes = .ok (169 :: 20 :: (H.ripemd160 (H.sha256 rb) ++ [135])) := by
  obtain ⟨s, bs, rb, r⟩ := redeem_made pubs m hpv hm hn
  obtain ⟨o', ho', hf', ha', hb'⟩ := scriptOutput_fine H amount ha s rb r.bytes
  have hf := r.fine hm hn
  exact ⟨s, bs, rb, ⟨.multisig, amount, s⟩, o', r.create, r.bytes, r.keys.imp fun _ _ h => h.1, r.wires ▸ r.encodes,
    by unfold MultisigOutput.create; rw [r.create], ⟨⟨ha, hf.1⟩, hf.2⟩, rfl, r.bytes, ho', hf', ha', hb'⟩

/-- C94. A transaction from coins of keys to several keys, in both ways, is built, signed and serialised, and accepted as
spending the coins. -/
theorem C94_deposit (H : Hashes) (nonces : Nat → Nat → Nat) (hν : ∀ n, NoncesOk (nonces n)) (cs : List Coin)
    (hc : cs ≠ []) (hco : ∀ c ∈ cs, c.Ok) (hcl : cs.length < 2 ^ 63) (a a' : Nat) (ha : a < 2 ^ 64) (ha' : a' < 2 ^ 64)
    (pubs : List PublicKey) (m : Nat) (hpv : ∀ p ∈ pubs, p.Valid) (hm : m ≤ 16) (hn : pubs.length ≤ 16) :
    ∃ s o o' rb, RedeemMultisig.create pubs m = .ok s ∧ s.toBytes = .ok rb ∧ MultisigOutput.create a pubs m = .ok o ∧
      ScriptOutput.create H a' s = .ok o' ∧
      (Payment.transfer H (fun n => keySigner (nonces n)) cs [o, o'] = .error .rsZeroError ∨
      ∃ w : WireTx, Payment.transfer H (fun n => keySigner (nonces n)) cs [o, o'] = .ok (hexText w.bytes) ∧
        List.Forall₂ Coin.Spent cs w.inputs ∧
        w.outputs = [⟨a, rb⟩, ⟨a', 169 :: 20 :: (H.ripemd160 (H.sha256 rb) ++ [135])⟩] ∧
        ∀ (n : Nat) (c : Coin) (x : WireIn), cs[n]? = some c → w.inputs[n]? = some x → ∃ sb b h, KeyHash H c.key b h ∧
          x.script = shortPush sb ++ shortPush b ∧ (9 ≤ sb.length ∧ sb.length ≤ 72) ∧
          (sb ≠ h → ∀ flags, Ref.Spends H flags w n (payScript h))) := by
  obtain ⟨s, bs, rb, r⟩ := redeem_made pubs m hpv hm hn
  have hf := r.fine hm hn
  obtain ⟨o', ho', hf', ha2, hb'⟩ := scriptOutput_fine H a' ⟨by omega, by omega⟩ s rb r.bytes
  refine ⟨s, ⟨.multisig, a, s⟩, o', rb, r.create, r.bytes, by unfold MultisigOutput.create; rw [r.create], ho', ?_⟩
  have hof : Output.Fine ⟨.multisig, a, s⟩ :=
    ⟨⟨⟨by show (0 : Int) ≤ a; omega, by show (a : Int) < 2 ^ 64; omega⟩, hf.1⟩, hf.2⟩
  rcases C92_transfer H nonces hν cs [⟨.multisig, a, s⟩, o'] hc hco (by simp) (by
    intro o ho
    rcases List.mem_cons.1 ho with rfl | ho
    · exact hof
    · rw [List.mem_singleton.1 ho]
      exact hf') hcl (by simp) with h | ⟨w, h1, _, _, h4, h5, _, h7⟩
  · exact .inl h
  · refine .inr ⟨w, h1, h4, ?_, h7⟩
    generalize w.outputs = ws at h5
    obtain _ | ⟨⟨g1, g2⟩, _ | ⟨⟨g3, g4⟩, _ | _⟩⟩ := h5
    rename_i w1 w2
    obtain ⟨v1, s1⟩ := w1
    obtain ⟨v2, s2⟩ := w2
    simp only at g1 g2 g3 g4
    rw [ha2] at g3
    have e2 := script_toBytes o'.script s2 g4
    rw [hb', if_neg (show ¬ ∃ w ∈ o'.script.wires, _ from hf'.2.1)] at e2
    cases e2
    obtain rfl : s1 = rb := encodes_unique g2 r.encodes
    obtain rfl : v1 = a := by omega
    obtain rfl : v2 = a' := by omega
    rfl

theorem pushes_encode : ∀ l : List Bytes, (∀ b ∈ l, 1 ≤ b.length ∧ b.length ≤ 75) →
    Encodes (l.map pushOf) (l.map shortPush).flatten ∧ (l.map shortPush).flatten.length ≤ 76 * l.length ∧
      shape (l.map pushOf) = List.replicate l.length none ∧ ∀ w ∈ l.map pushOf, w.1.val ≤ 75
  | [], _ => ⟨.nil, by simp, rfl, by simp⟩
  | b :: l, h => by
    obtain ⟨h1, h2, h3, h4⟩ := pushes_encode l fun b hb => h b (List.mem_cons_of_mem _ hb)
    obtain ⟨g1, g2⟩ := h b List.mem_cons_self
    obtain ⟨e1, e2, e3, e4, _⟩ := Ref.pushOf_op b g1
    have e4 := e4 g2
    refine ⟨.cons (Ref.pushOf_wf b (by omega)) (pushOf_isWire b g1 g2) h1, ?_, ?_, ?_⟩
    · have : (shortPush b).length = b.length + 1 := rfl
      simp only [List.map_cons, List.flatten_cons, List.length_append, List.length_cons]
      omega
    · have hk : ∀ op : Byte, 1 ≤ op.val → op.val ≤ 75 → pushKind op ≠ .plain := by decide +kernel
      have : shape ((b :: l).map pushOf) = (if pushKind (pushOf b).1 = .plain then some (pushOf b).1 else none) ::
          shape (l.map pushOf) := rfl
      rw [this, if_neg (hk _ (by omega) (by omega)), h3]
      rfl
    · intro w hw
      rcases List.mem_cons.1 hw with rfl | hw
      · omega
      · exact h4 w hw

/-- The input script of several signatures. -/
theorem script_push {s : Script} {sbs : List Bytes} {rb : Bytes} (hw : s.wires = (0, none) :: (sbs ++ [rb]).map pushOf)
    (hs : ∀ b ∈ sbs, 1 ≤ b.length ∧ b.length ≤ 75) (hr : 1 ≤ rb.length ∧ rb.length ≤ 75)
    (hl : sbs.length < 2 ^ 32) : s.Encodable ∧ ¬ s.HasPushData ∧ ¬ s.Trips := by
  obtain ⟨h1, h2, h3, h4⟩ := pushes_encode (sbs ++ [rb]) (by
    intro b hb
    rcases List.mem_append.1 hb with hb | hb
    · exact hs b hb
    · rw [List.mem_singleton.1 hb]
      exact hr)
  have he : Encodes s.wires ([0] ++ ((sbs ++ [rb]).map shortPush).flatten) := by
    rw [hw]
    exact .cons (by decide) rfl h1
  refine ⟨⟨_, he, ?_⟩, ?_, ?_⟩
  · simp only [List.length_append, List.length_cons, List.length_nil] at h2 ⊢
    omega
  · rintro ⟨w, hm, h⟩
    rw [hw] at hm
    rcases List.mem_cons.1 hm with rfl | hm
    · exact absurd h (by decide)
    · have := h4 w hm
      omega
  · unfold Script.Trips
    rw [hw]
    have e : shape ((0, none) :: (sbs ++ [rb]).map pushOf) = some 0 :: List.replicate (sbs.length + 1) none := by
      have : shape ((0, none) :: (sbs ++ [rb]).map pushOf) = some 0 :: shape ((sbs ++ [rb]).map pushOf) := rfl
      rw [this, h3]
      simp
    rw [e]
    rintro ⟨g1, g2, _⟩
    exact g2 ⟨sbs.length + 1, by simp at g1; omega, rfl⟩

/-- C94, part that holds: money sent to the hash of a script for one key, or for two compressed keys, can be spent with
`MultisigInput`, if the keys are given in the order of the script: the signed transaction is serialised, its text parses
back, and the reference client accepts the input, whatever the verification flags.  Missing: longer scripts, which cannot
be serialised (C41), money sent with `MultisigOutput` (see the refutation), and other orders (C84). -/
theorem C94_spend_partial (H : Hashes) (nonces : Nat → Nat) (hν : NoncesOk nonces) (t : Transaction) (ks : List PrivateKey)
    (hk : ∀ k ∈ ks, k.Good) (n : Nat) (id : Text) (ix seq : Int) (pubs : List PublicKey) (hpv : ∀ p ∈ pubs, p.Valid)
    (hn : pubs.length ≤ 1 ∨ pubs.length = 2 ∧ ∀ p ∈ pubs, p.compressed = true)
    (hord : ∃ ps, PublicKeys ks ps ∧ (ps.map (·.pair)).Sublist (pubs.map (·.pair))) (x : Input)
    (hc : MultisigInput.create id ix pubs ks.length seq = .ok x) (ht : Serialisable t) (hx : t.inputs[n]? = some x)
    (amount : Int) :
    ∃ s o ob, RedeemMultisig.create pubs ks.length = .ok s ∧ ScriptOutput.create H amount s = .ok o ∧
      o.script.toBytes = .ok ob ∧
      (t.sign H (keySigner nonces) ks n = .error .rsZeroError ∨
      ∃ u w, t.sign H (keySigner nonces) ks n = .ok u ∧ Serialisable u ∧ u.Shows w ∧ u.toHex = .ok (hexText w.bytes) ∧
        (∃ v, Transaction.fromHex (hexText w.bytes) = .ok v ∧ v.eq u = true) ∧
        ∀ flags : Nat, (flags.testBit 8 → flags.testBit 0) → Ref.Spends H flags w n ob) := by
  have hm : ks.length ≤ pubs.length := by
    obtain ⟨ps, hps, hsub⟩ := hord
    have := hsub.length_le
    simpa [List.Forall₂.length_eq hps] using this
  obtain ⟨s, bs, rb, r⟩ := redeem_made pubs ks.length hpv (by omega) (by omega)
  obtain ⟨o, ho, _, _, hob, _⟩ := (C43_script H amount s).2 rb r.bytes
  have hx' : x.cls = .multisig ∧ x.script = s := by
    have h := hc
    unfold MultisigInput.create at h
    rw [r.create] at h
    cases h
    exact ⟨rfl, rfl⟩
  have hrl : 1 ≤ rb.length ∧ rb.length ≤ 75 := by
    refine ⟨?_, ?_⟩
    · have := r.head
      cases rb with
      | nil => cases this
      | cons => simp
    · obtain ⟨s', b, h1, h2, _, h3⟩ := C41_redeem_length pubs ks.length hpv (by omega) (by omega)
      rw [r.create] at h1
      cases h1
      rw [r.bytes] at h2
      cases h2
      exact h3.2 hn
  refine ⟨s, o, _, r.create, ho, hob, ?_⟩
  have hb : ¬ t.BlocksPayload n := by
    rintro (⟨z, hz, hz'⟩ | ⟨o, ho, h⟩)
    · exact ht.2.1 (.inl ⟨z, List.mem_of_getElem? hz, hz'⟩)
    · exact ht.2.1 (.inr ⟨o, ho, h⟩)
  rcases C74_script_succeeds H nonces hν t ks n 1 (by decide) x ht.1 hx (.inr hx'.1) hb rb (hx'.2 ▸ r.bytes)
    ⟨hrl.1, by omega⟩ with ⟨u, hu⟩ | he
  · obtain ⟨_, y, sbs, rb', _, hy, hrb', hsigs, _, _, hwires⟩ := C74_script H nonces hν t u ks n 1 x ht.1 hx (.inr hx'.1) hu
    rw [hx'.2, r.bytes] at hrb'
    cases hrb'
    have hsu := sign_keeps ht hu hy (script_push hwires (fun b hb => by
      obtain ⟨k, _, hkb⟩ := forall₂_mem_left hsigs.flip hb
      have := signsDigest_head hkb
      omega) hrl (by have := hsigs.length_eq; omega))
    obtain ⟨w, hw, _, _, hh, v, _, hv, hve, _⟩ := serialisable_trip hsu
    refine .inr ⟨u, w, hu, hsu, hw, hh, ⟨v, hv, hve⟩, fun flags hf => ?_⟩
    exact C84_multisig_partial H nonces hν t u u ks hk n id ix seq pubs hpv (by omega) x hc hord ht.1 hx hu (.refl u) w hw
      flags hf rb (hx'.2 ▸ r.bytes) (by omega)
  · exact .inl he

theorem run_big (H : Hashes) (C : Ref.Checker) (flags : Nat) : ∀ (l : List WireInstr) (s : Ref.St),
    (∃ i ∈ l, 520 < (i.2.getD []).length) → Ref.run H C flags l s = none
  | [], _, h => by obtain ⟨_, hm, _⟩ := h; cases hm
  | i :: is, s, h => by
    obtain ⟨j, hj, hl⟩ := h
    unfold Ref.run
    rcases List.mem_cons.1 hj with rfl | hj
    · have : Ref.act H C flags j is s = none := by
        unfold Ref.act
        exact if_pos hl
      rw [this]
    · cases Ref.act H C flags i is s with
      | none => rfl
      | some s' =>
        simp only
        split
        · rfl
        · exact run_big H C flags is s' ⟨j, hj, hl⟩

/-- C94. The reference client refuses a signed `ScriptInput` or `MultisigInput` whose script has more than 520 bytes,
whatever it spends and whatever the verification flags. -/
theorem C94_size (H : Hashes) (nonces : Nat → Nat) (hν : NoncesOk nonces) (t u v : Transaction) (ks : List PrivateKey)
    (n : Nat) (st : Int) (x : Input) (hcls : x.cls = .script ∨ x.cls = .multisig) (ht : t.InRange)
    (hx : t.inputs[n]? = some x) (h : t.sign H (keySigner nonces) ks n st = .ok u) (hv : Signs H u v) (w : WireTx)
    (hw : v.Shows w) (rb : Bytes) (hrb : x.script.toBytes = .ok rb) (h520 : 520 < rb.length) (ob : Bytes) (flags : Nat) :
    ¬ Ref.Spends H flags w n ob := by
  obtain ⟨w0, y, sbs, rb', hw0, hy, hrb2, -, _, _, hwires⟩ := C74_script H nonces hν t u ks n st _ ht hx hcls h
  rw [hrb] at hrb2
  cases hrb2
  obtain ⟨_, _, _, _, _, hfr⟩ := C37_frame H _ t u ks n st h
  obtain ⟨_, y', _, _, hy', _, _, _, _, _, hgen⟩ := hfr n rfl
  rw [hy] at hy'
  cases hy'
  obtain ⟨yw, hyw, hys⟩ := shows_get hw.2.1 (signs_generic hv hy hgen)
  rintro ⟨yw', hyw', a, p, s, s', ha, hp, _, hst, _⟩
  rw [hyw] at hyw'
  cases hyw'
  rw [encodes_injective ha (hwires ▸ hys.2.2.1)] at hst
  have hb : ∃ i ∈ (0, none) :: (sbs ++ [rb]).map pushOf, 520 < (i.2.getD []).length := by
    refine ⟨pushOf rb, by simp, ?_⟩
    rw [(Ref.pushOf_op rb (by omega)).1]
    exact h520
  unfold Ref.eval at hst
  rw [run_big H _ flags _ _ hb] at hst
  split at hst <;> cases hst

/-- The script of a `ScriptInput` can have 521 bytes; the input can be signed (`C74_script_succeeds`). -/
example : let x : Input := ⟨.script, List.replicate 64 'a', 0, ⟨.generic, List.replicate 521 ⟨.num 97, none⟩⟩, 0xFFFFFFFF⟩
    x.script.toBytes = .ok (List.replicate 521 97) ∧ (x.cls = .script ∨ x.cls = .multisig) :=
  ⟨by decide +kernel, .inl rfl⟩

/-- C94 is false of the code: what `MultisigOutput` pays cannot be spent with `MultisigInput`, whatever the verification
flags, as it puts the script after the signatures. -/
theorem C94_bare_refuted (H : Hashes) (nonces : Nat → Nat) (hν : NoncesOk nonces) (t u v : Transaction) (ks : List PrivateKey)
    (hk : ∀ k ∈ ks, k.Good) (hk0 : ks ≠ []) (n : Nat) (id : Text) (ix seq amount : Int) (pubs : List PublicKey)
    (hpv : ∀ p ∈ pubs, p.Valid) (hn : pubs.length ≤ 16) (hm : ks.length ≤ pubs.length) (x : Input) (o : Output)
    (hc : MultisigInput.create id ix pubs ks.length seq = .ok x) (ho : MultisigOutput.create amount pubs ks.length = .ok o)
    (ht : t.InRange) (hx : t.inputs[n]? = some x) (h : t.sign H (keySigner nonces) ks n 1 = .ok u)
    (hv : Signs H u v) (w : WireTx) (hw : v.Shows w) (ob : Bytes) (hob : o.script.toBytes = .ok ob)
    (flags : Nat) : ¬ Ref.Spends H flags w n ob := by
  obtain ⟨s, bs', rb, r⟩ := redeem_made pubs ks.length hpv (by omega) hn
  have hxs : x.script = s := by
    have h := hc
    unfold MultisigInput.create at h
    rw [r.create] at h
    cases h
    rfl
  have hos : o.script = s := by
    have h := ho
    unfold MultisigOutput.create at h
    rw [r.create] at h
    cases h
    rfl
  rw [hos, r.bytes] at hob
  obtain rfl : rb = ob := Except.ok.inj hob
  rcases Nat.lt_or_ge 520 rb.length with h520 | h520
  · refine C94_size H nonces hν t u v ks n 1 x ?_ ht hx h hv w hw rb (hxs ▸ r.bytes) h520 rb flags
    unfold MultisigInput.create at hc
    rw [r.create] at hc
    cases hc
    exact .inr rfl
  obtain ⟨w0, xw, y, sbs, bs, _, _, _, _, hy, hwires, hsigs, hbs, hsec, henc, _, ⟨yw, hyw, hye, heval⟩, _⟩ :=
    multisig_spends H nonces hν t u v ks hk n id ix seq pubs hpv hn hm x hc ht hx h hv w hw rb (hxs ▸ r.bytes) h520
  rintro ⟨yw', hyw', a, p, st, st', ha, hp, _, hst, hst', _⟩
  rw [hyw] at hyw'
  cases hyw'
  rw [encodes_injective ha hye, heval] at hst
  cases hst
  rw [encodes_injective hp henc] at hst'
  have hsl : ks.length = sbs.length := hsigs.length_eq
  have hbl : pubs.length = bs.length := hbs.length_eq
  cases sbs with
  | nil => exact hk0 (List.length_eq_zero_iff.1 hsl)
  | cons s0 srest =>
  have hkl : ∀ b ∈ bs, 2 ≤ b.length ∧ b.length ≤ 65 := by
    intro b hb
    obtain ⟨_, _, _, h⟩ := hsec b hb
    rcases sec_head h with h | h <;> omega
  have e : rb :: ((s0 :: srest).reverse ++ [[]]) = (rb :: srest.reverse) ++ s0 :: [[]] := by simp
  have hlen : ks.length = (rb :: srest.reverse).length := by simp [hsl]
  rw [e, hlen, Ref.eval_multisig H _ flags _ bs s0 [[]] hkl (by omega) (by omega) (by simp)] at hst'
  have hnone : ∀ code sigs key, (Ref.checker H flags w n).sig code sigs rb key = none := by
    intro code sigs key
    unfold Ref.checker
    simp only
    rw [if_neg]
    rintro ⟨he | ⟨hd, _⟩, _⟩
    · have := r.head
      rw [he] at this
      cases this
    · obtain ⟨_, _, _, _, _, _, _, _, _, _, ⟨_, _, hseq⟩, hsig, _⟩ := hd
      have := r.head
      rw [hsig, hseq] at this
      have hsm : ∀ m : Fin 17, some (0x30 : Byte) ≠ some (smallByte m.val) := by decide +kernel
      exact hsm ⟨ks.length, by omega⟩ this
  have hms : Ref.multisig ((Ref.checker H flags w n).sig (Ref.redeemScript (rb :: srest.reverse).length bs) (rb :: srest.reverse))
      (rb :: srest.reverse) bs.reverse = none := by
    have hle : (rb :: srest.reverse).length ≤ bs.reverse.length := by rw [List.length_reverse]; omega
    generalize bs.reverse = l at hle
    cases l with
    | nil => simp at hle
    | cons a l =>
      unfold Ref.multisig
      rw [if_neg (by omega), hnone]
  rw [hms] at hst'
  cases hst'

/-- Two keys, a transaction that spends what they hold, and the keys in order. -/
example : (∀ p ∈ [onePub, twoPub], p.Valid) ∧ (∀ k ∈ [oneKey, twoKey], k.Good) ∧
    ([onePub, twoPub].length ≤ 1 ∨ [onePub, twoPub].length = 2 ∧ ∀ p ∈ [onePub, twoPub], p.compressed = true) ∧
    (∃ ps, PublicKeys [oneKey, twoKey] ps ∧ (ps.map (·.pair)).Sublist ([onePub, twoPub].map (·.pair))) ∧
    MultisigInput.create (List.replicate 64 'a') 0 [onePub, twoPub] [oneKey, twoKey].length = .ok bothInput ∧
    Serialisable bothTx ∧ bothTx.inputs[0]? = some bothInput ∧ NoncesOk (fun _ => 5) := by
  obtain ⟨h1, h2, h3, _⟩ := both_create
  refine ⟨both_valid, fun k hk => both_good k ?_, by decide, ⟨_, .cons h2 (.cons h3 .nil), List.Sublist.refl _⟩, h1,
    ⟨both_tx, ?_, ?_⟩, rfl, fun _ => ⟨by show 1 ≤ 5; decide, by show 5 < secpN; decide⟩⟩
  · rcases List.mem_cons.1 hk with rfl | hk
    · exact List.mem_cons_of_mem _ List.mem_cons_self
    · rw [List.mem_singleton.1 hk]
      exact List.mem_cons_self
  · unfold Transaction.HasPushData Script.HasPushData
    decide +kernel
  · rintro (⟨x, hx, h⟩ | ⟨o, ho, h⟩)
    · rw [List.mem_singleton.1 hx] at h
      exact absurd h.2.2 (by decide +kernel)
    · rw [List.mem_singleton.1 ho] at h
      exact absurd h.1 (by decide +kernel)

end Bitforge
