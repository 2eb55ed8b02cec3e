import Verif.Payment
import Verif.Props.Consensus

/-! # C92: the payments of the examples -/

namespace Bitforge
open Spec Transaction

/-- The script that pays to the hash of a key. -/
def payScript (hash : Bytes) : Bytes := 118 :: 169 :: 20 :: (hash ++ [136, 172])

/-- A transaction id in lower case hexadecimal, an index of 32 bits, a key that the constructor makes. -/
def Coin.Ok (c : Coin) : Prop := TxIdOk c.txId ∧ (0 ≤ c.index ∧ c.index < 2 ^ 32) ∧ c.key.Good

/-- An amount of 64 bits and the hash of something. -/
def PayOk (p : Int × Address) : Prop := (0 ≤ p.1 ∧ p.1 < 2 ^ 64) ∧ p.2.phash.length = 20

/-- `h` is the hash of the public key of `k`, of which `b` are the bytes. -/
def KeyHash (H : Hashes) (k : PrivateKey) (b h : Bytes) : Prop :=
  ∃ p, k.toPublicKey = .ok p ∧ p.toBytes = .ok b ∧ h = H.ripemd160 (H.sha256 b)

/-- The wire input spends the output of the coin. -/
def Coin.Spent (c : Coin) (x : WireIn) : Prop :=
  c.txId = hexText x.txid.reverse ∧ c.index = x.index ∧ x.sequence = 0xFFFFFFFF

/-- The wire output pays. -/
def Pays (p : Int × Address) (o : WireOut) : Prop := p.1 = o.amount ∧ o.script = payScript p.2.phash

theorem payToKey_wires (a : Address) (ha : a.phash.length = 20) : ∃ s, PayToPubkeyOut.create a = .ok s ∧
    s.wires = Ref.payToKey a.phash := by
  have hi : (SchemItem.bytes ⟨.str, a.phash⟩).instruction = .ok ⟨.num 20, some ⟨.str, a.phash⟩⟩ := by
    have hp : Opcode.pushFor ((20 : Nat) : Int) = .ok (.num 20) := by decide
    simp only [SchemItem.instruction, ha, hp]
    simp only [bind, Except.bind, instr_make, show pushKind (Opcode.num 20).number = .direct 20 by decide]
    rw [if_pos ha]
  have op : ∀ n : Nat, pushKind (Opcode.num n).number = .plain →
      (SchemItem.opcode (.num n)).instruction = .ok ⟨.num n, none⟩ := fun n h => instruction_opcode _ h
  refine ⟨⟨.payToPubkeyOut, [⟨.num 118, none⟩, ⟨.num 169, none⟩, ⟨.num 20, some ⟨.str, a.phash⟩⟩, ⟨.num 136, none⟩,
    ⟨.num 172, none⟩]⟩, ?_, ?_⟩
  · simp only [PayToPubkeyOut.create, ofSchematic, toInstructions, hi, op 118 (by decide), op 169 (by decide),
      op 136 (by decide), op 172 (by decide)]
  · unfold Ref.payToKey pushOf
    rw [ha]
    rfl

theorem payToKey_noPushData (h : Bytes) (hl : h.length = 20) : ¬ ∃ w ∈ Ref.payToKey h, 76 ≤ w.1.val ∧ w.1.val ≤ 78 := by
  have e : Ref.payToKey h = [(118, none), (169, none), (20, some h), (136, none), (172, none)] := by
    unfold Ref.payToKey pushOf
    rw [hl]
    rfl
  rw [e]
  simp

theorem payToKey_fine (h : Bytes) (hl : h.length = 20) : ¬ Crashes (shape (Ref.payToKey h)) := by
  have e : shape (Ref.payToKey h) = [some 118, some 169, none, some 136, some 172] := by
    unfold Ref.payToKey pushOf
    rw [hl]
    rfl
  rw [e]
  rintro ⟨_, _, h | ⟨⟨m, hm, hs⟩, _⟩⟩
  · cases h
  · cases hm
    exact absurd hs (by decide)

/-- `x` is the input that the example makes of the coin. -/
structure Fresh (H : Hashes) (c : Coin) (x : Input) (b h : Bytes) (a : Address) : Prop where
  keyHash : KeyHash H c.key b h
  hash : a.phash = h
  create : AddressInput.create c.txId c.index a = .ok x
  cls : x.cls = .address
  id : x.txId = c.txId
  index : x.txoIndex = c.index
  seq : x.seqNumber = 0xFFFFFFFF
  wires : x.script.wires = Ref.payToKey h
  can : AddressInput.canSign H x [c.key] = .ok true

theorem KeyHash.length {H : Hashes} {k : PrivateKey} {b h : Bytes} (hk : KeyHash H k b h) : h.length = 20 := by
  obtain ⟨_, _, _, rfl⟩ := hk
  exact H.ripemd160_length _

theorem input_fresh (H : Hashes) (c : Coin) (hc : c.Ok) : ∃ p a x b h, c.key.toPublicKey = .ok p ∧ p.toAddress H = .ok a ∧
    AddressInput.create c.txId c.index a = .ok x ∧ Fresh H c x b h a := by
  obtain ⟨_, _, hk⟩ := hc
  have hm : PrivateKey.make c.key.secret (.network c.key.network) c.key.compressed = .ok c.key := by
    rw [make_network, if_pos ⟨hk.1, hk.2⟩]
  obtain ⟨p, b, hp, hb, ha⟩ := C20_address H _ _ _ _ hm
  have ha' : p.toAddress H = .ok ⟨H.ripemd160 (H.sha256 b), c.key.network, .publicKey⟩ := by
    unfold PrivateKey.toAddress at ha
    rw [hp] at ha
    exact ha
  have hl := H.ripemd160_length (H.sha256 b)
  obtain ⟨s, hs, hw⟩ := payToKey_wires ⟨H.ripemd160 (H.sha256 b), c.key.network, .publicKey⟩ hl
  have hcr : AddressInput.create c.txId c.index ⟨H.ripemd160 (H.sha256 b), c.key.network, .publicKey⟩ =
      .ok ⟨.address, c.txId, c.index, s, Input.finalSeqNumber⟩ := by
    unfold AddressInput.create
    rw [hs]
  refine ⟨p, _, _, b, _, hp, ha', hcr, ⟨p, hp, hb, rfl⟩, rfl, hcr, rfl, rfl, rfl, rfl, hw, ?_⟩
  obtain ⟨i, r, h1, h2, h3⟩ := C42_address H c.txId c.index Input.finalSeqNumber
    ⟨H.ripemd160 (H.sha256 b), c.key.network, .publicKey⟩ hl [c.key] (by simpa using hk)
  rw [hcr] at h1
  cases h1
  rw [h2, h3.2 ⟨_, p, b, rfl, hp, hb, rfl⟩]

theorem inputs_fresh (H : Hashes) : ∀ cs : List Coin, (∀ c ∈ cs, c.Ok) → ∃ xs, Payment.inputs H cs = .ok xs ∧
    List.Forall₂ (fun c x => ∃ b h a, Fresh H c x b h a) cs xs
  | [], _ => ⟨[], rfl, .nil⟩
  | c :: cs, hc => by
    obtain ⟨xs, hxs, hf⟩ := inputs_fresh H cs fun c h => hc c (List.mem_cons_of_mem _ h)
    obtain ⟨p, a, x, b, h, hp, ha, hx, hfr⟩ := input_fresh H c (hc c List.mem_cons_self)
    refine ⟨x :: xs, ?_, .cons ⟨b, h, a, hfr⟩ hf⟩
    simp only [Payment.inputs, hp, ha, hx, hxs]

theorem outputs_made : ∀ ps : List (Int × Address), (∀ p ∈ ps, PayOk p) → ∃ os, Payment.outputs ps = .ok os ∧
    List.Forall₂ (fun (p : Int × Address) (o : Output) => o.amount = p.1 ∧ o.script.wires = Ref.payToKey p.2.phash) ps os
  | [], _ => ⟨[], rfl, .nil⟩
  | (v, a) :: ps, hp => by
    obtain ⟨os, hos, hf⟩ := outputs_made ps fun p h => hp p (List.mem_cons_of_mem _ h)
    obtain ⟨s, hs, hw⟩ := payToKey_wires a (hp (v, a) List.mem_cons_self).2
    refine ⟨⟨.address, v, s⟩ :: os, ?_, .cons ⟨rfl, hw⟩ hf⟩
    simp only [Payment.outputs, AddressOutput.create, hs, hos]

/-- In range, without PUSHDATA and without a script that the classifier raises on: it can be serialised and parsed. -/
def Serialisable (t : Transaction) : Prop := t.InRange ∧ ¬ t.HasPushData ∧ ¬ t.Trips

theorem payToKey_encodable {s : Script} {h : Bytes} (hl : h.length = 20) (hw : s.wires = Ref.payToKey h) :
    s.Encodable ∧ ¬ s.HasPushData ∧ ¬ s.Trips := by
  refine ⟨⟨_, hw ▸ payToKey_encodes h hl, ?_⟩, ?_, ?_⟩
  · simp [hl]
  · unfold Script.HasPushData
    rw [hw]
    exact payToKey_noPushData h hl
  · unfold Script.Trips
    rw [hw]
    exact payToKey_fine h hl

/-- An output that can be serialised and parsed. -/
def Output.Fine (o : Output) : Prop := o.InRange ∧ ¬ o.script.HasPushData ∧ ¬ o.script.Trips

theorem new_serialisable (H : Hashes) (cs : List Coin) (os : List Output) (hc : cs ≠ []) (hco : ∀ c ∈ cs, c.Ok)
    (ho0 : os ≠ []) (ho : ∀ o ∈ os, o.Fine) (hcl : cs.length < 2 ^ 63) (hpl : os.length < 2 ^ 63) :
    ∃ xs, Payment.inputs H cs = .ok xs ∧ Transaction.new (xs.map some) (os.map some) = .ok ⟨xs, os, 0, 1⟩ ∧
      Serialisable ⟨xs, os, 0, 1⟩ ∧ List.Forall₂ (fun c x => ∃ b h a, Fresh H c x b h a) cs xs := by
  obtain ⟨xs, hxs, hfx⟩ := inputs_fresh H cs hco
  have hx0 : xs ≠ [] := by rintro rfl; cases hfx; exact hc rfl
  have hx : ∀ x ∈ xs, x.InRange ∧ ¬ x.script.HasPushData ∧ ¬ x.script.Trips := by
    intro x hx
    obtain ⟨c, hcm, b, h, a, f⟩ := forall₂_mem_left hfx.flip hx
    obtain ⟨h1, h2, _⟩ := hco c hcm
    obtain ⟨e1, e2, e3⟩ := payToKey_encodable f.keyHash.length f.wires
    exact ⟨⟨f.id ▸ h1, f.index ▸ h2, e1, by rw [f.seq]; decide⟩, e2, e3⟩
  have hn : Transaction.new (xs.map some) (os.map some) = .ok ⟨xs, os, 0, 1⟩ :=
    (C33_accepts_iff _ _ _ _ _).2 ⟨⟨by simpa using hx0, rfl⟩, ⟨by simpa using ho0, rfl⟩, by decide, rfl, rfl⟩
  refine ⟨xs, hxs, hn, ⟨⟨C33_invariant _ (.inl ⟨_, _, _, _, hn⟩), ⟨by show (0:Int) ≤ 1; decide, by show (1:Int) < 2 ^ 32; decide⟩,
    fun x h => (hx x h).1, fun o h => (ho o h).1, ?_, hpl⟩, ?_, ?_⟩, hfx⟩
  · exact hfx.length_eq ▸ hcl
  · rintro (⟨x, h, h'⟩ | ⟨o, h, h'⟩)
    · exact (hx x h).2.1 h'
    · exact (ho o h).2.1 h'
  · rintro (⟨x, h, h'⟩ | ⟨o, h, h'⟩)
    · exact (hx x h).2.2 h'
    · exact (ho o h).2.2 h'

theorem build_serialisable (H : Hashes) (cs : List Coin) (ps : List (Int × Address)) (hc : cs ≠ []) (hco : ∀ c ∈ cs, c.Ok)
    (hp : ps ≠ []) (hpo : ∀ p ∈ ps, PayOk p) (hcl : cs.length < 2 ^ 63) (hpl : ps.length < 2 ^ 63) :
    ∃ xs os, Payment.inputs H cs = .ok xs ∧ Transaction.new (xs.map some) (os.map some) = .ok ⟨xs, os, 0, 1⟩ ∧
      Payment.build H cs ps = .ok ⟨xs, os, 0, 1⟩ ∧ os ≠ [] ∧ os.length < 2 ^ 63 ∧ (∀ o ∈ os, o.Fine) ∧
      Serialisable ⟨xs, os, 0, 1⟩ ∧ List.Forall₂ (fun c x => ∃ b h a, Fresh H c x b h a) cs xs ∧
      List.Forall₂ (fun (p : Int × Address) (o : Output) => o.amount = p.1 ∧ o.script.wires = Ref.payToKey p.2.phash) ps os := by
  obtain ⟨os, hos, hfo⟩ := outputs_made ps hpo
  have ho0 : os ≠ [] := by rintro rfl; cases hfo; exact hp rfl
  have ho : ∀ o ∈ os, o.Fine := by
    intro o ho
    obtain ⟨p, hpm, f1, f2⟩ := forall₂_mem_left hfo.flip ho
    obtain ⟨h1, h2⟩ := hpo p hpm
    obtain ⟨e1, e2, e3⟩ := payToKey_encodable h2 f2
    exact ⟨⟨f1 ▸ h1, e1⟩, e2, e3⟩
  obtain ⟨xs, hxs, hn, hser, hfx⟩ := new_serialisable H cs os hc hco ho0 ho hcl (hfo.length_eq ▸ hpl)
  exact ⟨xs, os, hxs, hn, by simp only [Payment.build, hxs, hos, hn], ho0, hfo.length_eq ▸ hpl, ho, hser, hfx, hfo⟩

/-- Serialising and parsing. -/
theorem serialisable_trip {t : Transaction} (h : Serialisable t) : ∃ w, t.Shows w ∧ w.Fits ∧ t.toBytes = .ok w.bytes ∧
    t.toHex = .ok (hexText w.bytes) ∧ ∃ u, Transaction.fromBytes w.bytes = .ok u ∧ Transaction.fromHex (hexText w.bytes) = .ok u ∧
      u.eq t = true ∧ u.toHex = .ok (hexText w.bytes) := by
  obtain ⟨hr, hp, ht⟩ := h
  obtain ⟨w, hw, hf, hb, hh⟩ := C34_format t hr hp
  refine ⟨w, hw, hf, hb, hh, ?_⟩
  obtain ⟨b, hb', hall⟩ := C34_roundtrip_partial t hr hp
  rw [hb] at hb'
  cases hb'
  have := hall []
  rw [List.append_nil] at this
  obtain ⟨_, u, _, hue, hub, _⟩ | ⟨h, _⟩ := this
  · refine ⟨u, hub, by rw [(C34_hex w.bytes .generic).1, hub], hue, ?_⟩
    have := C35_congr u t (C36_reserialise_partial _ _ hub).1 hr hue
    unfold Transaction.toHex at hh ⊢
    rw [this]
    exact hh
  · exact absurd h ht

theorem shows_pays {ps : List (Int × Address)} {os : List Output} {ws : List WireOut}
    (h : List.Forall₂ (fun (p : Int × Address) (o : Output) => o.amount = p.1 ∧ o.script.wires = Ref.payToKey p.2.phash) ps os)
    (hp : ∀ p ∈ ps, PayOk p) (hs : List.Forall₂ Output.Shows os ws) : List.Forall₂ Pays ps ws := by
  induction h generalizing ws with
  | nil => cases hs; exact .nil
  | @cons p o ps os h1 _ ih =>
    obtain _ | ⟨g, gs⟩ := hs
    refine .cons ⟨h1.1 ▸ g.1, ?_⟩ (ih (fun p h => hp p (List.mem_cons_of_mem _ h)) gs)
    exact encodes_unique (h1.2 ▸ g.2) (payToKey_encodes _ (hp p List.mem_cons_self).2)

/-- C92. Building the transaction of the examples never fails, its bytes are those of the transaction that was asked for,
and they parse back to an equal transaction with the same hexadecimal text. -/
theorem C92_build (H : Hashes) (cs : List Coin) (ps : List (Int × Address)) (hc : cs ≠ []) (hco : ∀ c ∈ cs, c.Ok)
    (hp : ps ≠ []) (hpo : ∀ p ∈ ps, PayOk p) (hcl : cs.length < 2 ^ 63) (hpl : ps.length < 2 ^ 63) :
    ∃ (t : Transaction) (w : WireTx), Payment.build H cs ps = .ok t ∧ w.version = 1 ∧ w.lockTime = 0 ∧
      List.Forall₂ (fun c x => c.Spent x ∧ ∃ b h, KeyHash H c.key b h ∧ x.script = payScript h) cs w.inputs ∧
      List.Forall₂ Pays ps w.outputs ∧ t.toBytes = .ok w.bytes ∧ t.toHex = .ok (hexText w.bytes) ∧
      ∃ u, Transaction.fromBytes w.bytes = .ok u ∧ u.eq t = true ∧ u.toHex = .ok (hexText w.bytes) := by
  obtain ⟨xs, os, -, -, ht, -, -, -, hn, hx, ho⟩ := build_serialisable H cs ps hc hco hp hpo hcl hpl
  obtain ⟨w, ⟨w1, w2, w3, w4⟩, hf, hb, hh, u, hu, _, hue, huh⟩ := serialisable_trip hn
  simp only at w1 w2 w3 w4
  refine ⟨_, w, ht, by omega, by omega, ?_, shows_pays ho hpo w3, hb, hh, u, hu, hue, huh⟩
  clear ht hn ho hc hcl hb hh hue hf hu huh
  generalize w.inputs = ws at w2
  induction hx generalizing ws with
  | nil => cases w2; exact .nil
  | @cons c x cs xs h1 _ ih =>
    obtain _ | ⟨g, gs⟩ := w2
    obtain ⟨b, h, a, f⟩ := h1
    refine .cons ⟨⟨f.id ▸ g.1, f.index ▸ g.2.1, ?_⟩, b, h, f.keyHash, ?_⟩ (ih (fun c h => hco c (List.mem_cons_of_mem _ h)) _ gs)
    · have := g.2.2.2
      rw [f.seq] at this
      exact_mod_cast this.symm
    · exact encodes_unique (f.wires ▸ g.2.2.1) (payToKey_encodes _ f.keyHash.length)

theorem wires_push {s : Script} {sb pb : Bytes} (hw : s.wires = [pushOf sb, pushOf pb]) (h1 : 1 ≤ sb.length) (h2 : sb.length ≤ 75)
    (h3 : 1 ≤ pb.length) (h4 : pb.length ≤ 75) :
    Encodes s.wires (shortPush sb ++ shortPush pb) ∧ s.Encodable ∧ ¬ s.HasPushData ∧ ¬ s.Trips := by
  have he : Encodes s.wires (shortPush sb ++ shortPush pb) := by
    rw [hw, ← List.append_nil (shortPush pb)]
    exact .cons (Ref.pushOf_wf sb (by omega)) (pushOf_isWire sb h1 h2)
      (.cons (Ref.pushOf_wf pb (by omega)) (pushOf_isWire pb h3 h4) .nil)
  refine ⟨he, ⟨_, he, by simp [shortPush]; omega⟩, ?_, ?_⟩
  · rintro ⟨w, hm, h⟩
    rw [hw] at hm
    obtain ⟨_, _, _, e1, _⟩ := Ref.pushOf_op sb h1
    obtain ⟨_, _, _, e2, _⟩ := Ref.pushOf_op pb h3
    have e1 := e1 h2
    have e2 := e2 h4
    rcases List.mem_cons.1 hm with rfl | hm
    · omega
    · rw [List.mem_singleton.1 hm] at h
      omega
  · rintro ⟨h, _⟩
    rw [hw] at h
    exact absurd h (by simp [shape])

/-- Signing keeps the transaction serialisable if the new script is. -/
theorem sign_keeps {H : Hashes} {S : Signer} {t u : Transaction} {ks : List PrivateKey} {n : Nat} {st : Int} {y : Input}
    (ht : Serialisable t) (h : t.sign H S ks n st = .ok u) (hy : u.inputs[n]? = some y)
    (hf : y.script.Encodable ∧ ¬ y.script.HasPushData ∧ ¬ y.script.Trips) : Serialisable u := by
  obtain ⟨a1, a2, a3, a4, a5, a6⟩ := C37_frame H _ t u ks n st h
  obtain ⟨x, y', _, hx, hy', _, _, e1, e2, e3, e4⟩ := a6 n rfl
  rw [hy] at hy'
  cases hy'
  obtain ⟨f2, f3, f4⟩ := hf
  obtain ⟨⟨_, g1, g2, g3, g4, g5⟩, b2, b3⟩ := ht
  have hmem : ∀ z ∈ u.inputs, z = y ∨ z ∈ t.inputs := by
    intro z hz
    obtain ⟨m, hm⟩ := List.mem_iff_getElem?.1 hz
    by_cases hmn : m = n
    · subst hmn
      rw [hy] at hm
      cases hm
      exact .inl rfl
    · rw [a5 m (by omega)] at hm
      exact .inr (List.mem_of_getElem? hm)
  have hxm := List.mem_of_getElem? hx
  refine ⟨⟨C33_invariant u (.inr (.inr (.inr (.inr ⟨_, _, _, _, _, _, h⟩)))), a1 ▸ g1, ?_, a3 ▸ g3, a4 ▸ g4, a3 ▸ g5⟩, ?_, ?_⟩
  · intro z hz
    rcases hmem z hz with rfl | hz
    · exact ⟨e1 ▸ (g2 x hxm).1, e2 ▸ (g2 x hxm).2.1, f2, e3 ▸ (g2 x hxm).2.2.2⟩
    · exact g2 z hz
  · rintro (⟨z, hz, hz'⟩ | ho)
    · rcases hmem z hz with rfl | hz
      · exact f3 hz'
      · exact b2 (.inl ⟨z, hz, hz'⟩)
    · exact b2 (.inr (a3 ▸ ho))
  · rintro (⟨z, hz, hz'⟩ | ho)
    · rcases hmem z hz with rfl | hz
      · exact f4 hz'
      · exact b3 (.inl ⟨z, hz, hz'⟩)
    · exact b3 (.inr (a3 ▸ ho))

/-- The DER of a number below `256 ^ k / 2` has at most `k` bytes. -/
theorem derOf_short {n : Int} {b : Bytes} (h : DerOf n b) (k : Nat) (hk : 0 < k) (hn : 2 * n < 256 ^ k) : b.length ≤ k := by
  obtain ⟨h0, _, hm⟩ := h
  obtain ⟨m, rfl⟩ : ∃ m : Nat, n = m := ⟨n.toNat, by omega⟩
  have hn' : 2 * m < 256 ^ k := by exact_mod_cast hn
  have hl := encodeInt_length (m : Int) true k
  have hv : beValue (encodeInt (m : Int) true (some k)) = m := by
    rw [beValue_encodeInt, Int.toNat_natCast, Nat.mod_eq_of_lt (by omega)]
  have := hm (encodeInt (m : Int) true (some k)) ((twosComplement_nonneg h0).2
    ⟨fun e => by rw [e] at hl; simp at hl; omega, by rw [hv], by rw [hv, hl]; exact hn'⟩)
  rwa [hl] at this

/-- The signatures that `sign` makes have at most 72 bytes with the type of the hash, since `s` is small. -/
theorem signsDigest_length {Q : SecpGroup} {m : Bytes} {st : Nat} {b : Bytes} (h : SignsDigest Q m st b) :
    9 ≤ b.length ∧ b.length ≤ 72 := by
  refine ⟨(signsDigest_head h).1, ?_⟩
  obtain ⟨_, sig, r, s, t, rfl, _, ⟨rc, sc, rb, sb, h1, h2, ⟨_, _, rfl⟩, ⟨_, _, rfl⟩, ⟨_, _, rfl⟩⟩, ⟨v1, v2, v3, v4, _⟩, hs⟩ := h
  have e : (256 : Int) ^ 33 = 256 * 256 ^ 32 := by norm_num
  have hN := secpN_lt
  have l1 := derOf_short h1 33 (by norm_num) (by rw [e]; omega)
  have l2 := derOf_short h2 32 (by norm_num) (by omega)
  simp only [List.length_append, List.length_cons, List.length_nil]
  omega

/-- Signing an AddressInput with one key keeps the transaction serialisable. -/
theorem sign_serialisable (H : Hashes) (nonces : Nat → Nat) (hν : NoncesOk nonces) (t u : Transaction) (k : PrivateKey)
    (hk : k.Good) (n : Nat) (x : Input) (ht : Serialisable t) (hx : t.inputs[n]? = some x) (hc : x.cls = .address)
    (h : t.sign H (keySigner nonces) [k] n = .ok u) :
    Serialisable u ∧ ∃ y sb pb p, u.inputs[n]? = some y ∧ y.cls = .generic ∧ y.script.wires = [pushOf sb, pushOf pb] ∧
      Encodes y.script.wires (shortPush sb ++ shortPush pb) ∧ k.toPublicKey = .ok p ∧ p.toBytes = .ok pb ∧
      9 ≤ sb.length ∧ sb.length ≤ 72 := by
  obtain ⟨w, y, sb, pb, ax, ay, hw, hy, _, hsig, rx, ry, hpt, hsec, ⟨p, hp, hpb⟩, hwires⟩ :=
    C74_address H nonces hν t u k hk n 1 x ht.1 hx hc h
  obtain ⟨_, y', _, _, hy', _, _, _, _, _, e4⟩ := (C37_frame H _ t u [k] n 1 h).2.2.2.2.2 n rfl
  rw [hy] at hy'
  cases hy'
  obtain ⟨h9, h73, _⟩ := signsDigest_head hsig
  have hlk : 33 ≤ pb.length ∧ pb.length ≤ 65 := by rcases sec_head hsec with h | h <;> omega
  obtain ⟨f1, f2⟩ := wires_push hwires (by omega) (by omega) (by omega) (by omega)
  exact ⟨sign_keeps ht h hy f2, y, sb, pb, p, hy, e4, hwires, f1, hp, hpb, signsDigest_length hsig⟩

theorem signs_trans {H : Hashes} {t u v : Transaction} (h : Signs H t u) (h' : Signs H u v) : Signs H t v := by
  induction h' with
  | refl => exact h
  | step _ a b c d ih => exact .step ih a b c d

/-- Signing all the inputs from the one at `n` on. -/
theorem sign_all (H : Hashes) (nonces : Nat → Nat → Nat) (hν : ∀ n, NoncesOk (nonces n)) :
    ∀ (ks : List PrivateKey) (n : Nat) (t : Transaction), Serialisable t → (∀ k ∈ ks, k.Good) →
      (∀ i, i < ks.length → ∃ x, t.inputs[n + i]? = some x ∧ x.cls = .address) →
      Payment.sign H (fun n => keySigner (nonces n)) n ks t = .error .rsZeroError ∨
      ∃ v, Payment.sign H (fun n => keySigner (nonces n)) n ks t = .ok v ∧ Serialisable v ∧ Signs H t v ∧
        ∀ i k, ks[i]? = some k → ∃ t' u, Serialisable t' ∧ t'.inputs[n + i]? = t.inputs[n + i]? ∧
          t'.sign H (keySigner (nonces (n + i))) [k] ((n + i : Nat) : Int) = .ok u ∧ Signs H u v
  | [], n, t, ht, _, _ => .inr ⟨t, rfl, ht, .refl t, by simp⟩
  | k :: ks, n, t, ht, hk, hx => by
    obtain ⟨x, hx0, hc⟩ := hx 0 (by simp)
    rw [Nat.add_zero] at hx0
    have hk0 := hk k List.mem_cons_self
    have hb : ¬ t.BlocksPayload n := by
      rintro (⟨x, h, h'⟩ | ho)
      · exact ht.2.1 (.inl ⟨x, List.mem_of_getElem? h, h'⟩)
      · exact ht.2.1 (.inr ho)
    rcases C74_address_succeeds H (nonces n) (hν n) t k hk0 n 1 (by decide) x ht.1 hx0 hc hb with ⟨u, hu⟩ | he
    · replace hu : t.sign H (keySigner (nonces n)) [k] n = .ok u := hu
      obtain ⟨hun, _⟩ := sign_serialisable H (nonces n) (hν n) t u k hk0 n x ht hx0 hc hu
      obtain ⟨_, _, _, _, a5, _⟩ := C37_frame H _ t u [k] n 1 hu
      have hs1 : Signs H t u := .step (.refl t) (by omega) hu (C74_signer _ (hν n)) (by simpa using hk0)
      have hsame : ∀ i, u.inputs[n + 1 + i]? = t.inputs[n + (i + 1)]? := by
        intro i
        rw [a5 _ (by omega), show n + 1 + i = n + (i + 1) by omega]
      rcases sign_all H nonces hν ks (n + 1) u hun (fun k h => hk k (List.mem_cons_of_mem _ h)) (fun i hi => by
          obtain ⟨x, h1, h2⟩ := hx (i + 1) (by simpa using hi)
          exact ⟨x, by rw [hsame]; exact h1, h2⟩) with he | ⟨v, hv, hvn, hvs, hall⟩
      · left
        simp only [Payment.sign, hu]
        exact he
      · refine .inr ⟨v, by simp only [Payment.sign, hu]; exact hv, hvn, signs_trans hs1 hvs, fun i k' hk' => ?_⟩
        cases i with
        | zero =>
          simp only [List.getElem?_cons_zero, Option.some.injEq] at hk'
          subst hk'
          exact ⟨t, u, ht, rfl, hu, hvs⟩
        | succ i =>
          obtain ⟨t', u', h1, h2, h3, h4⟩ := hall i k' (by simpa using hk')
          rw [hsame] at h2
          rw [show n + 1 + i = n + (i + 1) by omega] at h2 h3
          exact ⟨t', u', h1, h2, h3, h4⟩
    · left
      replace he : t.sign H (keySigner (nonces n)) [k] n = .error .rsZeroError := he
      simp only [Payment.sign, he]

/-- C92. The transfers of the README, of any coins and to any outputs that can be serialised and parsed, come to a signed
transaction, unless a nonce makes `r` or `s` zero: its text is that of the transaction that was asked for, parses back to a
transaction with the same text, has in each input a signature and the public key of the coin, and the reference client
accepts each input as spending an output of the address of the key, whatever the verification flags (but for a signature
that equals the hash of the key). -/
theorem C92_transfer (H : Hashes) (nonces : Nat → Nat → Nat) (hν : ∀ n, NoncesOk (nonces n)) (cs : List Coin)
    (os : List Output) (hc : cs ≠ []) (hco : ∀ c ∈ cs, c.Ok) (hp : os ≠ []) (hpo : ∀ o ∈ os, o.Fine)
    (hcl : cs.length < 2 ^ 63) (hpl : os.length < 2 ^ 63) :
    Payment.transfer H (fun n => keySigner (nonces n)) cs os = .error .rsZeroError ∨
    ∃ w : WireTx, Payment.transfer H (fun n => keySigner (nonces n)) cs os = .ok (hexText w.bytes) ∧ w.version = 1 ∧
      w.lockTime = 0 ∧ List.Forall₂ Coin.Spent cs w.inputs ∧ List.Forall₂ Output.Shows os w.outputs ∧
      (∃ u, Transaction.fromHex (hexText w.bytes) = .ok u ∧ u.toHex = .ok (hexText w.bytes)) ∧
      ∀ (n : Nat) (c : Coin) (x : WireIn), cs[n]? = some c → w.inputs[n]? = some x → ∃ sb b h, KeyHash H c.key b h ∧
        x.script = shortPush sb ++ shortPush b ∧ (9 ≤ sb.length ∧ sb.length ≤ 72) ∧
        (sb ≠ h → ∀ flags, Ref.Spends H flags w n (payScript h)) := by
  obtain ⟨xs, hxs, hnew, hn, hx⟩ := new_serialisable H cs os hc hco hp hpo hcl hpl
  have hfresh : ∀ (n : Nat) (c : Coin), cs[n]? = some c → ∃ x b h a, xs[n]? = some x ∧ Fresh H c x b h a := by
    intro n c hcn
    obtain ⟨hlt, rfl⟩ := List.getElem?_eq_some_iff.1 hcn
    have hlt' : n < xs.length := hx.length_eq ▸ hlt
    obtain ⟨b, h, a, f⟩ := (List.forall₂_iff_get.1 hx).2 n hlt hlt'
    exact ⟨_, b, h, a, List.getElem?_eq_getElem hlt', f⟩
  rcases sign_all H nonces hν (cs.map Coin.key) 0 _ hn (by
      intro k hk
      obtain ⟨c, hcm, rfl⟩ := List.mem_map.1 hk
      exact (hco c hcm).2.2) (by
      intro i hi
      rw [List.length_map] at hi
      obtain ⟨x, b, h, a, hx, f⟩ := hfresh i _ (List.getElem?_eq_getElem hi)
      exact ⟨x, by rw [Nat.zero_add]; exact hx, f.cls⟩) with he | ⟨v, hsv, hvn, hsg, hall⟩
  · left
    simp only [Payment.transfer, hxs, hnew, he]
  · right
    obtain ⟨w, hw, hf, hb, hh, u, _, hu, _, huh⟩ := serialisable_trip hvn
    obtain ⟨a1, a2, a3, a4, a5⟩ := signs_inputs hsg
    simp only at a1 a2 a3 a4 a5
    refine ⟨w, by simp only [Payment.transfer, hxs, hnew, hsv]; exact hh, by have := hw.1; omega, by have := hw.2.2.2; omega, ?_,
      a3 ▸ hw.2.2.1, ⟨u, hu, huh⟩, ?_⟩
    · rw [List.forall₂_iff_get]
      refine ⟨by rw [hx.length_eq, ← a4, hw.2.1.length_eq], fun n h1 h2 => ?_⟩
      obtain ⟨x, b, h, a, hxn, f⟩ := hfresh n _ (List.getElem?_eq_getElem h1)
      obtain ⟨y, hy, hxy⟩ := a5 n x hxn
      obtain ⟨yw, hyw, hs⟩ := shows_get hw.2.1 hy
      rw [List.getElem?_eq_getElem h2] at hyw
      cases hyw
      have hsame : y.txId = x.txId ∧ y.txoIndex = x.txoIndex ∧ y.seqNumber = x.seqNumber := by
        rcases hxy with rfl | ⟨_, _, _, _, _, _, hs⟩
        · exact ⟨rfl, rfl, rfl⟩
        · rw [(input_sign_ok hs).2]
          exact ⟨rfl, rfl, rfl⟩
      obtain ⟨s1, s2, s3, s4⟩ := hs
      rw [hsame.1, f.id] at s1
      rw [hsame.2.1, f.index] at s2
      rw [hsame.2.2, f.seq] at s4
      exact ⟨s1, s2, by exact_mod_cast s4.symm⟩
    · intro n c xw hcn hxw
      obtain ⟨x, b, h, a, hxn, f⟩ := hfresh n c hcn
      obtain ⟨t', u', h1, h2, h3, h4⟩ := hall n c.key (by rw [List.getElem?_map, hcn]; rfl)
      rw [Nat.zero_add] at h2 h3
      rw [hxn] at h2
      have hk := (hco c (List.mem_of_getElem? hcn)).2.2
      obtain ⟨_, y, sb, pb, p, hy, hyc, hyw, hye, hp, hpb, hlen⟩ :=
        sign_serialisable H _ (hν n) t' u' c.key hk n x h1 h2 f.cls h3
      have hkh : KeyHash H c.key pb h := by
        obtain ⟨p', hp', hb', e⟩ := f.keyHash
        rw [hp] at hp'
        cases hp'
        rw [hpb] at hb'
        cases hb'
        exact ⟨p, hp, hpb, e⟩
      obtain ⟨yw, hyw', hys⟩ := shows_get hw.2.1 (signs_generic h4 hy hyc)
      rw [hxw] at hyw'
      cases hyw'
      refine ⟨sb, pb, h, hkh, encodes_unique hys.2.2.1 hye, hlen, fun hne flags => ?_⟩
      have := C83_address H _ (hν n) t' u' v c.key hk n c.txId c.index _ a x (f.hash ▸ hkh.length) f.create f.can h1.1 h2 h3
        (fun z hz => by
          rw [hy] at hz
          cases hz
          rw [hyw, f.hash]
          exact fun e => hne (pushOf_inj (Option.some.inj e))) h4 w hw flags
      rw [f.hash] at this
      exact this

/-- C92. The payment of the examples, of any coins and to any addresses, comes to a signed transaction, unless a nonce
makes `r` or `s` zero: its text is that of the transaction that was asked for, parses back to a transaction with the same
text, has in each input a signature and the public key of the coin, and the reference client accepts each input as
spending an output of the address of the key, whatever the verification flags (but for a signature that equals the hash
of the key). -/
theorem C92_run (H : Hashes) (nonces : Nat → Nat → Nat) (hν : ∀ n, NoncesOk (nonces n)) (cs : List Coin)
    (ps : List (Int × Address)) (hc : cs ≠ []) (hco : ∀ c ∈ cs, c.Ok) (hp : ps ≠ []) (hpo : ∀ p ∈ ps, PayOk p)
    (hcl : cs.length < 2 ^ 63) (hpl : ps.length < 2 ^ 63) :
    Payment.run H (fun n => keySigner (nonces n)) cs ps = .error .rsZeroError ∨
    ∃ w : WireTx, Payment.run H (fun n => keySigner (nonces n)) cs ps = .ok (hexText w.bytes) ∧ w.version = 1 ∧ w.lockTime = 0 ∧
      List.Forall₂ Coin.Spent cs w.inputs ∧ List.Forall₂ Pays ps w.outputs ∧
      (∃ u, Transaction.fromHex (hexText w.bytes) = .ok u ∧ u.toHex = .ok (hexText w.bytes)) ∧
      ∀ (n : Nat) (c : Coin) (x : WireIn), cs[n]? = some c → w.inputs[n]? = some x → ∃ sb b h, KeyHash H c.key b h ∧
        x.script = shortPush sb ++ shortPush b ∧ (9 ≤ sb.length ∧ sb.length ≤ 72) ∧
        (sb ≠ h → ∀ flags, Ref.Spends H flags w n (payScript h)) := by
  obtain ⟨xs, os, hxs, hnew, ht, ho0, hol, hof, _, _, ho⟩ := build_serialisable H cs ps hc hco hp hpo hcl hpl
  have e : Payment.run H (fun n => keySigner (nonces n)) cs ps = Payment.transfer H (fun n => keySigner (nonces n)) cs os := by
    simp only [Payment.run, Payment.transfer, ht, hxs, hnew]
  rw [e]
  rcases C92_transfer H nonces hν cs os hc hco ho0 hof hcl hol with h | ⟨w, h1, h2, h3, h4, h5, h6⟩
  · exact .inl h
  · exact .inr ⟨w, h1, h2, h3, h4, shows_pays ho hpo h5, h6⟩

/-- Two coins of different keys and a payment meet the hypotheses, and the transaction is built. -/
def sampleCoins : List Coin := [⟨List.replicate 64 'a', 0, ⟨1, .testnet, true⟩⟩, ⟨List.replicate 64 '7', 3, ⟨2, .testnet, false⟩⟩]

example : sampleCoins ≠ [] ∧ (∀ c ∈ sampleCoins, c.Ok) ∧ PayOk (10000, ⟨List.replicate 20 9, .testnet, .publicKey⟩) ∧
    NoncesOk (fun _ => 5) := by
  refine ⟨by simp [sampleCoins], ?_, ⟨by decide, rfl⟩, fun _ => ⟨by show 1 ≤ 5; decide, by show 5 < secpN; decide⟩⟩
  have hid : ∀ c : Char, c ∈ "0123456789abcdef".toList → TxIdOk (List.replicate 64 c) := fun c hc =>
    ⟨List.length_replicate, fun d hd => by rw [List.eq_of_mem_replicate hd]; exact hc⟩
  intro c hc
  rcases List.mem_cons.1 hc with rfl | hc
  · exact ⟨hid 'a' (by decide), ⟨by decide, by decide⟩, ⟨by decide, by decide⟩⟩
  · rw [List.mem_singleton.1 hc]
    exact ⟨hid '7' (by decide), ⟨by decide, by decide⟩, ⟨by decide, by decide⟩⟩

end Bitforge
