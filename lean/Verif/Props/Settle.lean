import Verif.Props.OneThing
import Verif.Props.UriText

/-! # C135: what is read, written and read again is the same -/

namespace Bitforge.Settle
open Spec Txs Scripts

/-! ## Scripts -/

theorem read_wires {k : Kind} {ws : List WireInstr} {s : Script} (h : Classified (ws.map (instruction k)) (.ok s)) :
    s.instructions = ws.map (instruction k) ∧ s.wires = ws := by
  cases h with
  | script h =>
    refine ⟨rfl, ?_⟩
    show (ws.map (instruction k)).map Instruction.wire = ws
    rw [List.map_map]
    conv_rhs => rw [← List.map_id ws]
    refine List.map_congr_left fun w _ => ?_
    obtain ⟨op, d⟩ := w
    cases d <;> rfl

/-- C135. A script in bytes: what is written is what was read. -/
theorem C135_script_bytes (b b' : Bytes) (s : Script) (h : Script.fromBytes b = .ok s) (h' : s.toBytes = .ok b') : b' = b := by
  cases (C129_bytes b _).1 h with
  | script he hc =>
    rw [script_toBytes s b (by rw [(read_wires hc).2]; exact he)] at h'
    split at h'
    · cases h'
    · exact (Except.ok.inj h').symm

theorem name_named {name : Text} {op : Byte} (h : NameOf name op) : Named op := by
  obtain ⟨s, hs, -, h⟩ := h
  have all : ∀ p ∈ opcodeNames, p.1 ∉ forbiddenNames → ∀ hp : p.2 < 256, Named ⟨p.2, hp⟩ := by decide +kernel
  exact all _ h hs op.isLt

theorem spelled_facts {toks : List Text} {ws : List WireInstr} (h : Spelled toks ws) :
    (toks ≠ [] → ws ≠ []) ∧ ∀ w ∈ ws, Wf w ∧ Named w.1 := by
  induction h with
  | nil => exact ⟨fun h => absurd rfl h, by simp⟩
  | @cons _ i _ _ hw _ ih =>
    refine ⟨fun _ => by simp, ?_⟩
    intro w hm
    rcases List.mem_cons.1 hm with rfl | hm
    · cases hw with
      | plain hn hk => exact ⟨by simp only [Wf, hk], name_named hn⟩
      | @direct _ _ op b hk _ _ =>
        refine ⟨by simp only [Wf, hk], ?_⟩
        have : op.val ≤ 75 := by
          revert hk; unfold pushKind; split_ifs <;> (simp; try omega)
        exact .inl (show op.val ≤ 97 by omega)
      | counted hn hk hl _ _ => exact ⟨by simp only [Wf, hk]; exact hl, name_named hn⟩
    · exact ih.2 w hm

/-- C135. A script in words: it can be written, and the words that are written are read as the same script. -/
theorem C135_script_text (t : Text) (s : Script) (h : Script.fromText t = .ok s) :
    ∃ t', s.toText = .ok t' ∧ Script.fromText t' = .ok s := by
  cases (C129_text t _).1 h with
  | @script toks ws _ h1 h2 h3 hs hc =>
    obtain ⟨hi, hw⟩ := read_wires hc
    obtain ⟨f1, f2⟩ := spelled_facts hs
    have hmem : ∀ i ∈ s.instructions, Wf i.wire ∧ Named i.opcode.number := fun i hi' =>
      f2 i.wire (by rw [← hw]; exact List.mem_map_of_mem hi')
    obtain ⟨t', ht', ⟨-, s', hs', he⟩ | ⟨hcr, -⟩⟩ := C31_roundtrip_partial s (fun i hi => (hmem i hi).1)
      (by rw [hi]; simpa using f1 h2) fun i hi => (hmem i hi).2
    · refine ⟨t', ht', ?_⟩
      rw [hs']
      cases (C129_text t' _).1 hs' with
      | @script _ ws' _ _ _ _ _ hc' =>
        obtain ⟨-, hw'⟩ := read_wires hc'
        have : ws' = ws := by
          rw [← hw, ← hw']
          exact (eq_iff_wire _ _).1 he
        subst this
        exact (C129_create _ _).2 hc' ▸ (C129_create _ _).2 hc
    · exfalso
      have hcr' := (C129_create _ _).2 hc
      rw [← hi] at hcr'
      unfold Script.create at hcr'
      rcases classify_spec s.instructions with ⟨-, he⟩ | ⟨hn, -⟩
      · rw [he] at hcr'; cases hcr'
      · exact hn hcr

/-! ## Inputs, outputs and transactions -/

theorem in_form {w : WireIn} (h : w.Fits) : w.Form w.bytes := ⟨_, countForm_compact _ h.2.2.1, rfl⟩

theorem out_form {w : WireOut} (h : w.Fits) : w.Form w.bytes := ⟨_, countForm_compact _ h.2, rfl⟩

theorem listed_bytes {β : Type} {R : β → Bytes → Prop} {f : β → Bytes} : ∀ {l : List β}, (∀ y ∈ l, R y (f y)) →
    Listed R l (l.map f).flatten
  | [], _ => .nil
  | y :: l, h => .cons (h y (by simp)) (listed_bytes fun z hz => h z (by simp [hz]))

theorem tx_form {w : WireTx} (h : w.Fits) : w.Form w.bytes := by
  obtain ⟨-, -, h1, h2, h3, h4⟩ := h
  exact ⟨_, _, _, _, countForm_compact _ (by omega), listed_bytes fun i hi => in_form (h1 i hi), countForm_compact _ (by omega),
    listed_bytes fun o ho => out_form (h2 o ho), by simp [WireTx.bytes]⟩

/-- C135. An input. -/
theorem C135_input (cls : InputClass) (b b' : Bytes) (i : Input) (h : Input.fromBytes b cls = .ok i) (h' : i.toBytes = .ok b') :
    Input.fromBytes b' cls = .ok i := by
  unfold Input.fromBytes at h
  rcases hm : Input.fromBuffer cls b with ⟨r, s⟩
  rw [hm] at h
  simp only at h
  subst h
  obtain ⟨w, p, rfl, hs, ⟨hw, hl⟩, hf⟩ := input_form_ok hm
  obtain ⟨sc, hsc⟩ := script_of hl
  have e := input_at (cls := cls) hw hf (.mk hsc) s
  rw [hm] at e
  obtain rfl := Except.ok.inj (congrArg Prod.fst e)
  rw [input_toBytes _ w hs] at h'
  split at h'
  · cases h'
  · obtain rfl := Except.ok.inj h'
    have := input_at (cls := cls) hw (in_form hw) (.mk hsc) []
    rw [List.append_nil] at this
    unfold Input.fromBytes
    rw [this]

/-- C135. An output. -/
theorem C135_output (b b' : Bytes) (o : Output) (h : Output.fromBytes b = .ok o) (h' : o.toBytes = .ok b') :
    Output.fromBytes b' = .ok o := by
  unfold Output.fromBytes at h
  rcases hm : Output.fromBuffer b with ⟨r, s⟩
  rw [hm] at h
  simp only at h
  subst h
  obtain ⟨w, p, rfl, hs, ⟨hw, hl⟩, hf⟩ := output_form_ok hm
  obtain ⟨sc, hsc⟩ := script_of hl
  obtain ⟨c, hc⟩ := paid_total sc.cls
  have e := output_at hw hf (.mk hsc hc) s
  rw [hm] at e
  obtain rfl := Except.ok.inj (congrArg Prod.fst e)
  rw [output_toBytes _ w hs] at h'
  split at h'
  · cases h'
  · obtain rfl := Except.ok.inj h'
    have := output_at hw (out_form hw) (.mk hsc hc) []
    rw [List.append_nil] at this
    unfold Output.fromBytes
    rw [this]

/-- C135. A transaction, however its counts were written and whatever followed it: what is written is read as the very same
transaction, and nothing is left over. -/
theorem C135_transaction (b b' : Bytes) (t : Transaction) (h : Transaction.fromBytes b = .ok t) (h' : t.toBytes = .ok b') :
    Transaction.fromBytes b' = .ok t ∧ Transaction.fromBuffer b' = (.ok t, []) := by
  unfold Transaction.fromBytes at h
  rcases hm : Transaction.fromBuffer b with ⟨r, s⟩
  rw [hm] at h
  simp only at h
  subst h
  obtain ⟨w, p, rfl, hs, hw, hi, ho, hsi, hso, hf⟩ := tx_form_ok hm
  obtain ⟨is, his⟩ := all_read (V := ReadIn .generic) (xs := w.inputs) fun i hi => by
    obtain ⟨sc, hsc⟩ := script_of (hsi i hi)
    exact ⟨_, .mk hsc⟩
  obtain ⟨os, hos⟩ := all_read (V := ReadOut) (xs := w.outputs) fun o ho => by
    obtain ⟨sc, hsc⟩ := script_of (hso o ho)
    obtain ⟨c, hc⟩ := paid_total sc.cls
    exact ⟨_, .mk hsc hc⟩
  have e := tx_at hw hi ho hf his hos s
  rw [hm] at e
  obtain rfl := Except.ok.inj (congrArg Prod.fst e)
  rw [tx_toBytes _ w hs] at h'
  split at h'
  · cases h'
  · obtain rfl := Except.ok.inj h'
    have := tx_at hw hi ho (tx_form hw) his hos []
    rw [List.append_nil] at this
    exact ⟨by unfold Transaction.fromBytes; rw [this], this⟩

/-! ## Keys and addresses -/

/-- C135. Private keys and addresses can be written, as what was read. -/
theorem C135_keys (H : Hashes) : (∀ t k, PrivateKey.fromWif H t = .ok k → k.toWif H = .ok t) ∧
    (∀ b v c k, PrivateKey.fromBytes b v c = .ok k → k.toBytes = b) ∧
    (∀ b a, Address.fromBytes b = .ok a → a.toBytes = .ok b) ∧ (∀ t a, Address.fromString H t = .ok a → a.toString H = .ok t) :=
  ⟨C13_canonical H, fun b v c k h => (C14_canonical b v c k h).1, fun b a => (C16_canonical H b [] a).1,
    fun t a => (C16_canonical H [] t a).2⟩

/-- C135. A public key, whatever followed it and also if its coordinates are not below `p`: it can be written, and what is
written is read as the same key. -/
theorem C135_public (b : Bytes) (n : Network) (k : PublicKey) (h : PublicKey.fromBytes ⟨.str, b⟩ (.network n) = .ok k) :
    ∃ b', k.toBytes = .ok b' ∧ PublicKey.fromBytes ⟨.str, b'⟩ (.network n) = .ok k := by
  refine ⟨_, C19_prefix_partial b _ k h, ?_⟩
  rw [C118_public_bytes] at h ⊢
  cases h with
  | @long x y rest hx hy ho =>
    have : (4 :: (x ++ (y ++ rest))).take 65 = (4 : Byte) :: (x ++ (y ++ [])) := by
      rw [List.take_succ_cons, ← List.append_assoc, List.take_left' (by simp [hx, hy]), List.append_nil]
    show PublicOutcome n ((4 :: (x ++ (y ++ rest))).take 65) _
    rw [this]
    exact .long hx hy ho
  | @compressed v x rest y hv hx ho hr =>
    have : (v :: (x ++ rest)).take 33 = v :: (x ++ []) := by
      rw [List.take_succ_cons, List.take_left' hx, List.append_nil]
    show PublicOutcome n ((v :: (x ++ rest)).take 33) _
    rw [this]
    exact .compressed hv hx ho hr

/-! ## URIs -/

/-- C135 is false of URIs: 59 satoshis, read from a text, become 58 when the URI is written and read again, and 57 when that is
done once more. -/
theorem C135_uri_refuted :
    let u := (exampleAddress.toString Hashes.toy).bind fun a =>
      URI.new Hashes.toy (.text ("bitcoin:".toList ++ a ++ "?amount=0.000000595".toList))
    let amount := fun v : URI => v.amount.map BtcUnit.satoshis
    u.map amount = .ok (some 59) ∧ (u.bind (uriAgain Hashes.toy)).map amount = .ok (some 58) ∧
      ((u.bind (uriAgain Hashes.toy)).bind (uriAgain Hashes.toy)).map amount = .ok (some 57) := by
  decide +kernel

/-- Written and read again, this many times. -/
def again (H : Hashes) (u : URI) : Nat → Except Err URI
  | 0 => .ok u
  | n + 1 => (uriAgain H u).bind fun v => again H v n

/-- The same but for the amount. -/
def SameBut (u v : URI) : Prop :=
  v.address = u.address ∧ v.message = u.message ∧ v.label = u.label ∧ v.r = u.r ∧
    ∀ k, Dict.get? v.extras k = Dict.get? u.extras k

theorem SameBut.trans {u v w : URI} (h : SameBut u v) (h' : SameBut v w) : SameBut u w := by
  obtain ⟨a, b, c, d, e⟩ := h
  obtain ⟨a', b', c', d', e'⟩ := h'
  exact ⟨a'.trans a, b'.trans b, c'.trans c, d'.trans d, fun k => (e' k).trans (e k)⟩

open BtcUnit in
/-- One round, for an amount of at most 12 digits. -/
theorem again_once (H : Hashes) {u : URI} (h : OrdinaryUri u) {a : BtcUnit} (ha : u.amount = some a) (h0 : 0 ≤ a.satoshis)
    (h1 : a.satoshis < 10 ^ 12) :
    ∃ v a', uriAgain H u = .ok v ∧ SameBut u v ∧ OrdinaryUri v ∧ v.amount = some a' ∧ a.satoshis - 1 ≤ a'.satoshis ∧
      a'.satoshis ≤ a.satoshis ∧ 0 ≤ a'.satoshis ∧
      (a'.satoshis = a.satoshis → a' = a) ∧ ofBtc (.float a.btc) = .ok a' := by
  have hd : Decimal12 ((a.satoshis : ℚ) / 10 ^ 8) :=
    ⟨a.satoshis, -8, by rw [abs_of_nonneg h0]; exact h1, by rw [zpow_neg, div_eq_mul_inv]; norm_num⟩
  have hq : u.query ≠ [] := by
    intro e
    have := (query_get h).1
    rw [e, ha] at this
    cases this
  obtain ⟨t, v, ht, hv, e1, e2, e3, e4, e5, -, -⟩ := C60_roundtrip_partial H u h (.inl hq)
  obtain ⟨t', v', a', m, ht', hv', ha', -, b1, b2, -, b4⟩ := C60_amount_partial H u h a ha
  obtain rfl : t = t' := Except.ok.inj (ht.symm.trans ht')
  obtain rfl : v = v' := Except.ok.inj (hv.symm.trans hv')
  obtain rfl := b4 hd
  have b1 := b1 h0
  have hn : 0 ≤ a'.satoshis := by
    rcases lt_or_eq_of_le h0 with hp | hz
    · omega
    · have := b2 (by omega); omega
  have hr : Regular v := C86_regular H (.text t) (fun _ _ h => nomatch h) v hv
  have hbtc : ofBtc (.float a.btc) = .ok a' := by
    obtain ⟨_, w, hw1, hw, -, -, -, -, -, -, hw8⟩ := C60_roundtrip_partial H u h (.inl hq)
    obtain rfl : t = _ := Except.ok.inj (ht.symm.trans hw1)
    obtain rfl : v = w := Except.ok.inj (hv.symm.trans hw)
    obtain ⟨_, _, a'', -, g0, -, g, g'⟩ := hw8 a ha
    obtain rfl : a' = a'' := Option.some.inj (ha'.symm.trans g')
    rw [(g0 hd).2] at g
    exact g
  have hsame := ofBtc_again hbtc
  have hsame0 : ofSatoshis (.int a.satoshis) = .ok a := by
    obtain ⟨n, hn, hb⟩ := h.amount a ha
    obtain ⟨u', h1, h2⟩ := C59_satoshis_partial n (lt_of_le_of_lt hb (by decide +kernel))
    rw [hn] at h1
    obtain rfl := Except.ok.inj h1
    rw [h2]; exact hn
  refine ⟨v, a', by unfold uriAgain; rw [ht]; exact hv, ⟨e1, e2, e3, e4, e5⟩, ?_, ha', b1.1, b1.2, hn, fun e => ?_, hbtc⟩
  · refine ⟨by rw [e1]; exact h.address, hr.unique, ?_, by rw [e2]; exact h.message, by rw [e3]; exact h.label,
      by rw [e4]; exact h.r, ?_⟩
    · rintro ⟨k, x⟩ he
      have := Dict.get?_of_mem hr.unique he
      rw [e5] at this
      exact h.extras _ (Dict.get?_mem this)
    · intro c hc
      obtain rfl : a' = c := Option.some.inj (ha'.symm.trans hc)
      exact ⟨_, hsame, by rw [abs_of_nonneg hn]; omega⟩
  · rw [e, hsame0] at hsame
    exact (Except.ok.inj hsame).symm

open BtcUnit in
/-- An amount that is read as it is written stays. -/
theorem again_stays (H : Hashes) {a : BtcUnit} (h0 : 0 ≤ a.satoshis) (h1 : a.satoshis < 10 ^ 12) (hb : ofBtc (.float a.btc) = .ok a) :
    ∀ (k : Nat) {u : URI} (_ : OrdinaryUri u) (_ : u.amount = some a), ∃ w, again H u k = .ok w ∧ SameBut u w ∧ w.amount = some a
  | 0, u, _, ha => ⟨u, rfl, ⟨rfl, rfl, rfl, rfl, fun _ => rfl⟩, ha⟩
  | k + 1, u, h, ha => by
    obtain ⟨v, a', hv, hs, ho, hva, -, -, -, -, g⟩ := again_once H h ha h0 h1
    obtain rfl : a' = a := Except.ok.inj (g.symm.trans hb)
    obtain ⟨w, hw, hs', hwa⟩ := again_stays H h0 h1 hb k ho hva
    exact ⟨w, by rw [again, hv]; exact hw, hs.trans hs', hwa⟩

/-- C135, partial: a URI with an amount below 10000 bitcoins settles after being written and read again some times, at most as
many as it has satoshis: then the amount stays.  It has lost at most a satoshi each time; everything else is the same from
the beginning.  Missing: that it is settled at once, see `C135_uri_refuted`. -/
theorem C135_uri_partial (H : Hashes) (u : URI) (h : OrdinaryUri u) (a : BtcUnit) (ha : u.amount = some a) (h0 : 0 ≤ a.satoshis)
    (h1 : a.satoshis < 10 ^ 12) :
    ∃ (n : Nat) (v : URI) (a' : BtcUnit), (n : Int) ≤ a.satoshis ∧ again H u n = .ok v ∧ SameBut u v ∧ v.amount = some a' ∧
      a'.satoshis = a.satoshis - n ∧ ∀ k, ∃ w, again H v k = .ok w ∧ SameBut v w ∧ w.amount = some a' := by
  induction hk : a.satoshis.toNat generalizing u a with
  | zero =>
    obtain ⟨v, a', hv, hs, -, hva, b1, b2, b3, b4, b5⟩ := again_once H h ha h0 h1
    obtain rfl : a' = a := b4 (by omega)
    exact ⟨0, u, a', by omega, rfl, ⟨rfl, rfl, rfl, rfl, fun _ => rfl⟩, ha, by simp, fun k => again_stays H h0 h1 b5 k h ha⟩
  | succ k ih =>
    obtain ⟨v, a', hv, hs, ho, hva, b1, b2, b3, b4, b5⟩ := again_once H h ha h0 h1
    by_cases e : a'.satoshis = a.satoshis
    · obtain rfl : a' = a := b4 e
      exact ⟨0, u, a', by omega, rfl, ⟨rfl, rfl, rfl, rfl, fun _ => rfl⟩, ha, by simp, fun k => again_stays H h0 h1 b5 k h ha⟩
    · obtain ⟨n, x, c, g1, g2, g3, g4, g5, g6⟩ := ih v ho a' hva b3 (by omega) (by omega)
      exact ⟨n + 1, x, c, by push_cast; omega, by rw [again, hv]; exact g2, hs.trans g3, g4, by push_cast; omega, g6⟩

/-! ## Examples -/

example : (Transaction.fromBytes One.mixed).toOption.any (fun t => decide (t.toBytes = .ok One.mixed)) = true := by decide +kernel

example : ((Script.fromText "OP_DUP 2 0xAB01".toList).toOption.any fun s =>
    decide (s.toText = .ok "OP_DUP 2 0xab01".toList)) = true := by decide +kernel

example : ∃ u a, OrdinaryUri u ∧ u.amount = some a ∧ a.satoshis = 59 := by
  obtain ⟨a, ha, hs⟩ := C59_satoshis_partial 59 (by decide +kernel)
  refine ⟨⟨exampleAddress, some a, none, none, none, []⟩, a, ⟨⟨_, _, _, by decide, rfl⟩, List.nodup_nil, by simp, ?_, ?_, ?_, ?_⟩,
    rfl, hs⟩
  · intro v hv; cases hv
  · intro v hv; cases hv
  · intro v hv; cases hv
  · intro b hb
    obtain rfl : a = b := Option.some.inj hb
    exact ⟨59, ha, by norm_num⟩

end Bitforge.Settle
