import Verif.Props.SignTx
import Verif.Proofs.Consensus

/-! # C83, C84, C85: the reference client accepts what is signed -/

namespace Bitforge
open Spec Transaction

/-! ## The digest does not depend on the scripts of the inputs -/

/-- What identifies an input, without its script. -/
def WireIn.core (x : WireIn) : Bytes × Nat × Nat := (x.txid, x.index, x.sequence)

/-- Transactions that differ in the input scripts only. -/
def SameCore (w w' : WireTx) : Prop := w.version = w'.version ∧ w.lockTime = w'.lockTime ∧ w.outputs = w'.outputs ∧
  w.inputs.map WireIn.core = w'.inputs.map WireIn.core

theorem sameCore_get {w w' : WireTx} (h : SameCore w w') (n : Nat) :
    w.inputs[n]?.map WireIn.core = w'.inputs[n]?.map WireIn.core := by
  rw [← List.getElem?_map, ← List.getElem?_map, h.2.2.2]

theorem core_map {a b : Option WireIn} (f : WireIn → WireIn) (hf : ∀ x y : WireIn, WireIn.core x = WireIn.core y → f x = f y)
    (h : a.map WireIn.core = b.map WireIn.core) : a.map f = b.map f := by
  cases a <;> cases b <;> simp at h ⊢
  exact hf _ _ h

theorem core_eq {x y : WireIn} (h : WireIn.core x = WireIn.core y) :
    x.txid = y.txid ∧ x.index = y.index ∧ x.sequence = y.sequence := by
  simp only [WireIn.core, Prod.mk.injEq] at h; exact h

theorem signatureHash_core (H : Hashes) {w w' : WireTx} (h : SameCore w w') (n : Nat) (code : Bytes) (ht : Nat) :
    Ref.signatureHash H w n code ht = Ref.signatureHash H w' n code ht := by
  have hlen : w.inputs.length = w'.inputs.length := by
    have := congrArg List.length h.2.2.2
    simpa using this
  have hin : Ref.hashInputs w n code ht = Ref.hashInputs w' n code ht := by
    unfold Ref.hashInputs
    split
    · rw [core_map (fun x => { x with script := code }) _ (sameCore_get h n)]
      intro x y e
      obtain ⟨e1, e2, e3⟩ := core_eq e
      simp [e1, e2, e3]
    · apply List.ext_getElem?
      intro k
      rw [List.getElem?_mapIdx, List.getElem?_mapIdx]
      apply core_map _ _ (sameCore_get h k)
      intro x y e
      obtain ⟨e1, e2, e3⟩ := core_eq e
      simp [e1, e2, e3]
  have hout : Ref.hashOutputs w n ht = Ref.hashOutputs w' n ht := by
    unfold Ref.hashOutputs
    rw [h.2.2.1]
  unfold Ref.signatureHash
  rw [hlen, h.2.2.1, hin, hout]
  simp only [h.1, h.2.1]

/-- For SIGHASH_ALL the digest of the reference client is that of C39 (`sighash`). -/
theorem signatureHash_all (H : Hashes) (w : WireTx) (n : Nat) (x : WireIn) (hx : w.inputs[n]? = some x) (ht : Nat)
    (h2 : ht % 32 ≠ 2) (h3 : ht % 32 ≠ 3) (h7 : ht.testBit 7 = false) :
    Ref.signatureHash H w n x.script ht = sighash H w n ht := by
  have hlt := (List.getElem?_eq_some_iff.1 hx).1
  have hin : Ref.hashInputs w n x.script ht = (w.blank n).inputs := by
    unfold Ref.hashInputs WireTx.blank
    rw [h7, if_neg (by decide)]
    apply List.ext_getElem?
    intro k
    rw [List.getElem?_mapIdx, List.getElem?_mapIdx]
    by_cases hk : k = n
    · subst hk
      rw [hx]
      simp
    · simp [hk, h2, h3]
  unfold Ref.signatureHash sighash
  rw [if_neg (by omega), hin]
  unfold Ref.hashOutputs
  rw [if_neg h2, if_neg h3]
  rfl

/-- An input on the wire is accepted or not whatever the scripts of the other inputs. -/
theorem spends_core (H : Hashes) (flags : Nat) {w w' : WireTx} (h : SameCore w w') (n : Nat)
    (hn : w.inputs[n]? = w'.inputs[n]?) (pub : Bytes) : Ref.Spends H flags w n pub ↔ Ref.Spends H flags w' n pub := by
  have hc : Ref.checker H flags w n = Ref.checker H flags w' n := by
    have hs : Ref.Signed H w n = Ref.Signed H w' n := by
      funext code sigs sig key
      unfold Ref.Signed
      simp only [signatureHash_core H h]
    unfold Ref.checker
    rw [hn, h.2.1, hs]
  unfold Ref.Spends
  rw [hn, hc]

theorem input_shows_core {i j : Input} {w v : WireIn} (hi : i.Shows w) (hj : j.Shows v) (h1 : i.txId = j.txId)
    (h2 : i.txoIndex = j.txoIndex) (h3 : i.seqNumber = j.seqNumber) : WireIn.core w = WireIn.core v := by
  obtain ⟨a1, a2, _, a3⟩ := hi
  obtain ⟨b1, b2, _, b3⟩ := hj
  rw [h1, b1, hexText_eq, hexText_eq] at a1
  have := List.reverse_injective (encodeHex_inj a1)
  unfold WireIn.core
  rw [this, show w.index = v.index by omega, show w.sequence = v.sequence by omega]

theorem input_shows_unique {i : Input} {w v : WireIn} (hi : i.Shows w) (hj : i.Shows v) : w = v := by
  have h := core_eq (input_shows_core hi hj rfl rfl rfl)
  have := encodes_unique hi.2.2.1 hj.2.2.1
  cases w; cases v
  simp_all

theorem outputs_unique : ∀ {os : List Output} {ws vs : List WireOut}, List.Forall₂ Output.Shows os ws →
    List.Forall₂ Output.Shows os vs → ws = vs
  | [], _, _, .nil, .nil => rfl
  | o :: os, w :: ws, v :: vs, .cons a as, .cons b bs => by
    rw [outputs_unique as bs]
    congr 1
    have := encodes_unique a.2 b.2
    have h : o.amount = w.amount := a.1
    have h' : o.amount = v.amount := b.1
    cases w; cases v
    simp_all

theorem inputs_core : ∀ {is js : List Input} {ws vs : List WireIn}, List.Forall₂ Input.Shows is ws →
    List.Forall₂ Input.Shows js vs →
    List.Forall₂ (fun x y : Input => x.txId = y.txId ∧ x.txoIndex = y.txoIndex ∧ x.seqNumber = y.seqNumber) is js →
    ws.map WireIn.core = vs.map WireIn.core
  | [], [], _, _, .nil, .nil, .nil => rfl
  | _ :: _, _ :: _, _ :: _, _ :: _, .cons a as, .cons b bs, .cons c cs => by
    rw [List.map_cons, List.map_cons, inputs_core as bs cs, input_shows_core a b c.1 c.2.1 c.2.2]

/-- Signing changes input scripts only. -/
theorem signs_core {H : Hashes} {t u : Transaction} (h : Signs H t u) {w v : WireTx} (hw : t.Shows w) (hv : u.Shows v) :
    SameCore w v := by
  obtain ⟨a1, a2, a3, a4, a5⟩ := signs_inputs h
  obtain ⟨w1, w2, w3, w4⟩ := hw
  obtain ⟨v1, v2, v3, v4⟩ := hv
  refine ⟨by omega, by omega, outputs_unique (a3 ▸ w3) v3, inputs_core w2 v2 ?_⟩
  rw [List.forall₂_iff_get]
  refine ⟨a4.symm, fun n h1 h2 => ?_⟩
  obtain ⟨y, hy, hxy⟩ := a5 n _ (List.getElem?_eq_getElem h1)
  rw [List.getElem?_eq_getElem h2] at hy
  simp only [List.get_eq_getElem]
  cases hy
  rcases hxy with e | ⟨_, _, _, _, _, _, e⟩
  · rw [e]; exact ⟨rfl, rfl, rfl⟩
  · rw [(input_sign_ok e).2]; exact ⟨rfl, rfl, rfl⟩

theorem shows_get {is : List Input} {ws : List WireIn} (h : List.Forall₂ Input.Shows is ws) {n : Nat} {x : Input}
    (hx : is[n]? = some x) : ∃ y, ws[n]? = some y ∧ x.Shows y := by
  obtain ⟨hl, hg⟩ := List.forall₂_iff_get.1 h
  obtain ⟨hlt, rfl⟩ := List.getElem?_eq_some_iff.1 hx
  exact ⟨_, List.getElem?_eq_getElem (hl ▸ hlt), hg n hlt (hl ▸ hlt)⟩

/-- A signed input stays as it is when others are signed. -/
theorem signs_generic {H : Hashes} {t u : Transaction} (h : Signs H t u) {n : Nat} {x : Input} (hx : t.inputs[n]? = some x)
    (hc : x.cls = .generic) : u.inputs[n]? = some x := by
  obtain ⟨_, _, _, _, a5⟩ := signs_inputs h
  obtain ⟨y, hy, e | ⟨_, _, _, _, _, _, e⟩⟩ := a5 n x hx
  · rw [hy, e]
  · exact absurd hc (input_sign_ok e).1

/-! ## The checks of one signature -/

theorem sec_head {x y : Nat} {c : Bool} {b : Bytes} (h : Sec x y c b) :
    b.length = 33 ∧ (b.head? = some 2 ∨ b.head? = some 3) ∨ b.length = 65 ∧ b.head? = some 4 := by
  obtain ⟨bx, hl, _, h⟩ := h
  cases c with
  | true =>
    simp only [if_true] at h
    left
    rw [h]
    refine ⟨by simp [hl], ?_⟩
    split
    · left; rfl
    · right; rfl
  | false =>
    simp only [Bool.false_eq_true, if_false] at h
    obtain ⟨by', hl', _, h⟩ := h
    right
    rw [h]
    exact ⟨by simp [hl, hl'], rfl⟩

theorem signsDigest_head {Q : SecpGroup} {m : Bytes} {st : Nat} {b : Bytes} (h : SignsDigest Q m st b) :
    9 ≤ b.length ∧ b.length ≤ 73 ∧ b.head? = some 0x30 := by
  obtain ⟨⟨_, _, _, _, seq, _, _, _, _, _, ⟨l, _, e⟩, e', h9, h73⟩, _⟩ := h
  refine ⟨h9, h73, ?_⟩
  rw [e', e]
  rfl

theorem signsDigest_encoding {Q : SecpGroup} {m : Bytes} {st : Nat} {b : Bytes} (h : SignsDigest Q m st b)
    (hs : 1 ≤ st % 128 ∧ st % 128 ≤ 3) (flags : Nat) : Ref.SigEncoding flags b := by
  obtain ⟨hd, sig, r, s, t, e, ht, hx, _, hl⟩ := h
  exact .inr ⟨hd, fun _ => ⟨sig, t, r, s, e, hx, hl⟩, fun _ => ⟨sig, t, e, by omega, by omega⟩⟩

theorem checker_signed {H : Hashes} {flags : Nat} {w : WireTx} {n : Nat} {code : List WireInstr} {sigs : List Bytes}
    {sig key : Bytes} (h1 : Ref.SigEncoding flags sig) {x y : Nat} {c : Bool} (h2 : Sec x y c key)
    (h3 : Ref.Signed H w n code sigs sig key) : (Ref.checker H flags w n).sig code sigs sig key = some true := by
  simp only [Ref.checker]
  rw [if_pos ⟨h1, fun _ => sec_head h2⟩]
  simp [h3]

theorem isPoint_onCurve {x y : Int} {Q : SecpGroup} (h : IsPoint x y Q) : OnSecp x y :=
  (onSecp_iff x y).2 ((containsPoint_iff_nonsingular secp_regular x y).2 h.1)

/-- A signature is checked against the point of the key and the digest for its hash type. -/
theorem signed_iff {H : Hashes} {w : WireTx} {n : Nat} {code : List WireInstr} {sigs : List Bytes} {der key cb : Bytes}
    {t : Byte} {r s : Int} {x y : Int} {c : Bool} {Q : SecpGroup} (h1 : SigText der r s) (hl : der.length < 130)
    (h2 : Sec x.toNat y.toNat c key) (hx : reduced x) (hy : reduced y) (h3 : IsPoint x y Q)
    (h4 : Encodes (Ref.scriptCode sigs code) cb) :
    Ref.Signed H w n code sigs (der ++ [t]) key ↔ ValidSig Q (beValue (Ref.signatureHash H w n cb t.val)) r s := by
  have nx : ((x.toNat : Nat) : Int) = x := Int.toNat_of_nonneg hx.1
  have ny : ((y.toNat : Nat) : Int) = y := Int.toNat_of_nonneg hy.1
  constructor
  · rintro ⟨der', t', r', s', x', y', c', Q', cb', e1, e2, e3, e4, e5, e6, e7, e8⟩
    obtain ⟨rfl, e⟩ := List.append_inj' e1 rfl
    cases e
    have d1 := sigdecode_text h1 hl
    rw [sigdecode_text e2 hl] at d1
    cases d1
    cases encodes_unique e7 h4
    have p1 := C18_from_sec x y c .livenet key (isPoint_onCurve h3) hx hy h2
    have p2 := C18_from_sec x' y' c' .livenet key (isPoint_onCurve e6) e4 e5 (by simpa using e3)
    rw [p1] at p2
    simp only [Except.ok.injEq, PublicKey.mk.injEq, Prod.mk.injEq] at p2
    obtain ⟨⟨rfl, rfl⟩, _⟩ := p2
    obtain ⟨_, rfl⟩ := h3
    obtain ⟨_, rfl⟩ := e6
    exact e8
  · intro h
    exact ⟨der, t, r, s, x.toNat, y.toNat, c, Q, cb, rfl, h1, h2, nx ▸ hx, ny ▸ hy, by rw [nx, ny]; exact h3, h4, h⟩

theorem pushOf_inj {a b : Bytes} (h : pushOf a = pushOf b) : a = b := by
  by_cases ha : a.length = 0
  · by_cases hb : b.length = 0
    · rw [List.length_eq_zero_iff.1 ha, List.length_eq_zero_iff.1 hb]
    · have := (Ref.pushOf_op b (by omega)).1
      rw [← h] at this
      unfold pushOf at this
      rw [if_pos ha] at this
      cases this
  · have h1 := (Ref.pushOf_op a (by omega)).1
    by_cases hb : b.length = 0
    · rw [h] at h1
      unfold pushOf at h1
      rw [if_pos hb] at h1
      cases h1
    · have h2 := (Ref.pushOf_op b (by omega)).1
      rw [← h, h1] at h2
      exact Option.some.inj h2

theorem pushOf_isWire (b : Bytes) (h : 1 ≤ b.length) (h' : b.length ≤ 75) : IsWire (pushOf b) (shortPush b) := by
  obtain ⟨h2, _, _, h3, _⟩ := Ref.pushOf_op b h
  have e : pushOf b = (Fin.ofNat 256 b.length, some b) := by
    unfold pushOf
    rw [if_neg (by omega), if_pos h']
  have hv : ((Fin.ofNat 256 b.length : Byte)).val = b.length := by simp only [Fin.val_ofNat]; omega
  rw [e]
  unfold IsWire pushKind
  simp only [hv]
  rw [if_neg (by omega), if_pos (by omega)]
  rfl

theorem payToKey_encodes (h : Bytes) (hl : h.length = 20) :
    Encodes (Ref.payToKey h) (118 :: 169 :: 20 :: (h ++ [136, 172])) := by
  have e : (118 :: 169 :: 20 :: (h ++ [136, 172]) : Bytes) = [118] ++ ([169] ++ (shortPush h ++ ([136] ++ ([172] ++ [])))) := by
    unfold shortPush
    rw [hl]
    rfl
  rw [e]
  exact .cons (by decide) rfl (.cons (by decide) rfl (.cons (Ref.pushOf_wf h (by omega)) (pushOf_isWire h (by omega) (by omega))
    (.cons (by decide) rfl (.cons (by decide) rfl .nil))))

theorem scriptCode_payToKey (sb h : Bytes) (hs : 9 ≤ sb.length) (hl : h.length = 20) (hne : sb ≠ h) :
    Ref.scriptCode [sb] (Ref.payToKey h) = Ref.payToKey h := by
  unfold Ref.scriptCode
  rw [List.filter_eq_self]
  intro i hi
  obtain ⟨p1, p2, p3, _⟩ := Ref.pushOf_op sb (by omega)
  obtain ⟨q1, q2, q3, _⟩ := Ref.pushOf_op h (by omega)
  have hp : ∀ op : Byte, (op, none) ≠ pushOf sb := by
    intro op e
    rw [← e] at p1
    cases p1
  simp only [List.mem_singleton, forall_eq, decide_eq_true_eq]
  simp only [Ref.payToKey, List.mem_cons, List.not_mem_nil, or_false] at hi
  rcases hi with rfl | rfl | rfl | rfl | rfl
  · exact ⟨by decide, hp _⟩
  · exact ⟨by decide, hp _⟩
  · refine ⟨fun e => ?_, fun e => hne (pushOf_inj e).symm⟩
    rw [e] at q3
    exact absurd q3 (by decide)
  · exact ⟨by decide, hp _⟩
  · exact ⟨by decide, hp _⟩

/-! ## C83 -/

theorem truth_flag (ok : Bool) : Ref.truth (Ref.flagBytes ok) = ok := by cases ok <;> decide

/-- What the acceptance of a signed AddressInput comes down to. -/
theorem address_spends (H : Hashes) (nonces : Nat → Nat) (hν : NoncesOk nonces) (t u v : Transaction) (k : PrivateKey)
    (hk : k.Good) (n : Nat) (st : Int) (id : Text) (ix seq : Int) (a : Address) (x : Input) (ha : a.phash.length = 20)
    (hc : AddressInput.create id ix a seq = .ok x) (hcan : AddressInput.canSign H x [k] = .ok true)
    (ht : t.InRange) (hx : t.inputs[n]? = some x) (h : t.sign H (keySigner nonces) [k] n st = .ok u)
    (hv : Signs H u v) (w : WireTx) (hw : v.Shows w) :
    ∃ w0 xw y sb pb ax ay, t.Shows w0 ∧ w0.inputs[n]? = some xw ∧
      xw.script = 118 :: 169 :: 20 :: (a.phash ++ [136, 172]) ∧ SameCore w0 w ∧
      u.inputs[n]? = some y ∧ y.script.wires = [pushOf sb, pushOf pb] ∧
      SignsDigest (k.secret • G) (sighash H w0 n st.toNat) st.toNat sb ∧ reduced ax ∧ reduced ay ∧
      IsPoint ax ay (k.secret • G) ∧ Sec ax.toNat ay.toNat k.compressed pb ∧
      (H.ripemd160 (H.sha256 pb) = a.phash ∧ ∃ yw, w.inputs[n]? = some yw ∧ Encodes [pushOf sb, pushOf pb] yw.script) ∧
      ∀ flags, (Ref.Spends H flags w n (118 :: 169 :: 20 :: (a.phash ++ [136, 172])) ↔
        (Ref.checker H flags w n).sig (Ref.payToKey a.phash) [sb] sb pb = some true) := by
  obtain ⟨x', r, hcx, hcr, hr⟩ := C42_address H id ix seq a ha [k] (by simpa using hk)
  rw [hc] at hcx
  cases hcx
  rw [hcan] at hcr
  cases hcr
  obtain ⟨_, p, pb, e, hp, hpb, hhash⟩ := hr.1 rfl
  cases e
  obtain ⟨x', hcx, hcls, _, _, _, hcode⟩ := C39_script_code id ix a ha seq
  rw [hc] at hcx
  cases hcx
  obtain ⟨w0, y, sb, pb', ax, ay, hw0, hy, _, hsig, rx, ry, hpt, hsec, ⟨p', hp', hpb''⟩, hwires⟩ :=
    C74_address H nonces hν t u k hk n st x ht hx hcls h
  rw [hp] at hp'
  cases hp'
  rw [hpb] at hpb''
  cases hpb''
  have hsg : Signs H t v := by
    have h1 : Signs H t u := .step (.refl t) (by omega) h (C74_signer nonces hν) (by simpa using hk)
    clear hw
    induction hv with
    | refl => exact h1
    | step _ a b c d ih => exact .step ih a b c d
  have hcore := signs_core hsg hw0 hw
  obtain ⟨_, _, _, _, _, hfr⟩ := C37_frame H _ t u [k] n st h
  obtain ⟨_, y', _, _, hy', _, _, _, _, _, hgen⟩ := hfr n rfl
  rw [hy] at hy'
  cases hy'
  obtain ⟨yw, hyw, hys⟩ := shows_get hw.2.1 (signs_generic hv hy hgen)
  obtain ⟨xw, hxw, hxs⟩ := shows_get hw0.2.1 hx
  have hxscript : xw.script = 118 :: 169 :: 20 :: (a.phash ++ [136, 172]) := by
    have := script_toBytes x.script _ hxs.2.2.1
    rw [hcode] at this
    split at this
    · cases this
    · exact (Except.ok.inj this).symm
  obtain ⟨h9, h73, _⟩ := signsDigest_head hsig
  have hlk : 33 ≤ pb.length ∧ pb.length ≤ 65 := by rcases sec_head hsec with h | h <;> omega
  refine ⟨w0, xw, y, sb, pb, ax, ay, hw0, hxw, hxscript, hcore, hy, hwires, hsig, rx, ry, hpt, hsec,
    ⟨hhash, yw, hyw, hwires ▸ hys.2.2.1⟩, fun flags => ?_⟩
  have heval : Ref.eval H (Ref.checker H flags w n) flags [pushOf sb, pushOf pb] [] = some [pb, sb] := by
    unfold Ref.eval
    rw [if_neg (by
      have h1 := Ref.pushOf_size sb
      have h2 := Ref.pushOf_size pb
      simp only [Ref.size, List.map_cons, List.map_nil, List.sum_cons, List.sum_nil]
      omega)]
    have := Ref.run_pushes H (Ref.checker H flags w n) flags [] [sb, pb]
      { stack := [], code := [pushOf sb, pushOf pb] } (by
        intro b hb
        simp only [List.mem_cons, List.not_mem_nil, or_false] at hb
        rcases hb with rfl | rfl <;> omega) rfl (by simp)
    simp only [List.map_cons, List.map_nil, List.append_nil] at this
    rw [this]
    rfl
  have henc : Encodes [pushOf sb, pushOf pb] yw.script := hwires ▸ hys.2.2.1
  have hpk := payToKey_encodes a.phash ha
  have hout := Ref.eval_payToKey H (Ref.checker H flags w n) flags sb pb
  rw [hhash] at hout
  constructor
  · rintro ⟨yw', hyw', s, q, st1, st2, es, eq, _, v1, v2, ⟨top, rest, ht1, ht2⟩, _⟩
    rw [hyw] at hyw'
    cases hyw'
    cases encodes_injective es henc
    cases encodes_injective eq hpk
    rw [heval] at v1
    cases v1
    rw [hout] at v2
    cases hsg : (Ref.checker H flags w n).sig (Ref.payToKey a.phash) [sb] sb pb with
    | none => rw [hsg] at v2; cases v2
    | some ok =>
      rw [hsg] at v2
      cases v2
      cases ht1
      rw [truth_flag] at ht2
      rw [ht2]
  · intro hcheck
    rw [hcheck] at hout
    refine ⟨yw, hyw, [pushOf sb, pushOf pb], Ref.payToKey a.phash, [pb, sb], [[1]], henc, hpk, ?_, heval, hout,
      ⟨[1], [], rfl, by decide⟩, ?_⟩
    · intro _ i hi
      have h1 := (Ref.pushOf_op sb (by omega)).2.2.1
      have h2 := (Ref.pushOf_op pb (by omega)).2.2.1
      simp only [List.mem_cons, List.not_mem_nil, or_false] at hi
      rcases hi with rfl | rfl <;> omega
    · rw [if_neg]
      · exact fun _ => rfl
      · rintro ⟨_, h', _, e⟩
        exact absurd (List.cons.inj e).1 (by decide)

/-- C83. An AddressInput, signed with SIGHASH_ALL by a key of which `can_sign` is true, is accepted by the reference
client as spending an output of the address, whatever the verification flags, and stays accepted when other inputs are
signed.  The exception is a signature that equals the hash of the key, which `FindAndDelete` would remove. -/
theorem C83_address (H : Hashes) (nonces : Nat → Nat) (hν : NoncesOk nonces) (t u v : Transaction) (k : PrivateKey)
    (hk : k.Good) (n : Nat) (id : Text) (ix seq : Int) (a : Address) (x : Input) (ha : a.phash.length = 20)
    (hc : AddressInput.create id ix a seq = .ok x) (hcan : AddressInput.canSign H x [k] = .ok true)
    (ht : t.InRange) (hx : t.inputs[n]? = some x) (h : t.sign H (keySigner nonces) [k] n 1 = .ok u)
    (hne : ∀ y, u.inputs[n]? = some y → y.script.wires.head? ≠ some (pushOf a.phash))
    (hv : Signs H u v) (w : WireTx) (hw : v.Shows w) (flags : Nat) :
    Ref.Spends H flags w n (118 :: 169 :: 20 :: (a.phash ++ [136, 172])) := by
  obtain ⟨w0, xw, y, sb, pb, ax, ay, hw0, hxw, hxscript, hcore, hy, hwires, hsig, rx, ry, hpt, hsec, -, hiff⟩ :=
    address_spends H nonces hν t u v k hk n 1 id ix seq a x ha hc hcan ht hx h hv w hw
  rw [show ((1 : Int).toNat) = 1 from rfl] at hsig
  obtain ⟨h9, h73, _⟩ := signsDigest_head hsig
  have hne' : sb ≠ a.phash := fun e => hne y hy (by rw [hwires, e]; rfl)
  rw [hiff]
  refine checker_signed (signsDigest_encoding hsig (by decide) flags) hsec ?_
  obtain ⟨_, der, rr, ss, tt, e1, e2, e3, e4, _⟩ := hsig
  refine ⟨der, tt, rr, ss, _, _, _, k.secret • G, 118 :: 169 :: 20 :: (a.phash ++ [136, 172]), e1, e3, hsec, ?_, ?_, ?_, ?_, ?_⟩
  · rw [Int.toNat_of_nonneg rx.1]; exact rx
  · rw [Int.toNat_of_nonneg ry.1]; exact ry
  · rw [Int.toNat_of_nonneg rx.1, Int.toNat_of_nonneg ry.1]; exact hpt
  · rw [scriptCode_payToKey sb a.phash h9 ha hne']
    exact payToKey_encodes a.phash ha
  · rw [e2, ← signatureHash_core H hcore, ← hxscript, signatureHash_all H w0 n xw hxw 1 (by decide) (by decide) (by decide)]
    exact e4

/-! ## C84 -/

/-- OP_CHECKMULTISIG succeeds if the signatures match a sublist of the keys, in order, and no encoding is refused. -/
theorem multisig_matches (check : Bytes → Bytes → Option Bool) : ∀ (keys sigs : List Bytes),
    (∀ s ∈ sigs, ∀ k ∈ keys, check s k ≠ none) →
    (∃ sub, sub.Sublist keys ∧ List.Forall₂ (fun s k => check s k = some true) sigs sub) →
    Ref.multisig check sigs keys = some true
  | keys, [], _, _ => by unfold Ref.multisig; rfl
  | [], s :: ss, _, ⟨sub, h1, h2⟩ => by
    rw [List.sublist_nil] at h1
    subst h1
    cases h2
  | k :: ks, s :: ss, hd, ⟨sub, h1, h2⟩ => by
    have hlen : (s :: ss).length ≤ (k :: ks).length := h2.length_eq ▸ h1.length_le
    rw [Ref.multisig, if_neg (by omega)]
    obtain ⟨a, sub', rfl⟩ : ∃ a sub', sub = a :: sub' := by cases h2; exact ⟨_, _, rfl⟩
    cases h2 with
    | cons ha hs =>
      have hsub : sub'.Sublist ks := by
        cases h1 with
        | cons _ h => exact (List.sublist_cons_self a sub').trans h
        | cons_cons _ h => exact h
      match hc : check s k with
      | none => exact absurd hc (hd s (by simp) k (by simp))
      | some true =>
        exact multisig_matches check ks ss (fun x hx y hy => hd x (by simp [hx]) y (by simp [hy])) ⟨sub', hsub, hs⟩
      | some false =>
        refine multisig_matches check ks (s :: ss) (fun x hx y hy => hd x hx y (by simp [hy])) ⟨a :: sub', ?_, .cons ha hs⟩
        cases h1 with
        | cons _ h => exact h
        | cons_cons _ h => rw [hc] at ha; cases ha

theorem multisig_sound (check : Bytes → Bytes → Option Bool) : ∀ (keys sigs : List Bytes),
    Ref.multisig check sigs keys = some true →
    ∃ sub, sub.Sublist keys ∧ List.Forall₂ (fun s k => check s k = some true) sigs sub
  | keys, [], _ => ⟨[], List.nil_sublist _, .nil⟩
  | [], s :: ss, h => by simp [Ref.multisig] at h
  | k :: ks, s :: ss, h => by
    rw [Ref.multisig] at h
    split at h
    · cases h
    · match hc : check s k, h with
      | some true, h =>
        obtain ⟨sub, h1, h2⟩ := multisig_sound check ks ss h
        exact ⟨k :: sub, h1.cons_cons k, .cons hc h2⟩
      | some false, h =>
        obtain ⟨sub, h1, h2⟩ := multisig_sound check ks (s :: ss) h
        exact ⟨sub, h1.cons k, h2⟩

theorem pushes_encodes : ∀ bs : List Bytes, (∀ b ∈ bs, 1 ≤ b.length ∧ b.length ≤ 75) → ∀ ws ends, Encodes ws ends →
    Encodes (bs.map pushOf ++ ws) ((bs.flatMap fun b => byte b.length :: b) ++ ends)
  | [], _, _, _, h => h
  | b :: bs, hb, ws, ends, h => by
    obtain ⟨h1, h2⟩ := hb b (by simp)
    rw [List.flatMap_cons, List.append_assoc]
    exact .cons (Ref.pushOf_wf b (by omega)) (pushOf_isWire b h1 h2) (pushes_encodes bs (fun x hx => hb x (by simp [hx])) ws ends h)

theorem smallOp_eq (n : Nat) : Ref.smallOp n = smallByte n := rfl

theorem redeem_encodes (m : Nat) (hm : m ≤ 16) (keys : List Bytes) (hn : keys.length ≤ 16)
    (hk : ∀ k ∈ keys, 1 ≤ k.length ∧ k.length ≤ 75) : Encodes (Ref.redeemScript m keys)
      (smallByte m :: ((keys.flatMap fun b => byte b.length :: b) ++ [smallByte keys.length, 174])) := by
  refine .cons (b := [smallByte m]) (forNumber_small m hm).2 rfl (pushes_encodes keys hk _ _ ?_)
  exact .cons (b := [smallByte keys.length]) (forNumber_small _ hn).2 rfl (.cons (b := [174]) (by decide) rfl .nil)

/-- The public keys of private keys. -/
def PublicKeys (ks : List PrivateKey) (ps : List PublicKey) : Prop :=
  List.Forall₂ (fun (k : PrivateKey) p => k.toPublicKey = .ok p) ks ps

theorem sublist_forall₂ {α β γ : Type} (f : α → γ) (R : α → β → Prop) : ∀ {as : List α} {bs : List β},
    List.Forall₂ R as bs → ∀ {l : List γ}, l.Sublist (as.map f) →
    ∃ sub, sub.Sublist bs ∧ List.Forall₂ (fun c b => ∃ a, f a = c ∧ R a b) l sub
  | [], [], .nil, l, h => by
    rw [List.map_nil, List.sublist_nil] at h
    subst h
    exact ⟨[], .slnil, .nil⟩
  | a :: as, b :: bs, .cons r rs, l, h => by
    rw [List.map_cons] at h
    cases h with
    | cons _ h =>
      obtain ⟨sub, h1, h2⟩ := sublist_forall₂ f R rs h
      exact ⟨sub, .cons _ h1, h2⟩
    | cons_cons _ h =>
      obtain ⟨sub, h1, h2⟩ := sublist_forall₂ f R rs h
      exact ⟨b :: sub, .cons_cons _ h1, .cons ⟨a, rfl, r⟩ h2⟩

theorem forall₂_join {α β γ : Type} {R : α → β → Prop} {S : α → γ → Prop} : ∀ {as : List α} {bs : List β} {cs : List γ},
    List.Forall₂ R as bs → List.Forall₂ S as cs → List.Forall₂ (fun b c => ∃ a ∈ as, R a b ∧ S a c) bs cs
  | [], [], [], .nil, .nil => .nil
  | a :: as, _ :: _, _ :: _, .cons r rs, .cons s ss =>
    .cons ⟨a, by simp, r, s⟩ ((forall₂_join rs ss).imp fun _ _ ⟨x, hx, h⟩ => ⟨x, by simp [hx], h⟩)

theorem forall₂_mem {α β : Type} {R : α → β → Prop} {as : List α} {bs : List β} (h : List.Forall₂ R as bs) :
    List.Forall₂ (fun a b => a ∈ as ∧ R a b) as bs := by
  rw [List.forall₂_iff_get] at h ⊢
  exact ⟨h.1, fun i a b => ⟨List.get_mem _ _, h.2 i a b⟩⟩

theorem payToScript_encodes (h : Bytes) (hl : h.length = 20) : Encodes (Ref.payToScript h) (169 :: 20 :: (h ++ [135])) := by
  have e : (169 :: 20 :: (h ++ [135]) : Bytes) = [169] ++ (shortPush h ++ ([135] ++ [])) := by
    unfold shortPush
    rw [hl]
    rfl
  rw [e]
  exact .cons (by decide) rfl (.cons (Ref.pushOf_wf h (by omega)) (pushOf_isWire h (by omega) (by omega))
    (.cons (by decide) rfl .nil))

theorem scriptCode_redeem (sigs keys : List Bytes) (m : Nat) (hm : m ≤ 16) (hn : keys.length ≤ 16)
    (hs : ∀ s ∈ sigs, 1 ≤ s.length ∧ s.head? = some 0x30) (hk : ∀ k ∈ keys, 1 ≤ k.length ∧ k.head? ≠ some 0x30) :
    Ref.scriptCode sigs (Ref.redeemScript m keys) = Ref.redeemScript m keys := by
  unfold Ref.scriptCode
  rw [List.filter_eq_self]
  intro i hi
  have hp : ∀ op : Byte, ∀ s ∈ sigs, (op, none) ≠ pushOf s := by
    intro op s hs' e
    have := (Ref.pushOf_op s (hs s hs').1).1
    rw [← e] at this
    cases this
  have hop : ∀ k : Nat, k ≤ 16 → Ref.smallOp k ≠ 171 := by
    intro k hk' e
    have := Ref.smallOp_val k hk'
    rw [e] at this
    have h171 : ((171 : Byte)).val = 171 := rfl
    split at this <;> omega
  simp only [decide_eq_true_eq]
  simp only [Ref.redeemScript, List.mem_cons, List.mem_append, List.mem_map, List.not_mem_nil, or_false] at hi
  rcases hi with rfl | ⟨k, hk', rfl⟩ | rfl | rfl
  · exact ⟨hop _ hm, hp _⟩
  · obtain ⟨h1, h2⟩ := hk k hk'
    refine ⟨fun e => ?_, fun s hs' e => h2 ?_⟩
    · have := (Ref.pushOf_op k h1).2.2.1
      rw [e] at this
      exact absurd this (by decide)
    · rw [pushOf_inj e]; exact (hs s hs').2
  · exact ⟨hop _ hn, hp _⟩
  · exact ⟨by decide, hp _⟩

/-- What the acceptance of a signed MultisigInput comes down to. -/
theorem multisig_spends (H : Hashes) (nonces : Nat → Nat) (hν : NoncesOk nonces) (t u v : Transaction)
    (ks : List PrivateKey) (hk : ∀ k ∈ ks, k.Good) (n : Nat) (id : Text) (ix seq : Int) (pubs : List PublicKey)
    (hpv : ∀ p ∈ pubs, p.Valid) (hn : pubs.length ≤ 16) (hm : ks.length ≤ pubs.length) (x : Input)
    (hc : MultisigInput.create id ix pubs ks.length seq = .ok x)
    (ht : t.InRange) (hx : t.inputs[n]? = some x) (h : t.sign H (keySigner nonces) ks n 1 = .ok u)
    (hv : Signs H u v) (w : WireTx) (hw : v.Shows w) (rb : Bytes) (hrb : x.script.toBytes = .ok rb)
    (h520 : rb.length ≤ 520) :
    ∃ w0 xw y sbs bs, t.Shows w0 ∧ w0.inputs[n]? = some xw ∧ xw.script = rb ∧ SameCore w0 w ∧
      u.inputs[n]? = some y ∧ y.script.wires = (0, none) :: (sbs ++ [rb]).map pushOf ∧
      List.Forall₂ (fun (k : PrivateKey) b => SignsDigest (k.secret • G) (sighash H w0 n 1) 1 b) ks sbs ∧
      List.Forall₂ (fun (p : PublicKey) b => p.toBytes = .ok b) pubs bs ∧
      (∀ b ∈ bs, ∃ x y c, Sec x y c b) ∧ Encodes (Ref.redeemScript ks.length bs) rb ∧
      Ref.scriptCode sbs.reverse (Ref.redeemScript ks.length bs) = Ref.redeemScript ks.length bs ∧
      (∃ yw, w.inputs[n]? = some yw ∧ Encodes ((0, none) :: (sbs ++ [rb]).map pushOf) yw.script ∧
        ∀ flags, Ref.eval H (Ref.checker H flags w n) flags ((0, none) :: (sbs ++ [rb]).map pushOf) [] =
          some (rb :: (sbs.reverse ++ [[]]))) ∧
      ∀ flags : Nat, (flags.testBit 8 → flags.testBit 0) →
        (Ref.Spends H flags w n (169 :: 20 :: (H.ripemd160 (H.sha256 rb) ++ [135])) ↔ (flags.testBit 0 →
          Ref.multisig ((Ref.checker H flags w n).sig (Ref.redeemScript ks.length bs) sbs.reverse) sbs.reverse bs.reverse =
            some true)) := by
  obtain ⟨s, bs, hcr, hcls, hbs, hsb⟩ := C41_redeem_bytes pubs ks.length hpv (by omega) hn
  unfold MultisigInput.create at hc
  rw [hcr] at hc
  cases hc
  simp only at hrb
  rw [hsb] at hrb
  have hrb' := (Except.ok.inj hrb).symm
  obtain ⟨w0, y, sbs, rb', hw0, hy, hrb2, hsigs, _, _, hwires⟩ :=
    C74_script H nonces hν t u ks n 1 _ ht hx (.inr rfl) h
  simp only at hrb2
  rw [hsb, hrb] at hrb2
  cases hrb2
  rw [show ((1 : Int).toNat) = 1 from rfl] at hsigs
  have hsg : Signs H t v := by
    have h1 : Signs H t u := .step (.refl t) (by omega) h (C74_signer nonces hν) hk
    clear hw
    induction hv with
    | refl => exact h1
    | step _ a b c d ih => exact .step ih a b c d
  have hcore := signs_core hsg hw0 hw
  obtain ⟨_, _, _, _, _, hfr⟩ := C37_frame H _ t u ks n 1 h
  obtain ⟨_, y', _, _, hy', _, _, _, _, _, hgen⟩ := hfr n rfl
  rw [hy] at hy'
  cases hy'
  obtain ⟨yw, hyw, hys⟩ := shows_get hw.2.1 (signs_generic hv hy hgen)
  obtain ⟨xw, hxw, hxs⟩ := shows_get hw0.2.1 hx
  have hxscript : xw.script = rb := by
    have := script_toBytes s _ hxs.2.2.1
    rw [hsb, hrb] at this
    split at this
    · cases this
    · exact (Except.ok.inj this).symm
  have hbl : bs.length = pubs.length := hbs.length_eq.symm
  have hsl : sbs.length = ks.length := hsigs.length_eq.symm
  have hkeys : ∀ b ∈ bs, ∃ x y c, Sec x y c b := by
    intro b hb
    obtain ⟨p, hp, hpb, _⟩ := forall₂_mem_left hbs.flip hb
    obtain ⟨b', hb', hsec⟩ := C18_to_bytes p (hpv p hp).2.1 (hpv p hp).2.2
    rw [hpb] at hb'
    cases hb'
    exact ⟨_, _, _, hsec⟩
  have hkl : ∀ b ∈ bs, 33 ≤ b.length ∧ b.length ≤ 65 ∧ b.head? ≠ some 0x30 := by
    intro b hb
    obtain ⟨_, _, _, hsec⟩ := hkeys b hb
    rcases sec_head hsec with ⟨h1, h2 | h2⟩ | ⟨h1, h2⟩ <;> rw [h2] <;>
      exact ⟨by omega, by omega, by decide⟩
  have hsgs : ∀ b ∈ sbs, 9 ≤ b.length ∧ b.length ≤ 73 ∧ b.head? = some 0x30 := by
    intro b hb
    obtain ⟨k, _, hkb⟩ := forall₂_mem_left hsigs.flip hb
    exact signsDigest_head hkb
  have henc : Encodes (Ref.redeemScript ks.length bs) rb := by
    rw [hrb', ← hbl]
    exact redeem_encodes _ (by omega) bs (by omega) fun k hk => by have := hkl k hk; omega
  have hcode : Ref.scriptCode sbs.reverse (Ref.redeemScript ks.length bs) = Ref.redeemScript ks.length bs :=
    scriptCode_redeem _ bs ks.length (by omega) (by omega)
      (fun b hb => by have := hsgs b (List.mem_reverse.1 hb); exact ⟨by omega, this.2.2⟩)
      (fun b hb => by have := hkl b hb; exact ⟨by omega, this.2.2⟩)
  have hlast : 2 ≤ rb.length := by rw [hrb']; simp
  have hall : ∀ b ∈ sbs ++ [rb], 2 ≤ b.length ∧ b.length ≤ 520 := by
    intro b hb
    rcases List.mem_append.1 hb with hb | hb
    · have := hsgs b hb; omega
    · rw [List.mem_singleton.1 hb]; omega
  have hpush : Ref.PushOnly ((0, none) :: (sbs ++ [rb]).map pushOf) := by
    intro i hi
    rcases List.mem_cons.1 hi with rfl | hi
    · decide
    · obtain ⟨b, hb, rfl⟩ := List.mem_map.1 hi
      have := (Ref.pushOf_op b (by have := hall b hb; omega)).2.2.1
      omega
  have hin : Encodes ((0, none) :: (sbs ++ [rb]).map pushOf) yw.script := hwires ▸ hys.2.2.1
  have hpub := payToScript_encodes _ (H.ripemd160_length (H.sha256 rb))
  have heval : ∀ flags, Ref.eval H (Ref.checker H flags w n) flags ((0, none) :: (sbs ++ [rb]).map pushOf) [] =
      some (rb :: (sbs.reverse ++ [[]])) := by
    intro flags
    unfold Ref.eval
    have hz : ∀ l : List Bytes, (∀ b ∈ l, b.length ≤ 520) → ((l.map pushOf).map wireSize).sum ≤ 525 * l.length := by
      intro l
      induction l with
      | nil => intro _; simp
      | cons a l ih =>
        intro h
        have h1 := ih fun k hk => h k (by simp [hk])
        have h2 := Ref.pushOf_size a
        have h3 := h a (by simp)
        simp only [List.map_cons, List.sum_cons, List.length_cons]
        omega
    rw [if_neg (by
      have := hz _ fun b hb => (hall b hb).2
      simp only [Ref.size, List.map_cons, List.sum_cons, Ref.op_size]
      simp only [List.length_append, List.length_cons, List.length_nil] at this
      omega)]
    have e0 := Ref.run_small H (Ref.checker H flags w n) flags 0 (by omega) ((sbs ++ [rb]).map pushOf)
      { stack := [], code := (0, none) :: (sbs ++ [rb]).map pushOf } rfl (by simp)
    rw [show Ref.smallOp 0 = 0 from rfl] at e0
    have e1 := Ref.run_pushes H (Ref.checker H flags w n) flags [] (sbs ++ [rb])
      { stack := [[]], code := (0, none) :: (sbs ++ [rb]).map pushOf } hall rfl (by simp; omega)
    rw [List.append_nil] at e1
    rw [e0, show Ref.serialize ((0 : Nat) : Int) = [] by decide, e1]
    simp [Ref.run]
  refine ⟨w0, xw, y, sbs, bs, hw0, hxw, hxscript, hcore, hy, hwires, hsigs, hbs.imp fun _ _ h => h.1, hkeys, henc, hcode,
    ⟨yw, hyw, hin, heval⟩, fun flags hf => ?_⟩
  have hout := Ref.eval_payToScript H (Ref.checker H flags w n) flags rb (sbs.reverse ++ [[]]) (by simp; omega)
  have hred := Ref.eval_redeem H (Ref.checker H flags w n) flags sbs bs (fun k hk => by have := hkl k hk; omega) (by omega)
    (by omega)
  rw [hsl] at hred
  constructor
  · rintro ⟨yw', hyw', s1, q, st1, st2, es, eq, _, v1, v2, _, v3⟩ h0
    rw [if_pos ⟨h0, _, H.ripemd160_length _, rfl⟩] at v3
    obtain ⟨_, redeem, rest, r, st3, e1, e2, e3, ⟨top, rest', ht1, ht2⟩, _⟩ := v3
    rw [hyw] at hyw'
    cases hyw'
    cases encodes_injective es hin
    rw [heval flags] at v1
    cases v1
    cases e1
    cases encodes_injective e2 henc
    rw [hred] at e3
    cases hsg : Ref.multisig ((Ref.checker H flags w n).sig (Ref.redeemScript ks.length bs) sbs.reverse) sbs.reverse
        bs.reverse with
    | none => rw [hsg] at e3; cases e3
    | some ok =>
      rw [hsg] at e3
      cases e3
      cases ht1
      rw [truth_flag] at ht2
      rw [ht2]
  · intro hmulti
    refine ⟨yw, hyw, (0, none) :: (sbs ++ [rb]).map pushOf, Ref.payToScript (H.ripemd160 (H.sha256 rb)),
      rb :: (sbs.reverse ++ [[]]), [1] :: (sbs.reverse ++ [[]]), hin, hpub, fun _ => hpush, heval flags, hout,
      ⟨[1], _, rfl, by decide⟩, ?_⟩
    by_cases h0 : flags.testBit 0
    · rw [if_pos ⟨h0, _, H.ripemd160_length _, rfl⟩]
      rw [hmulti h0] at hred
      exact ⟨hpush, rb, sbs.reverse ++ [[]], Ref.redeemScript ks.length bs, [[1]], rfl, henc, hred, ⟨[1], [], rfl, by decide⟩,
        fun _ => rfl⟩
    · rw [if_neg fun h => h0 h.1]
      exact fun h8 => absurd (hf h8) h0

/-- C84. A signed MultisigInput is accepted, when pay to script hash is verified, exactly if its signatures are, in this
order, signatures by some of its public keys, in their order. -/
theorem C84_iff (H : Hashes) (nonces : Nat → Nat) (hν : NoncesOk nonces) (t u v : Transaction)
    (ks : List PrivateKey) (hk : ∀ k ∈ ks, k.Good) (n : Nat) (id : Text) (ix seq : Int) (pubs : List PublicKey)
    (hpv : ∀ p ∈ pubs, p.Valid) (hn : pubs.length ≤ 16) (hm : ks.length ≤ pubs.length) (x : Input)
    (hc : MultisigInput.create id ix pubs ks.length seq = .ok x)
    (ht : t.InRange) (hx : t.inputs[n]? = some x) (h : t.sign H (keySigner nonces) ks n 1 = .ok u)
    (hv : Signs H u v) (w : WireTx) (hw : v.Shows w) (rb : Bytes) (hrb : x.script.toBytes = .ok rb)
    (h520 : rb.length ≤ 520) :
    ∃ w0 y sbs, t.Shows w0 ∧ u.inputs[n]? = some y ∧ y.script.wires = (0, none) :: (sbs ++ [rb]).map pushOf ∧
      List.Forall₂ (fun (k : PrivateKey) b => SignsDigest (k.secret • G) (sighash H w0 n 1) 1 b) ks sbs ∧
      ∀ flags : Nat, flags.testBit 0 →
        (Ref.Spends H flags w n (169 :: 20 :: (H.ripemd160 (H.sha256 rb) ++ [135])) ↔
          ∃ qs : List PublicKey, qs.Sublist pubs ∧ List.Forall₂ (fun sb (q : PublicKey) =>
            ∃ Q, IsPoint q.pair.1 q.pair.2 Q ∧ SignsDigest Q (sighash H w0 n 1) 1 sb) sbs qs) := by
  obtain ⟨w0, xw, y, sbs, bs, hw0, hxw, hxscript, hcore, hy, hwires, hsigs, hbs, hkeys, henc, hcode, _, hiff⟩ :=
    multisig_spends H nonces hν t u v ks hk n id ix seq pubs hpv hn hm x hc ht hx h hv w hw rb hrb h520
  refine ⟨w0, y, sbs, hw0, hy, hwires, hsigs, fun flags h0 => ?_⟩
  rw [hiff flags fun _ => h0]
  have hcheck : ∀ sb ∈ sbs, ∀ (q : PublicKey) (kb : Bytes), q ∈ pubs → q.toBytes = .ok kb →
      ((Ref.checker H flags w n).sig (Ref.redeemScript ks.length bs) sbs.reverse sb kb = some true ↔
        ∃ Q, IsPoint q.pair.1 q.pair.2 Q ∧ SignsDigest Q (sighash H w0 n 1) 1 sb) ∧
      (Ref.checker H flags w n).sig (Ref.redeemScript ks.length bs) sbs.reverse sb kb ≠ none := by
    intro sb hsb q kb hq hqb
    obtain ⟨k, _, hsig⟩ := forall₂_mem_left hsigs.flip hsb
    obtain ⟨b', hb', hsec⟩ := C18_to_bytes q (hpv q hq).2.1 (hpv q hq).2.2
    rw [hqb] at hb'
    cases hb'
    have henc' : Ref.SigEncoding flags sb ∧ Ref.KeyEncoding flags kb :=
      ⟨signsDigest_encoding hsig (by decide) flags, fun _ => sec_head hsec⟩
    have hnn : (Ref.checker H flags w n).sig (Ref.redeemScript ks.length bs) sbs.reverse sb kb ≠ none := by
      simp only [Ref.checker]
      rw [if_pos henc']
      simp
    refine ⟨?_, hnn⟩
    have hiff' : (Ref.checker H flags w n).sig (Ref.redeemScript ks.length bs) sbs.reverse sb kb = some true ↔
        Ref.Signed H w n (Ref.redeemScript ks.length bs) sbs.reverse sb kb := by
      simp only [Ref.checker]
      rw [if_pos henc']
      simp
    rw [hiff']
    obtain ⟨_, h73, _⟩ := signsDigest_head hsig
    obtain ⟨hder, der, rr, ss, tt, e1, e2, e3, e4, e5⟩ := hsig
    subst e1
    simp only [List.length_append, List.length_cons, List.length_nil] at h73
    have hpoint : IsPoint q.pair.1 q.pair.2
        (.some _ _ ((containsPoint_iff_nonsingular secp_regular _ _).1 ((onSecp_iff _ _).1 (hpv q hq).1))) := ⟨_, rfl⟩
    have hhash : Ref.signatureHash H w n rb 1 = sighash H w0 n 1 := by
      rw [← signatureHash_core H hcore, ← hxscript,
        signatureHash_all H w0 n xw hxw 1 (by decide) (by decide) (by decide)]
    rw [signed_iff e3 (by omega) hsec (hpv q hq).2.1 (hpv q hq).2.2 hpoint (hcode.symm ▸ henc), e2, hhash]
    constructor
    · intro hval
      exact ⟨_, hpoint, hder, der, rr, ss, tt, rfl, e2, e3, hval, e5⟩
    · rintro ⟨Q, ⟨_, rfl⟩, _, der', r', s', t', f1, f2, f3, f4, _⟩
      obtain ⟨rfl, e⟩ := List.append_inj' f1 rfl
      have d1 := sigdecode_text e3 (by omega)
      rw [sigdecode_text f3 (by omega)] at d1
      cases d1
      exact f4
  have hbs' := forall₂_mem hbs
  constructor
  · intro hmulti
    obtain ⟨sub, h1, h2⟩ := multisig_sound _ _ _ (hmulti h0)
    have h1' : (sub.reverse.map _root_.id).Sublist (bs.map _root_.id) := by
      have := h1.reverse
      simpa using this
    obtain ⟨qs, h3, h4⟩ := sublist_forall₂ _root_.id _ hbs'.flip h1'
    rw [List.map_id] at h4
    rw [← List.forall₂_reverse_iff, List.reverse_reverse] at h2
    refine ⟨qs, h3, (forall₂_join (forall₂_mem h2).flip h4).imp ?_⟩
    rintro sb q ⟨kb, _, ⟨hsb, a1⟩, kb', rfl, hq, hqb⟩
    exact (hcheck sb hsb q _ hq hqb).1.1 a1
  · rintro ⟨qs, h3, h4⟩ _
    obtain ⟨sub, h5, h6⟩ := sublist_forall₂ _root_.id _ hbs' (l := qs) (by simpa using h3)
    apply multisig_matches
    · intro sb hsb kb hkb
      obtain ⟨q, _, hq, hqb⟩ := forall₂_mem_left hbs'.flip (List.mem_reverse.1 hkb)
      exact (hcheck sb (List.mem_reverse.1 hsb) q kb hq hqb).2
    · refine ⟨sub.reverse, h5.reverse, ?_⟩
      rw [List.forall₂_reverse_iff]
      refine (forall₂_join (forall₂_mem h4).flip h6).imp ?_
      rintro sb kb ⟨q, _, ⟨hsb, a1⟩, q', rfl, hq, hqb⟩
      exact (hcheck sb hsb _ kb hq hqb).1.2 a1

/-- C84, part that holds: a MultisigInput, signed with SIGHASH_ALL by as many keys as it needs, given in the order of its
public keys, is accepted by the reference client as spending a pay-to-script-hash output of its redeem script (of at most
520 bytes), whatever the verification flags, and stays accepted when other inputs are signed.  Missing: keys given in
another order, of which `can_sign` is true all the same (see the refutation); a transaction with a redeem script longer
than 75 bytes cannot be serialised (C41). -/
theorem C84_multisig_partial (H : Hashes) (nonces : Nat → Nat) (hν : NoncesOk nonces) (t u v : Transaction)
    (ks : List PrivateKey) (hk : ∀ k ∈ ks, k.Good) (n : Nat) (id : Text) (ix seq : Int) (pubs : List PublicKey)
    (hpv : ∀ p ∈ pubs, p.Valid) (hn : pubs.length ≤ 16) (x : Input)
    (hc : MultisigInput.create id ix pubs ks.length seq = .ok x)
    (hord : ∃ ps, PublicKeys ks ps ∧ (ps.map (·.pair)).Sublist (pubs.map (·.pair)))
    (ht : t.InRange) (hx : t.inputs[n]? = some x) (h : t.sign H (keySigner nonces) ks n 1 = .ok u)
    (hv : Signs H u v) (w : WireTx) (hw : v.Shows w) (flags : Nat) (hf : flags.testBit 8 → flags.testBit 0)
    (rb : Bytes) (hrb : x.script.toBytes = .ok rb) (h520 : rb.length ≤ 520) :
    Ref.Spends H flags w n (169 :: 20 :: (H.ripemd160 (H.sha256 rb) ++ [135])) := by
  obtain ⟨ps, hps, hsub⟩ := hord
  have hm : ks.length ≤ pubs.length := by
    have := hsub.length_le
    simpa [List.Forall₂.length_eq hps] using this
  obtain ⟨w0, xw, y, sbs, bs, hw0, hxw, hxscript, hcore, hy, hwires, hsigs, hbs, hkeys, henc, hcode, _, hiff⟩ :=
    multisig_spends H nonces hν t u v ks hk n id ix seq pubs hpv hn hm x hc ht hx h hv w hw rb hrb h520
  rw [hiff flags hf]
  intro _
  apply multisig_matches
  · intro b hb k hk
    obtain ⟨_, _, _, hsec⟩ := hkeys k (List.mem_reverse.1 hk)
    obtain ⟨k', _, hkb⟩ := forall₂_mem_left hsigs.flip (List.mem_reverse.1 hb)
    simp only [Ref.checker]
    rw [if_pos ⟨signsDigest_encoding hkb (by decide) flags, fun _ => sec_head hsec⟩]
    simp
  · obtain ⟨sub, h1, h2⟩ := sublist_forall₂ (fun p : PublicKey => p.pair)
      (fun p b => p ∈ pubs ∧ p.toBytes = .ok b) (as := pubs) (bs := bs)
      (forall₂_mem hbs) hsub
    have h3 : List.Forall₂ (fun (k : PrivateKey) b => ∃ p, k.toPublicKey = .ok p ∧ ∃ q ∈ pubs, q.pair = p.pair ∧
        q.toBytes = .ok b) ks sub := by
      rw [List.forall₂_map_left_iff] at h2
      refine (forall₂_join hps.flip h2).imp ?_
      rintro k b ⟨p, _, h4, q, h5, h6, h7⟩
      exact ⟨p, h4, q, h6, h5, h7⟩
    refine ⟨sub.reverse, h1.reverse, ?_⟩
    rw [List.forall₂_reverse_iff]
    refine (forall₂_join hsigs h3).imp ?_
    rintro sb kb ⟨k, hkm, hsig, p, hp, q, hq, hpq, hqb⟩
    obtain ⟨ax, ay, hpk, rx, ry, _, hpt⟩ := C20_public_key k.secret (.network k.network) k.compressed k
      (by rw [make_network, if_pos ⟨(hk k hkm).1, (hk k hkm).2⟩])
    rw [hp] at hpk
    cases hpk
    obtain ⟨b', hb', hsec⟩ := C18_to_bytes q (hpv q hq).2.1 (hpv q hq).2.2
    rw [hqb] at hb'
    cases hb'
    rw [hpq] at hsec
    simp only at hsec
    have hpt' : IsPoint ax ay (k.secret • G) := by
      have : k.secret = (k.secret.toNat : Int) := by have := (hk k hkm).1; omega
      rw [this, natCast_zsmul]
      exact hpt
    refine checker_signed (signsDigest_encoding hsig (by decide) flags) hsec ?_
    obtain ⟨_, der, rr, ss, tt, e1, e2, e3, e4, _⟩ := hsig
    refine ⟨der, tt, rr, ss, _, _, _, k.secret • G, rb, e1, e3, hsec, ?_, ?_, ?_, ?_, ?_⟩
    · rw [Int.toNat_of_nonneg rx.1]; exact rx
    · rw [Int.toNat_of_nonneg ry.1]; exact ry
    · rw [Int.toNat_of_nonneg rx.1, Int.toNat_of_nonneg ry.1]; exact hpt'
    · rw [hcode]; exact henc
    · rw [e2, ← signatureHash_core H hcore, ← hxscript,
        signatureHash_all H w0 n xw hxw 1 (by decide) (by decide) (by decide)]
      exact e4

/-! ## C85 -/

/-- C85, part that holds: for a hash type that is neither SIGHASH_NONE, SIGHASH_SINGLE nor SIGHASH_ANYONECANPAY, the
signatures are of the digest that the reference client computes for that hash type and the script of the input, also when
other inputs have been signed.  Missing: the other hash types (see the refutation). -/
theorem C85_all_partial (H : Hashes) (nonces : Nat → Nat) (hν : NoncesOk nonces) (t u v : Transaction) (ks : List PrivateKey)
    (hk : ∀ k ∈ ks, k.Good) (n : Nat) (st : Int) (x : Input) (ht : t.InRange) (hx : t.inputs[n]? = some x)
    (hc : x.cls = .address ∧ ks.length = 1 ∨ x.cls = .script ∨ x.cls = .multisig)
    (h : t.sign H (keySigner nonces) ks n st = .ok u) (h2 : st.toNat % 32 ≠ 2) (h3 : st.toNat % 32 ≠ 3)
    (h7 : st.toNat.testBit 7 = false) (hv : Signs H u v) (w : WireTx) (hw : v.Shows w) :
    ∃ code y sbs l, Encodes x.script.wires code ∧ v.inputs[n]? = some y ∧
      y.script.wires = (if x.cls = .address then [] else [(0, none)]) ++ (sbs ++ [l]).map pushOf ∧
      List.Forall₂ (fun (k : PrivateKey) b =>
        SignsDigest (k.secret • G) (Ref.signatureHash H w n code st.toNat) st.toNat b) ks sbs := by
  have hsg : Signs H t v := by
    have h1 : Signs H t u := .step (.refl t) (by omega) h (C74_signer nonces hν) hk
    clear hw
    induction hv with
    | refl => exact h1
    | step _ a b c d ih => exact .step ih a b c d
  obtain ⟨_, _, _, _, _, hfr⟩ := C37_frame H _ t u ks n st h
  obtain ⟨_, y, _, _, hy, _, _, _, _, _, hgen⟩ := hfr n rfl
  have hyv := signs_generic hv hy hgen
  have hdig : ∀ w0 : WireTx, t.Shows w0 → ∃ code, Encodes x.script.wires code ∧
      sighash H w0 n st.toNat = Ref.signatureHash H w n code st.toNat := by
    intro w0 hw0
    obtain ⟨xw, hxw, hxs⟩ := shows_get hw0.2.1 hx
    exact ⟨_, hxs.2.2.1, by rw [← signatureHash_core H (signs_core hsg hw0 hw), signatureHash_all H w0 n xw hxw _ h2 h3 h7]⟩
  rcases hc with ⟨hc, hl⟩ | hc
  · obtain ⟨k, rfl⟩ := List.length_eq_one_iff.1 hl
    obtain ⟨w0, y', sb, pb, _, _, hw0, hy', _, hsig, _, _, _, _, _, hwires⟩ :=
      C74_address H nonces hν t u k (hk k (by simp)) n st x ht hx hc h
    rw [hy] at hy'
    cases hy'
    obtain ⟨code, he, hd⟩ := hdig w0 hw0
    exact ⟨code, y, [sb], pb, he, hyv, by rw [hwires, if_pos hc]; rfl, .cons (hd ▸ hsig) .nil⟩
  · obtain ⟨w0, y', sbs, rb, hw0, hy', _, hsigs, _, _, hwires⟩ := C74_script H nonces hν t u ks n st x ht hx hc h
    rw [hy] at hy'
    cases hy'
    obtain ⟨code, he, hd⟩ := hdig w0 hw0
    exact ⟨code, y, sbs, rb, he, hyv, by rw [hwires, if_neg (by rcases hc with hc | hc <;> rw [hc] <;> decide)]; rfl, hd ▸ hsigs⟩

end Bitforge
