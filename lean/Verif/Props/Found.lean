import Verif.Props.Settle
import Verif.Props.Standard
import Verif.Props.Template
import Verif.Props.Owner

/-! # C142: a wallet finds the money that was paid to it

A program that looks for payments reads transactions made by other programs, and asks the outputs of the class AddressOutput
(ScriptOutput) for the hash in the script.  What it finds is compared with what the reference client takes for a payment to that
hash. -/

namespace Bitforge.Found
open Spec Txs Scripts

/-- `isinstance(o, AddressOutput) and o.script.get_address_hash() == h`. -/
def Finds (h : Bytes) (o : Output) : Prop :=
  o.cls = .address ∧ ∃ d, PayToPubkeyOut.getAddressHash o.script = .ok (some d) ∧ d.val = h

/-- `isinstance(o, ScriptOutput) and o.script.get_script_hash() == h`. -/
def FindsScript (h : Bytes) (o : Output) : Prop :=
  o.cls = .script ∧ ∃ d, PayToScriptOut.getScriptHash o.script = .ok (some d) ∧ d.val = h

/-- `Solver` of the reference client, for TX_PUBKEYHASH: the script pays to this hash of a key. -/
def PaysKey (h pub : Bytes) : Prop :=
  ∃ i, Encodes [(118, none), (169, none), i, (136, none), (172, none)] pub ∧ Ref.Pushes i h

/-- `IsPayToScriptHash`, with this hash. -/
def PaysScript (h pub : Bytes) : Prop := h.length = 20 ∧ pub = 169 :: 20 :: (h ++ [135])

theorem paysKey_form {h pub : Bytes} (hl : h.length = 20) (hp : PaysKey h pub) : Ref.IsForm pub .pubkeyHash :=
  let ⟨_, he, hi⟩ := hp
  .pubkeyHash he hi hl

theorem paysScript_form {pub : Bytes} : Ref.IsForm pub .scriptHash ↔ ∃ h, PaysScript h pub := by
  constructor
  · intro h
    cases h with
    | scriptHash h => exact h
  · exact fun h => .scriptHash h

/-! ## What is read -/

theorem plain_of_shape {i : WireInstr} (hw : Wf i) {c : Byte}
    (h : (if pushKind i.1 = .plain then some i.1 else none) = some c) : i = (c, none) := by
  obtain ⟨op, d⟩ := i
  split at h
  · next hp =>
    cases h
    cases d with
    | none => rfl
    | some d =>
      unfold Wf at hw
      simp only [show pushKind op = .plain from hp] at hw
  · cases h

theorem push_of_shape {i : WireInstr} (hw : Wf i)
    (h : (if pushKind i.1 = .plain then some i.1 else none) = none) : ∃ d, i.2 = some d := by
  obtain ⟨op, d⟩ := i
  split at h
  · cases h
  · next hp =>
    cases d with
    | none => exact absurd hw hp
    | some d => exact ⟨d, rfl⟩

theorem push_shape {i : WireInstr} {d : Bytes} (hw : Wf i) (h : i.2 = some d) :
    (if pushKind i.1 = .plain then some i.1 else none) = none := by
  obtain ⟨op, e⟩ := i
  cases h
  rw [if_neg]
  intro hp
  unfold Wf at hw
  simp only [show pushKind op = .plain from hp] at hw

theorem encodes_wf {ws : List WireInstr} {b : Bytes} (h : Encodes ws b) : ∀ i ∈ ws, Wf i := by
  induction h with
  | nil => exact fun i hi => nomatch hi
  | cons h _ _ ih =>
    intro i hi
    rcases List.mem_cons.1 hi with rfl | hi
    · exact h
    · exact ih i hi

theorem read_script {b : Bytes} {s : Script} (h : BytesRead b (.ok s)) :
    ∃ ws, Encodes ws b ∧ s.instructions = ws.map (instruction .bytearray) ∧
      ∀ t, s.cls.template = some t ↔ Matches t (shape ws) := by
  have e := (C129_bytes _ _).2 h
  cases h with
  | script he hc =>
    rename_i ws
    obtain ⟨g1, g2⟩ := Settle.read_wires hc
    refine ⟨ws, he, g1, fun t => ?_⟩
    rcases script_fromBytes _ _ he with ⟨_, s', h1, h2, h3⟩ | ⟨_, h1⟩
    · rw [e] at h1
      cases h1
      rw [C32_classify_exact _ _ h3 t]
      exact iff_of_eq (congrArg (fun x => Matches t (shape x)) g2)
    · rw [e] at h1
      cases h1

/-- C142. The outputs that are found are those that the reference client takes for payments to the hash of the key, whatever
opcode pushes it. -/
theorem C142_output (w : WireOut) (o : Output) (h : ReadOut w o) (hash : Bytes) : Finds hash o ↔ PaysKey hash w.script := by
  cases h with
  | mk hb hp =>
    rename_i s c
    obtain ⟨ws, he, hi, ht⟩ := read_script hb
    have hwf := encodes_wf he
    constructor
    · rintro ⟨h1, d, h2, rfl⟩
      replace h1 : c = .address := h1
      subst h1
      replace h2 : PayToPubkeyOut.getAddressHash s = .ok (some d) := h2
      generalize hcls : s.cls = sc at hp
      cases hp with
      | pubkey =>
        have hm : shape ws = [some 118, some 169, none, some 136, some 172] := (ht .p2pkhOut).1 (by rw [hcls]; rfl)
        have hl : ws.length = 5 := by simpa [shape] using congrArg List.length hm
        match ws, hl with
        | [i1, i2, i3, i4, i5], _ =>
          simp only [shape, List.map_cons, List.map_nil, List.cons.injEq, and_true] at hm
          obtain ⟨m1, m2, m3, m4, m5⟩ := hm
          obtain rfl := plain_of_shape (hwf i1 (by simp)) m1
          obtain rfl := plain_of_shape (hwf i2 (by simp)) m2
          obtain rfl := plain_of_shape (hwf i4 (by simp)) m4
          obtain rfl := plain_of_shape (hwf i5 (by simp)) m5
          refine ⟨i3, he, ?_⟩
          obtain ⟨e, h3⟩ := push_of_shape (hwf i3 (by simp)) m3
          obtain ⟨op, x⟩ := i3
          cases h3
          unfold PayToPubkeyOut.getAddressHash dataAt at h2
          rw [hi] at h2
          cases h2
          rfl
    · rintro ⟨i, he', hi'⟩
      obtain rfl := encodes_injective he he'
      have hm : shape [(118, none), (169, none), i, (136, none), (172, none)] =
          [some 118, some 169, none, some 136, some 172] := by
        have := push_shape (hwf i (by simp)) hi'
        simp only [shape, List.map_cons, List.map_nil, this]
        decide
      have hcls : s.cls.template = some .p2pkhOut := (ht .p2pkhOut).2 hm
      have hcls : s.cls = .payToPubkeyOut := by
        revert hcls
        cases s.cls <;> decide
      rw [hcls] at hp
      cases hp with
      | pubkey =>
        refine ⟨rfl, ⟨.bytearray, hash⟩, ?_, rfl⟩
        show PayToPubkeyOut.getAddressHash s = _
        unfold PayToPubkeyOut.getAddressHash dataAt
        rw [hi]
        obtain ⟨op, x⟩ := i
        obtain rfl : x = some hash := hi'
        rfl
      | other h1 => exact absurd rfl h1

/-- The outputs of the class ScriptOutput that are found, exactly. -/
theorem finds_script (w : WireOut) (o : Output) (h : ReadOut w o) (hash : Bytes) :
    FindsScript hash o ↔ ∃ i, Encodes [(169, none), i, (135, none)] w.script ∧ Ref.Pushes i hash := by
  cases h with
  | mk hb hp =>
    rename_i s c
    obtain ⟨ws, he, hi, ht⟩ := read_script hb
    have hwf := encodes_wf he
    constructor
    · rintro ⟨h1, d, h2, rfl⟩
      replace h1 : c = .script := h1
      subst h1
      replace h2 : PayToScriptOut.getScriptHash s = .ok (some d) := h2
      generalize hcls : s.cls = sc at hp
      cases hp with
      | script =>
        have hm : shape ws = [some 169, none, some 135] := (ht .p2shOut).1 (by rw [hcls]; rfl)
        have hl : ws.length = 3 := by simpa [shape] using congrArg List.length hm
        match ws, hl with
        | [i1, i2, i3], _ =>
          simp only [shape, List.map_cons, List.map_nil, List.cons.injEq, and_true] at hm
          obtain ⟨m1, m2, m3⟩ := hm
          obtain rfl := plain_of_shape (hwf i1 (by simp)) m1
          obtain rfl := plain_of_shape (hwf i3 (by simp)) m3
          refine ⟨i2, he, ?_⟩
          obtain ⟨e, h3⟩ := push_of_shape (hwf i2 (by simp)) m2
          obtain ⟨op, x⟩ := i2
          cases h3
          unfold PayToScriptOut.getScriptHash dataAt at h2
          rw [hi] at h2
          cases h2
          rfl
    · rintro ⟨i, he', hi'⟩
      obtain rfl := encodes_injective he he'
      have hm : shape [(169, none), i, (135, none)] = [some 169, none, some 135] := by
        have := push_shape (hwf i (by simp)) hi'
        simp only [shape, List.map_cons, List.map_nil, this]
        decide
      have hcls : s.cls.template = some .p2shOut := (ht .p2shOut).2 hm
      have hcls : s.cls = .payToScriptOut := by
        revert hcls
        cases s.cls <;> decide
      rw [hcls] at hp
      cases hp with
      | script =>
        refine ⟨rfl, ⟨.bytearray, hash⟩, ?_, rfl⟩
        show PayToScriptOut.getScriptHash s = _
        unfold PayToScriptOut.getScriptHash dataAt
        rw [hi]
        obtain ⟨op, x⟩ := i
        obtain rfl : x = some hash := hi'
        rfl
      | other _ h1 => exact absurd rfl h1

/-- C142, part that holds: what is found for the hash of a script pushes it by some opcode, and payments to it push it by the
opcode 20, so none is missed.  Missing: other opcodes, see the refutation. -/
theorem C142_script_partial (w : WireOut) (o : Output) (h : ReadOut w o) (hash : Bytes) :
    (FindsScript hash o ↔ ∃ op, Encodes [(169, none), (op, some hash), (135, none)] w.script) ∧
    (PaysScript hash w.script ↔ Encodes [(169, none), (20, some hash), (135, none)] w.script) ∧
    (PaysScript hash w.script → FindsScript hash o) := by
  have h1 : FindsScript hash o ↔ ∃ op, Encodes [(169, none), (op, some hash), (135, none)] w.script := by
    rw [finds_script w o h hash]
    constructor
    · rintro ⟨⟨op, x⟩, he, hi⟩
      obtain rfl : x = some hash := hi
      exact ⟨op, he⟩
    · exact fun ⟨op, he⟩ => ⟨_, he, rfl⟩
  have h2 : PaysScript hash w.script ↔ Encodes [(169, none), (20, some hash), (135, none)] w.script := by
    constructor
    · rintro ⟨hl, e⟩
      rw [e]
      exact scriptHash_encodes hash hl
    · intro he
      have hl : hash.length = 20 := by
        have := encodes_wf he (20, some hash) (by simp)
        unfold Wf at this
        simpa only [show pushKind 20 = .direct 20 by decide] using this
      exact ⟨hl, encodes_unique he (scriptHash_encodes hash hl)⟩
  exact ⟨h1, h2, fun hp => h1.2 ⟨_, h2.1 hp⟩⟩

theorem laxScript_encodes (hash : Bytes) (hl : hash.length = 20) :
    Encodes [(169, none), (76, some hash), (135, none)] (169 :: 76 :: 20 :: (hash ++ [135])) := by
  show Encodes _ ([169] ++ ((76 :: [20] ++ hash) ++ ([135] ++ [])))
  refine .cons (by decide) rfl (.cons ?_ ?_ (.cons (by decide) rfl .nil))
  · unfold Wf
    simp only [show pushKind 76 = .counted 1 by decide, hl]
    decide
  · unfold IsWire
    simp only [show pushKind 76 = .counted 1 by decide]
    exact ⟨[20], rfl, by rw [hl]; decide, rfl⟩

/-- C142 is false of the code for hashes of scripts: an output that pushes the hash by OP_PUSHDATA1 is found, but is no payment
to the script for the reference client, and is not relayed. -/
theorem C142_script_refuted (hash : Bytes) (hl : hash.length = 20) (amount : Nat) :
    let w : WireOut := ⟨amount, 169 :: 76 :: 20 :: (hash ++ [135])⟩
    (∃ o, ReadOut w o ∧ FindsScript hash o) ∧ ¬ PaysScript hash w.script ∧ ∀ f, ¬ Ref.IsForm w.script f := by
  intro w
  have he := laxScript_encodes hash hl
  refine ⟨?_, ?_, ?_⟩
  · rcases script_fromBytes _ _ he with ⟨_, s, h1, h2, h3⟩ | ⟨hx, _⟩
    · obtain ⟨c, hc⟩ := paid_total s.cls
      have hr : ReadOut w ⟨c, w.amount, s⟩ := .mk ((C129_bytes _ _).1 h1) hc
      exact ⟨_, hr, (C142_script_partial w _ hr hash).1.2 ⟨_, he⟩⟩
    · exact absurd hx.1 (by simp [shape])
  · rintro ⟨-, e⟩
    have e := (List.cons.inj (List.cons.inj e).2).1
    exact absurd e (by decide)
  · intro f hf
    cases hf with
    | scriptHash h =>
      obtain ⟨h', -, e⟩ := h
      have e := (List.cons.inj (List.cons.inj e).2).1
      exact absurd e (by decide)
    | pubkey h1 => cases encodes_injective he h1
    | pubkeyHash h1 => cases encodes_injective he h1
    | multisig h1 _ _ h4 =>
      have := encodes_injective he h1
      simp only [List.cons.injEq, Prod.mk.injEq, and_true] at this
      rw [← this.1] at h4
      rw [show Ref.smallNumber 169 = none by decide] at h4
      cases h4
    | nullData h1 => cases encodes_injective he h1

theorem eval_laxScript (H : Hashes) (C : Ref.Checker) (flags : Nat) (hm : flags.testBit 6 = false) (redeem : Bytes) :
    Ref.eval H C flags [(169, none), (76, some (H.ripemd160 (H.sha256 redeem))), (135, none)] [redeem] = some [[1]] := by
  have hl : (H.ripemd160 (H.sha256 redeem)).length = 20 := H.ripemd160_length _
  generalize he : H.ripemd160 (H.sha256 redeem) = h at *
  have hr : ∀ code, Ref.run H C flags [(169, none), (76, some h), (135, none)] { stack := [redeem], code := code } =
      some { stack := [[1]], code := code, ops := 2 } := by
    intro code
    have hp : ∀ s : Ref.St, s.cond = [] →
        Ref.act H C flags (76, some h) [(135, none)] s = some { s with stack := h :: s.stack } := by
      intro s hs
      unfold Ref.act
      simp [hs, hm, hl, Ref.disabled]
    rw [Ref.run_op (s' := { stack := [h], code := code, ops := 1 }) (by decide) (by decide) rfl
        (by simp only []; omega) (he ▸ rfl) (by simp only [List.length_cons, List.length_nil]; omega), Ref.run, hp _ rfl]
    simp only []
    rw [if_neg (by simp only [List.length_cons, List.length_nil]; omega),
      Ref.run_op (s' := { stack := [[1]], code := code, ops := 2 }) (by decide) (by decide) rfl
        (by simp only []; omega) (by simp [Ref.exec, Ref.result, Ref.flagBytes])
        (by simp only [List.length_cons, List.length_nil]; omega)]
    rfl
  unfold Ref.eval
  rw [if_neg, hr]
  · rfl
  · have : Ref.size [(169, none), (76, some h), (135, none)] = 24 := by
      simp only [Ref.size, List.map_cons, List.map_nil, List.sum_cons, List.sum_nil]
      simp [wireSize, show pushKind 76 = .counted 1 by decide, hl]
    omega

/-- C142 is false of the code: the output of `C142_script_refuted` is open to everyone who knows the redeem script, without any
signature, also where pay to script hash is verified (SCRIPT_VERIFY_MINIMALDATA, a rule of nodes and not of the chain, has to
be off). -/
theorem C142_open_refuted (H : Hashes) (flags : Nat) (hm : flags.testBit 6 = false) (rb : Bytes) (h2 : 2 ≤ rb.length)
    (h520 : rb.length ≤ 520) (amount : Nat) :
    let p : WireOut := ⟨amount, 169 :: 76 :: 20 :: (H.ripemd160 (H.sha256 rb) ++ [135])⟩
    (∃ o, ReadOut p o ∧ FindsScript (H.ripemd160 (H.sha256 rb)) o) ∧
      ∀ (w : WireTx) (n : Nat), n < w.inputs.length → Spendable H flags w n p.script := by
  intro p
  have hl : (H.ripemd160 (H.sha256 rb)).length = 20 := H.ripemd160_length _
  obtain ⟨h1, hno, -⟩ := C142_script_refuted _ hl amount
  refine ⟨h1, fun w n hn => ?_⟩
  rw [spendable_iff H flags w n hn]
  have hall : ∀ b ∈ [rb], 2 ≤ b.length ∧ b.length ≤ 520 := by simp [h2, h520]
  obtain ⟨sb, hsb⟩ := pushes_exist false [rb] hall
  refine ⟨sb, _, _, _, _, hsb, laxScript_encodes _ hl,
    fun _ => pushes_pushOnly false _ hall, eval_pushes H (Ref.checker H flags w n) flags false [rb] hall (by simp),
    eval_laxScript H (Ref.checker H flags w n) flags hm rb, ⟨[1], [], rfl, by decide⟩, ?_⟩
  rw [if_neg]
  · exact fun _ => rfl
  · rintro ⟨-, h', -, e⟩
    have e := (List.cons.inj (List.cons.inj e).2).1
    exact absurd e (by decide)

/-! ## Whole transactions -/

open Classical in
/-- The sum that a program counts, and the sum that was paid. -/
noncomputable def received (h : Bytes) (os : List Output) : Int := ((os.filter fun o => decide (Finds h o)).map Output.amount).sum

open Classical in
noncomputable def paid (h : Bytes) (os : List WireOut) : Nat :=
  ((os.filter fun o => decide (PaysKey h o.script)).map WireOut.amount).sum

theorem received_eq (h : Bytes) {ws : List WireOut} {os : List Output} (hr : List.Forall₂ ReadOut ws os) :
    received h os = paid h ws := by
  induction hr with
  | nil => rfl
  | cons hx _ ih =>
    rename_i w o ws os _
    have e := C142_output w o hx h
    unfold received paid at ih ⊢
    have ha : o.amount = w.amount := by
      cases hx with
      | mk _ _ => rfl
    by_cases hp : PaysKey h w.script
    · have hf := e.2 hp
      simp only [List.filter_cons, hf, hp, decide_true, if_true, List.map_cons, List.sum_cons, ih, ha]
      push_cast
      rfl
    · have hf : ¬ Finds h o := fun g => hp (e.1 g)
      simp only [List.filter_cons, hf, hp, decide_false, Bool.false_eq_true, if_false]
      exact ih

theorem forall₂_at {α β : Type} {R : α → β → Prop} {as : List α} {bs : List β} (h : List.Forall₂ R as bs) (n : Nat) :
    (as[n]? = none ∧ bs[n]? = none) ∨ ∃ a b, as[n]? = some a ∧ bs[n]? = some b ∧ R a b := by
  induction h generalizing n with
  | nil => exact .inl ⟨rfl, rfl⟩
  | cons hx _ ih =>
    cases n with
    | zero => exact .inr ⟨_, _, rfl, rfl, hx⟩
    | succ n => exact ih n

/-- C142. In a transaction that was read, the outputs that are found for the hash of a key are at the positions, and have the
sum, of the payments to it in the bytes. -/
theorem C142_received (b : Bytes) (t : Transaction) (h : Transaction.fromBytes b = .ok t) :
    ∃ (w : WireTx) (p rest : Bytes), w.Fits ∧ w.Form p ∧ b = p ++ rest ∧ ∀ hash,
      received hash t.outputs = paid hash w.outputs ∧
      ∀ n : Nat, (∃ o, t.outputs[n]? = some o ∧ Finds hash o) ↔ ∃ o : WireOut, w.outputs[n]? = some o ∧ PaysKey hash o.script := by
  cases (C130_transaction_bytes b _).1 h with
  | transaction hf _ _ hp hb _ hos =>
    refine ⟨_, _, _, hf, hp, hb, fun hash => ⟨received_eq hash hos, fun n => ?_⟩⟩
    rcases forall₂_at hos n with ⟨h1, h2⟩ | ⟨x, y, h1, h2, h3⟩
    · simp [h1, h2]
    · simp only [h1, h2, Option.some.injEq, exists_eq_left']
      exact C142_output x y h3 hash

theorem lax_encodes (h : Bytes) (hl : h.length = 20) :
    Encodes [(118, none), (169, none), (76, some h), (136, none), (172, none)] (118 :: 169 :: 76 :: 20 :: (h ++ [136, 172])) := by
  show Encodes _ ([118] ++ ([169] ++ ((76 :: [20] ++ h) ++ ([136] ++ ([172] ++ [])))))
  refine .cons (by decide) rfl (.cons (by decide) rfl (.cons ?_ ?_ (.cons (by decide) rfl (.cons (by decide) rfl .nil))))
  · unfold Wf
    simp only [show pushKind 76 = .counted 1 by decide, hl]
    decide
  · unfold IsWire
    simp only [show pushKind 76 = .counted 1 by decide]
    exact ⟨[20], rfl, by rw [hl]; decide, rfl⟩

/-- C142 is false of the code: what is found cannot always be spent with AddressInput.  A payment that pushes the hash by
OP_PUSHDATA1 is a payment to the key for the reference client and is found, but the script that an AddressInput signs is another
one. -/
theorem C142_spend_refuted (a : Address) (hl : a.phash.length = 20) (amount : Nat) (id : Text) (ix : Int) :
    let w : WireOut := ⟨amount, 118 :: 169 :: 76 :: 20 :: (a.phash ++ [136, 172])⟩
    Ref.IsForm w.script .pubkeyHash ∧ (∃ o, ReadOut w o ∧ Finds a.phash o) ∧
      ∃ x, AddressInput.create id ix a = .ok x ∧ ∀ b, x.script.toBytes = .ok b → b ≠ w.script := by
  intro w
  have he := lax_encodes a.phash hl
  have hp : PaysKey a.phash w.script := ⟨_, he, rfl⟩
  refine ⟨paysKey_form hl hp, ?_, ?_⟩
  · rcases script_fromBytes _ _ he with ⟨_, s, h1, h2, h3⟩ | ⟨hx, _⟩
    · obtain ⟨c, hc⟩ := paid_total s.cls
      have hr : ReadOut w ⟨c, w.amount, s⟩ := .mk ((C129_bytes _ _).1 h1) hc
      exact ⟨_, hr, (C142_output w _ hr a.phash).2 hp⟩
    · obtain ⟨-, -, g | ⟨⟨m, g1, g2⟩, -⟩⟩ := hx
      · exact absurd (show (some (some 118) : Option (Option Byte)) = some none from g) (by decide)
      · cases g1
        exact absurd g2 (by decide)
  · obtain ⟨s, h1, -, -, h4, -⟩ := C32_pubkey_out a hl
    refine ⟨⟨.address, id, ix, s, Input.finalSeqNumber⟩, by unfold AddressInput.create; rw [h1], fun b hb e => ?_⟩
    rw [show (Input.mk .address id ix s Input.finalSeqNumber).script.toBytes = _ from h4] at hb
    obtain rfl := Except.ok.inj hb
    have e := (List.cons.inj (List.cons.inj (List.cons.inj e).2).2).1
    exact absurd e (by decide)

theorem eval_lax (H : Hashes) (C : Ref.Checker) (flags : Nat) (hm : flags.testBit 6 = true) (h : Bytes) (hl : h.length = 20)
    (st : List Bytes) : Ref.eval H C flags [(118, none), (169, none), (76, some h), (136, none), (172, none)] st = none := by
  have hmin : Ref.minimalPush 76 h = false := by
    match h, hl with
    | b :: r, hl =>
      have : r ≠ [] := by rintro rfl; simp at hl
      simp [Ref.minimalPush, this, hl]
  unfold Ref.eval
  split
  · rfl
  · have hr : ∀ code, Ref.run H C flags [(118, none), (169, none), (76, some h), (136, none), (172, none)]
        { stack := st, code := code } = none := by
      intro code
      cases st with
      | nil => rfl
      | cons x r =>
        rw [Ref.run, Ref.act_op _ _ _ _ _ _ (by decide) (by decide) rfl (by simp only []; omega)]
        rw [show Ref.exec H C flags (118 : Byte).val true [(169, none), (76, some h), (136, none), (172, none)]
          { stack := x :: r, ops := 0 + 1, code := code } = some { stack := x :: x :: r, ops := 1, code := code } from rfl]
        simp only []
        split
        · rfl
        rw [Ref.run, Ref.act_op _ _ _ _ _ _ (by decide) (by decide) rfl (by simp only []; omega)]
        rw [show Ref.exec H C flags (169 : Byte).val true [(76, some h), (136, none), (172, none)]
          { stack := x :: x :: r, ops := 1 + 1, code := code } =
            some { stack := H.ripemd160 (H.sha256 x) :: x :: r, ops := 2, code := code } from rfl]
        simp only []
        split
        · rfl
        rw [Ref.run]
        have : ∀ s : Ref.St, s.cond = [] → Ref.act H C flags (76, some h) [(136, none), (172, none)] s = none := by
          intro s hs
          unfold Ref.act
          simp [hs, hm, hmin, hl, Ref.disabled]
        rw [this _ rfl]
    rw [hr]
/-- C142 is false of the code: such a payment is counted, but under SCRIPT_VERIFY_MINIMALDATA, a rule of nodes, no input at all
is accepted for it. -/
theorem C142_stuck_refuted (hash : Bytes) (hl : hash.length = 20) (amount : Nat) :
    let w : WireOut := ⟨amount, 118 :: 169 :: 76 :: 20 :: (hash ++ [136, 172])⟩
    (∃ o, ReadOut w o ∧ Finds hash o ∧ received hash [o] = amount) ∧
      ∀ (H : Hashes) (flags : Nat), flags.testBit 6 = true → ∀ (t : WireTx) (n : Nat), ¬ Ref.Spends H flags t n w.script := by
  intro w
  constructor
  · obtain ⟨-, ⟨o, ho, hf⟩, -⟩ := C142_spend_refuted ⟨hash, .livenet, .publicKey⟩ hl amount [] 0
    refine ⟨o, ho, hf, ?_⟩
    unfold received
    simp only [List.filter_cons, hf, decide_true, if_true, List.filter_nil, List.map_cons, List.map_nil, List.sum_cons,
      List.sum_nil, add_zero]
    cases ho with
    | mk _ _ => rfl
  · rintro H flags hm t n ⟨x, -, s, p, st, st', -, hp, -, -, he, -⟩
    rw [encodes_injective hp (lax_encodes hash hl), eval_lax H _ flags hm hash hl st] at he
    cases he

theorem usual_encodes (h : Bytes) (hl : h.length = 20) :
    Encodes [(118, none), (169, none), (20, some h), (136, none), (172, none)] (118 :: 169 :: 20 :: (h ++ [136, 172])) := by
  show Encodes _ ([118] ++ ([169] ++ ((20 :: h) ++ ([136] ++ ([172] ++ [])))))
  refine .cons (by decide) rfl (.cons (by decide) rfl (.cons ?_ ?_ (.cons (by decide) rfl (.cons (by decide) rfl .nil))))
  · unfold Wf
    simp only [show pushKind 20 = .direct 20 by decide]
    exact hl
  · unfold IsWire
    simp only [show pushKind 20 = .direct 20 by decide]

/-- C142, part that holds: payments that push the hash by the opcode 20 have the script that AddressInput signs. -/
theorem C142_spend_partial (a : Address) (hl : a.phash.length = 20) (pub : Bytes) (id : Text) (ix : Int) :
    ∃ x, AddressInput.create id ix a = .ok x ∧
      (x.script.toBytes = .ok pub ↔ Encodes [(118, none), (169, none), (20, some a.phash), (136, none), (172, none)] pub) := by
  obtain ⟨s, h1, -, -, h4, -⟩ := C32_pubkey_out a hl
  refine ⟨⟨.address, id, ix, s, Input.finalSeqNumber⟩, by unfold AddressInput.create; rw [h1], ?_⟩
  show s.toBytes = .ok pub ↔ _
  rw [h4]
  have he := usual_encodes a.phash hl
  constructor
  · intro e
    exact (Except.ok.inj e) ▸ he
  · exact fun e => congrArg _ (encodes_unique he e)

/-- C142. A payment that was found for an address, and pushes the hash by the opcode 20, can be spent: the AddressInput of the
address, signed by a key of which `can_sign` is true, is accepted by the reference client for the script in the bytes of the
payment (the exception is that of C83). -/
theorem C142_claimed_partial (H : Hashes) (nonces : Nat → Nat) (hν : NoncesOk nonces) (p : WireOut) (o : Output) (hr : ReadOut p o)
    (a : Address) (ha : a.phash.length = 20) (hf : Finds a.phash o) (hp : p.script[2]? = some 20)
    (t u v : Transaction) (k : PrivateKey) (hk : k.Good) (n : Nat) (id : Text) (ix seq : Int) (x : Input)
    (hc : AddressInput.create id ix a seq = .ok x) (hcan : AddressInput.canSign H x [k] = .ok true)
    (ht : t.InRange) (hx : t.inputs[n]? = some x) (h : t.sign H (keySigner nonces) [k] n 1 = .ok u)
    (hne : ∀ y, u.inputs[n]? = some y → y.script.wires.head? ≠ some (pushOf a.phash))
    (hv : Signs H u v) (w : WireTx) (hw : v.Shows w) (flags : Nat) : Ref.Spends H flags w n p.script := by
  obtain ⟨⟨op, d⟩, he, hi⟩ := (C142_output p o hr a.phash).1 hf
  obtain rfl : d = some a.phash := hi
  have hop : op = 20 := by
    generalize p.script = b at hp he
    cases he with
    | @cons _ _ b1 _ _ w1 he =>
      cases he with
      | @cons _ _ b2 _ _ w2 he =>
        cases he with
        | @cons _ _ b3 _ _ w3 he =>
          obtain rfl : b1 = [118] := w1
          obtain rfl : b2 = [169] := w2
          have : ∃ r, b3 = op :: r := by
            simp only [IsWire] at w3
            split at w3
            · exact w3.elim
            · exact ⟨_, w3⟩
            · obtain ⟨c, -, -, e⟩ := w3
              exact ⟨_, e⟩
          obtain ⟨r, rfl⟩ := this
          simpa using hp
  subst hop
  rw [encodes_unique he (usual_encodes a.phash ha)]
  exact C83_address H nonces hν t u v k hk n id ix seq a x ha hc hcan ht hx h hne hv w hw flags

/-! ## Examples -/

/-- A payment of 7 to twenty bytes 1, found with its amount. -/
def payment : WireOut := ⟨7, 118 :: 169 :: 20 :: (List.replicate 20 1 ++ [136, 172])⟩

theorem payment_pays : PaysKey (List.replicate 20 1) payment.script :=
  ⟨_, payToKey_encodes _ rfl, (Ref.pushOf_op _ (by decide)).1⟩

example : ∃ o, ReadOut payment o ∧ Finds (List.replicate 20 1) o ∧ ¬ Finds (List.replicate 20 2) o ∧
    received (List.replicate 20 1) [o] = 7 := by
  rcases script_fromBytes _ _ (payToKey_encodes (List.replicate 20 1) rfl) with ⟨_, s, h1, -, -⟩ | ⟨hx, -⟩
  · obtain ⟨c, hc⟩ := paid_total s.cls
    have hr : ReadOut payment ⟨c, payment.amount, s⟩ := .mk ((C129_bytes _ _).1 h1) hc
    have hf := (C142_output _ _ hr (List.replicate 20 1)).2 payment_pays
    refine ⟨_, hr, hf, ?_, ?_⟩
    · rintro ⟨-, d, h2, h3⟩
      obtain ⟨-, d', h4, h5⟩ := hf
      rw [h4] at h2
      obtain rfl := Option.some.inj (Except.ok.inj h2)
      rw [h5] at h3
      exact absurd h3 (by decide)
    · unfold received
      simp only [List.filter_cons, hf, decide_true, if_true, List.filter_nil, List.map_cons, List.map_nil, List.sum_cons,
        List.sum_nil]
      rfl
  · obtain ⟨-, -, g | ⟨⟨m, g1, g2⟩, -⟩⟩ := hx
    · exact absurd (show (some (some 118) : Option (Option Byte)) = some none from g) (by decide)
    · cases g1
      exact absurd g2 (by decide)

/-- A transaction of another program that can be read. -/
example : (Transaction.fromBytes One.mixed).toOption.isSome = true := by decide +kernel

example := C142_spend_refuted ⟨List.replicate 20 1, .livenet, .publicKey⟩ rfl 7 [] 0

example := C142_stuck_refuted (List.replicate 20 1) rfl 7

example := C142_open_refuted .toy 1 rfl [81, 81] (by decide) (by decide) 7

example := C142_script_refuted (List.replicate 20 1) rfl 7

end Bitforge.Found
