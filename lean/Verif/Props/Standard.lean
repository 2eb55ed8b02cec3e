import Verif.Spec.Policy
import Verif.Props.Size
import Verif.Props.Ledger
import Verif.Props.Multisig

/-! # C113: which outputs and payments the reference client relays -/

namespace Bitforge
open Spec Transaction

/-- The instructions of a script of the form. -/
def FormOf (ws : List WireInstr) : Ref.Form → Prop
  | .scriptHash => ∃ h : Bytes, h.length = 20 ∧ ws = [(169, none), (20, some h), (135, none)]
  | .pubkey => ∃ (i : WireInstr) (k : Bytes), ws = [i, (172, none)] ∧ i.2 = some k
  | .pubkeyHash => ∃ (i : WireInstr) (h : Bytes), ws = [(118, none), (169, none), i, (136, none), (172, none)] ∧ i.2 = some h
  | .multisig m n => ∃ opM ops opN, ws = (opM, none) :: (ops ++ [(opN, none), (174, none)]) ∧ ops.length = n ∧
      Ref.smallNumber opM = some m ∧ Ref.smallNumber opN = some n ∧ 1 ≤ m ∧ m ≤ n
  | .nullData => ws = [(106, none)] ∨ ∃ i, ws = [(106, none), i]

theorem scriptHash_encodes (h : Bytes) (hl : h.length = 20) :
    Encodes [(169, none), (20, some h), (135, none)] (169 :: 20 :: (h ++ [135])) := by
  have e : (169 :: 20 :: (h ++ [135]) : Bytes) = [169] ++ ((20 :: h) ++ ([135] ++ [])) := by simp
  rw [e]
  have hk : pushKind 20 = .direct 20 := by decide
  refine .cons (by decide) rfl (.cons ?_ ?_ (.cons (by decide) rfl .nil))
  · simp only [Wf, hk, hl]
  · simp only [IsWire, hk]

theorem isForm_wires {pub : Bytes} {f : Ref.Form} {ws : List WireInstr} (h : Ref.IsForm pub f) (he : Encodes ws pub) :
    FormOf ws f := by
  cases h with
  | scriptHash h =>
    obtain ⟨d, hd, rfl⟩ := h
    exact ⟨d, hd, encodes_injective he (scriptHash_encodes d hd)⟩
  | pubkey h1 h2 => exact ⟨_, _, encodes_injective he h1, h2⟩
  | pubkeyHash h1 h2 => exact ⟨_, _, encodes_injective he h1, h2⟩
  | multisig h1 h2 h3 h4 h5 h6 h7 => exact ⟨_, _, _, encodes_injective he h1, h2.length_eq, h4, h5, h6, h7⟩
  | nullData h1 => exact .inr ⟨_, encodes_injective he h1⟩
  | nullEmpty => exact .inl (encodes_injective he (.cons (i := (106, none)) (bs := []) (by decide) rfl .nil))

/-- Every other script has a form only if it is that of its instructions. -/
theorem last_multisig {ws ops : List WireInstr} {a b c : WireInstr} (h : ws = a :: (ops ++ [b, c])) : ws.getLast? = some c := by
  subst h
  rw [← List.cons_append, List.getLast?_append]
  rfl

theorem form_payScript (h : Bytes) (hl : h.length = 20) (f : Ref.Form) : Ref.IsForm (payScript h) f ↔ f = .pubkeyHash := by
  have he : Encodes (Ref.payToKey h) (payScript h) := payToKey_encodes h hl
  constructor
  · intro hf
    have hw := isForm_wires hf he
    unfold Ref.payToKey at hw
    cases f with
    | pubkeyHash => rfl
    | scriptHash => obtain ⟨_, _, e⟩ := hw; cases e
    | pubkey => obtain ⟨_, _, e, _⟩ := hw; cases e
    | multisig m n =>
      obtain ⟨_, _, _, e, _⟩ := hw
      have := last_multisig e
      simp at this
    | nullData => obtain e | ⟨_, e⟩ := hw <;> cases e
  · rintro rfl
    refine .pubkeyHash he ?_ hl
    obtain ⟨h2, _⟩ := Ref.pushOf_op h (by omega)
    unfold Ref.Pushes pushOf
    rw [if_neg (by omega)]

theorem form_scriptHash (h : Bytes) (hl : h.length = 20) (f : Ref.Form) :
    Ref.IsForm (169 :: 20 :: (h ++ [135])) f ↔ f = .scriptHash := by
  have he := scriptHash_encodes h hl
  constructor
  · intro hf
    have hw := isForm_wires hf he
    cases f with
    | scriptHash => rfl
    | pubkeyHash => obtain ⟨_, _, e, _⟩ := hw; cases e
    | pubkey => obtain ⟨_, _, e, _⟩ := hw; cases e
    | multisig m n =>
      obtain ⟨_, _, _, e, _⟩ := hw
      have := last_multisig e
      simp at this
    | nullData => obtain e | ⟨_, e⟩ := hw <;> cases e
  · rintro rfl
    exact .scriptHash ⟨h, hl, rfl⟩

theorem form_data (d : Bytes) (h1 : 1 ≤ d.length) (h2 : d.length ≤ 75) (f : Ref.Form) :
    Ref.IsForm (106 :: byte d.length :: d) f ↔ f = .nullData := by
  have he : Encodes [(106, none), pushOf d] ([106] ++ (shortPush d ++ [])) :=
    .cons (by decide) rfl (.cons (Ref.pushOf_wf d (by omega)) (pushOf_isWire d h1 h2) .nil)
  have e0 : (106 :: byte d.length :: d : Bytes) = [106] ++ (shortPush d ++ []) := by
    rw [List.append_nil]; rfl
  rw [e0]
  have hp : pushOf d = (Fin.ofNat 256 d.length, some d) := by
    unfold pushOf; rw [if_neg (by omega), if_pos h2]
  constructor
  · intro hf
    have hw := isForm_wires hf he
    cases f with
    | nullData => rfl
    | pubkeyHash => obtain ⟨_, _, e, _⟩ := hw; cases e
    | scriptHash => obtain ⟨_, _, e⟩ := hw; cases e
    | pubkey =>
      obtain ⟨_, _, e, _⟩ := hw
      rw [hp] at e
      simp at e
    | multisig m n =>
      obtain ⟨_, _, _, e, _⟩ := hw
      have := last_multisig e
      rw [hp] at this
      simp at this
  · rintro rfl
    refine .nullData he ?_
    rw [hp]
    simp only [Option.getD_some]
    omega

theorem smallNumber_smallOp (n : Nat) (h : n ≤ 16) : Ref.smallNumber (Ref.smallOp n) = some n := by
  have : ∀ n : Fin 17, Ref.smallNumber (Ref.smallOp n.val) = some n.val := by decide +kernel
  exact this ⟨n, by omega⟩

theorem form_redeem (m : Nat) (ks : List Bytes) (b : Bytes) (hm : m ≤ 16) (hn : ks.length ≤ 16)
    (hk : ∀ k ∈ ks, 33 ≤ k.length ∧ k.length ≤ 65) (he : Encodes (Ref.redeemScript m ks) b) (f : Ref.Form) :
    Ref.IsForm b f ↔ f = .multisig m ks.length ∧ 1 ≤ m ∧ m ≤ ks.length := by
  have h0 : ∀ n : Fin 17, Ref.smallOp n.val ≠ 118 ∧ Ref.smallOp n.val ≠ 106 ∧ Ref.smallOp n.val ≠ 169 := by decide +kernel
  have h0 := h0 ⟨m, by omega⟩
  have hlast : (Ref.redeemScript m ks).getLast? = some (174, none) := last_multisig rfl
  constructor
  · intro hf
    have hw := isForm_wires hf he
    cases f with
    | nullData =>
      obtain e | ⟨_, e⟩ := hw
      · rw [e] at hlast; simp at hlast
      · unfold Ref.redeemScript at e
        simp only [List.cons.injEq, Prod.mk.injEq] at e
        exact absurd e.1.1 h0.2.1
    | pubkeyHash => obtain ⟨_, _, e, _⟩ := hw; rw [e] at hlast; simp at hlast
    | scriptHash => obtain ⟨_, _, e⟩ := hw; rw [e] at hlast; simp at hlast
    | pubkey => obtain ⟨_, _, e, _⟩ := hw; rw [e] at hlast; simp at hlast
    | multisig m' n' =>
      obtain ⟨opM, ops, opN, e, hl, hM, hN, g1, g2⟩ := hw
      unfold Ref.redeemScript at e
      simp only [List.cons.injEq, Prod.mk.injEq] at e
      obtain ⟨e1, e2⟩ := e
      obtain ⟨e3, e4⟩ := List.append_inj' e2 rfl
      rw [← e1.1, smallNumber_smallOp m hm] at hM
      cases hM
      have : ks.length = n' := by rw [← hl, ← e3, List.length_map]
      subst this
      exact ⟨rfl, g1, g2⟩
  · rintro ⟨rfl, g1, g2⟩
    refine .multisig (ops := ks.map pushOf) he ?_ hk (smallNumber_smallOp m hm) (smallNumber_smallOp _ hn) g1 g2
    rw [List.forall₂_map_left_iff, List.forall₂_same]
    intro k hk'
    have := hk k hk'
    unfold Ref.Pushes pushOf
    rw [if_neg (by omega)]

/-- C113. `AddressOutput` makes a pay-to-pubkey-hash script, which is relayed. -/
theorem C113_address (v : Int) (a : Address) (ha : a.phash.length = 20) : ∃ o b, AddressOutput.create v a = .ok o ∧
    o.script.toBytes = .ok b ∧ ∀ f, Ref.IsForm b f ↔ f = .pubkeyHash := by
  obtain ⟨o, h1, _, _, h2, _⟩ := C43_address v a ha
  exact ⟨o, _, h1, h2, form_payScript _ ha⟩

/-- C113. `ScriptOutput` makes a pay-to-script-hash script, which is relayed, of any script that can be serialised. -/
theorem C113_script (H : Hashes) (v : Int) (r : Script) (rb : Bytes) (h : r.toBytes = .ok rb) :
    ∃ o b, ScriptOutput.create H v r = .ok o ∧ o.script.toBytes = .ok b ∧ ∀ f, Ref.IsForm b f ↔ f = .scriptHash := by
  obtain ⟨o, h1, _, _, h2, _⟩ := (C43_script H v r).2 rb h
  exact ⟨o, _, h1, h2, form_scriptHash _ (H.ripemd160_length _)⟩

/-- C113. `DataOutput` makes a script of data, which is relayed, of 1 to 75 bytes. -/
theorem C113_data (d : Bytes) (h1 : 1 ≤ d.length) (h2 : d.length ≤ 75) :
    ∃ o b, DataOutput.create ⟨.str, d⟩ = .ok o ∧ o.script.toBytes = .ok b ∧ ∀ f, Ref.IsForm b f ↔ f = .nullData := by
  obtain ⟨o, h, _, _, _, _, _, hb, _⟩ := C43_data_partial d h1 (by omega)
  exact ⟨o, _, h, hb h2, form_data d h1 h2⟩

theorem multisig_form (v : Int) (ks : List PublicKey) (m : Nat) (hk : ∀ k ∈ ks, k.Valid) (hm : m ≤ 16)
    (hn : ks.length ≤ 16) : ∃ o b, MultisigOutput.create v ks m = .ok o ∧ o.script.toBytes = .ok b ∧
      ∀ f, Ref.IsForm b f ↔ f = .multisig m ks.length ∧ 1 ≤ m ∧ m ≤ ks.length := by
  obtain ⟨s, bs, rb, hR⟩ := redeem_made ks m hk hm hn
  obtain ⟨hs, hf, hb, hw, he, -⟩ := hR
  have hl : bs.length = ks.length := hf.length_eq.symm
  have hlen : ∀ b ∈ bs, 33 ≤ b.length ∧ b.length ≤ 65 := by
    intro b hb
    obtain ⟨p, _, _, h⟩ := forall₂_mem_left hf.flip hb
    rw [h]
    split <;> omega
  refine ⟨⟨.multisig, v, s⟩, rb, by unfold MultisigOutput.create; rw [hs], hb, fun f => ?_⟩
  rw [← hl]
  exact form_redeem m bs rb hm (by omega) hlen (hw ▸ he) f

/-- C113, part that holds: `MultisigOutput` makes a script that is relayed exactly if it asks for at least one of at most
three keys, and not for more keys than there are.  Missing: the constructor takes up to sixteen keys and any number. -/
theorem C113_multisig_partial (v : Int) (ks : List PublicKey) (m : Nat) (hk : ∀ k ∈ ks, k.Valid) (hm : m ≤ 16)
    (hn : ks.length ≤ 16) : ∃ o b, MultisigOutput.create v ks m = .ok o ∧ o.script.toBytes = .ok b ∧
      ((∃ f, Ref.IsForm b f ∧ f.Ok) ↔ 1 ≤ m ∧ m ≤ ks.length ∧ ks.length ≤ 3) := by
  obtain ⟨o, b, h1, h2, h3⟩ := multisig_form v ks m hk hm hn
  refine ⟨o, b, h1, h2, ?_⟩
  constructor
  · rintro ⟨f, hf, hok⟩
    obtain ⟨rfl, g1, g2⟩ := (h3 f).1 hf
    exact ⟨g1, g2, hok⟩
  · rintro ⟨g1, g2, g3⟩
    exact ⟨_, (h3 _).2 ⟨rfl, g1, g2⟩, g3⟩

/-- C113 is false of the code: no output of four or more keys is relayed, whatever the amount and the fee. -/
theorem C113_keys_refuted (v : Int) (ks : List PublicKey) (m : Nat) (hk : ∀ k ∈ ks, k.Valid) (hm : m ≤ 16)
    (h4 : 4 ≤ ks.length) (hn : ks.length ≤ 16) : ∃ o b, MultisigOutput.create v ks m = .ok o ∧ o.script.toBytes = .ok b ∧
      ∀ rate amount, ¬ Ref.OutputOk rate ⟨amount, b⟩ := by
  obtain ⟨o, b, h1, h2, h3⟩ := C113_multisig_partial v ks m hk hm hn
  refine ⟨o, b, h1, h2, fun rate amount ⟨f, hf, hok, _⟩ => ?_⟩
  have := (h3.1 ⟨f, hf, hok⟩).2.2
  omega

/-- C113 is false of the code: an output that asks for more keys than there are, which nobody can spend, is made. -/
theorem C113_count_refuted (v : Int) (ks : List PublicKey) (m : Nat) (hk : ∀ k ∈ ks, k.Valid) (hm : m ≤ 16)
    (hlt : ks.length < m) : ∃ o b, MultisigOutput.create v ks m = .ok o ∧ o.script.toBytes = .ok b ∧ ∀ f, ¬ Ref.IsForm b f := by
  obtain ⟨o, b, h1, h2, h3⟩ := multisig_form v ks m hk hm (by omega)
  refine ⟨o, b, h1, h2, fun f hf => ?_⟩
  have := ((h3 f).1 hf).2.2
  omega

theorem payOut_size (o : WireOut) (h : Bytes) (hl : h.length = 20) (hs : o.script = payScript h) : o.bytes.length = 34 := by
  have hsl : (payScript h).length = 25 := by
    simp only [payScript, List.length_cons, List.length_append, hl, List.length_nil]
  simp only [WireOut.bytes, List.length_append, le_length, compactSize_length, hs, hsl]
  rfl

/-- An output to an address is relayed exactly if it pays at least three times the fee for 182 bytes. -/
theorem payOut_ok (rate : Nat) (o : WireOut) (h : Bytes) (hl : h.length = 20) (hs : o.script = payScript h) :
    Ref.OutputOk rate o ↔ 3 * Ref.feeFor rate 182 ≤ o.amount := by
  unfold Ref.OutputOk Ref.Dust
  rw [payOut_size o h hl hs, show 34 + 148 = 182 from rfl]
  constructor
  · rintro ⟨f, hf, _, hd⟩
    rw [hs, form_payScript h hl] at hf
    subst hf
    have := hd (by simp)
    omega
  · intro h'
    refine ⟨.pubkeyHash, by rw [hs, form_payScript h hl], trivial, fun _ => ?_⟩
    omega

theorem signed_inputOk (x : WireIn) (a b : Bytes) (hx : x.script = shortPush a ++ shortPush b) (ha : 1 ≤ a.length)
    (ha' : a.length ≤ 75) (hb : 1 ≤ b.length) (hb' : b.length ≤ 75) : Ref.InputOk x := by
  have he : Encodes [pushOf a, pushOf b] (shortPush a ++ (shortPush b ++ [])) :=
    .cons (Ref.pushOf_wf a (by omega)) (pushOf_isWire a ha ha') (.cons (Ref.pushOf_wf b (by omega)) (pushOf_isWire b hb hb') .nil)
  have hp : ∀ d : Bytes, 1 ≤ d.length → d.length ≤ 75 → (pushOf d).1.val ≤ 96 := by
    intro d h1 h2
    unfold pushOf
    rw [if_neg (by omega), if_pos h2]
    show d.length % 256 ≤ 96
    omega
  refine ⟨?_, [pushOf a, pushOf b], ?_, ?_⟩
  · rw [hx, List.length_append, shortPush_length, shortPush_length]; omega
  · rw [hx, ← List.append_nil (shortPush b)]; exact he
  · intro i hi
    simp only [List.mem_cons, List.not_mem_nil, or_false] at hi
    rcases hi with rfl | rfl
    · exact hp a ha ha'
    · exact hp b hb hb'

/-- C113. The inputs of signed transfers are relayed, so that a transfer is relayed exactly if its outputs are, at most one
of them is data, and it has less than 100000 bytes. -/
theorem C113_transfer (H : Hashes) (nonces : Nat → Nat → Nat) (hν : ∀ n, NoncesOk (nonces n)) (cs : List Coin)
    (os : List Output) (hc : cs ≠ []) (hco : ∀ c ∈ cs, c.Ok) (hp : os ≠ []) (hpo : ∀ o ∈ os, o.Fine)
    (hcl : cs.length < 2 ^ 63) (hpl : os.length < 2 ^ 63) :
    Payment.transfer H (fun n => keySigner (nonces n)) cs os = .error .rsZeroError ∨
    ∃ w : WireTx, Payment.transfer H (fun n => keySigner (nonces n)) cs os = .ok (hexText w.bytes) ∧
      List.Forall₂ Output.Shows os w.outputs ∧ w.version = 1 ∧ (∀ i ∈ w.inputs, Ref.InputOk i) ∧
      ∀ rate, Ref.Standard rate w ↔ w.bytes.length < 100000 ∧ (∀ o ∈ w.outputs, Ref.OutputOk rate o) ∧
        ∀ (i j : Nat) (a b : WireOut), w.outputs[i]? = some a → w.outputs[j]? = some b → Ref.IsForm a.script .nullData →
          Ref.IsForm b.script .nullData → i = j := by
  rcases C92_transfer H nonces hν cs os hc hco hp hpo hcl hpl with h | ⟨w, h1, h2, _, h4, h5, _, h7⟩
  · exact .inl h
  · right
    have hi : ∀ i ∈ w.inputs, Ref.InputOk i := by
      intro x hx
      obtain ⟨n, hn⟩ := List.getElem?_of_mem hx
      have hn' : n < cs.length := by rw [h4.length_eq]; exact (List.getElem?_eq_some_iff.1 hn).1
      obtain ⟨sb, b, h, ⟨p, hpk, hpb, _⟩, hsc, hsl, _⟩ := h7 n _ x (List.getElem?_eq_getElem hn') hn
      have hl := toPublicKey_size hpk hpb
      have hl' : 33 ≤ b.length ∧ b.length ≤ 65 := by rw [hl]; unfold PrivateKey.secSize; split <;> omega
      exact signed_inputOk x sb b hsc (by omega) (by omega) (by omega) (by omega)
    refine ⟨w, h1, h5, h2, hi, fun rate => ?_⟩
    have hd : ∀ (l : List WireOut) (p : WireOut → Bool), (l.filter p).length ≤ 1 ↔
        ∀ (i j : Nat) (a b : WireOut), l[i]? = some a → l[j]? = some b → p a = true → p b = true → i = j := by
      intro l p
      induction l with
      | nil => simp
      | cons x l ih =>
        by_cases hx : p x = true
        · rw [List.filter_cons_of_pos hx, List.length_cons]
          constructor
          · intro h
            have h0 : l.filter p = [] := List.length_eq_zero_iff.1 (by omega)
            rw [List.filter_eq_nil_iff] at h0
            intro i j a b ha hb pa pb
            cases i with
            | succ i => exact absurd pa (h0 a (List.mem_of_getElem? ha))
            | zero =>
              cases j with
              | zero => rfl
              | succ j => exact absurd pb (h0 b (List.mem_of_getElem? hb))
          · intro h
            have : l.filter p = [] := by
              rw [List.filter_eq_nil_iff]
              intro b hb pb
              obtain ⟨j, hj⟩ := List.getElem?_of_mem hb
              exact absurd (h 0 (j + 1) x b rfl hj hx pb) (by omega)
            rw [this]; simp
        · rw [List.filter_cons_of_neg hx, ih]
          constructor
          · intro h i j a b ha hb pa pb
            cases i with
            | zero => simp only [List.getElem?_cons_zero, Option.some.injEq] at ha; subst ha; exact absurd pa hx
            | succ i =>
              cases j with
              | zero => simp only [List.getElem?_cons_zero, Option.some.injEq] at hb; subst hb; exact absurd pb hx
              | succ j => rw [h i j a b ha hb pa pb]
          · intro h i j a b ha hb pa pb
            have := h (i + 1) (j + 1) a b ha hb pa pb
            omega
    constructor
    · rintro ⟨_, a, _, b, c⟩
      refine ⟨a, b, ?_⟩
      rw [hd] at c
      simpa only [decide_eq_true_eq] using c
    · rintro ⟨a, b, c⟩
      refine ⟨h2, a, hi, b, ?_⟩
      rw [hd]
      simpa only [decide_eq_true_eq] using c

/-- C113, part that holds for the payments of the examples: the signed transaction is relayed exactly if it has less than
100000 bytes and every payment is at least three times the fee for 182 bytes: 546 units, at a fee of 1000 for a thousand
bytes. -/
theorem C113_payment_partial (H : Hashes) (nonces : Nat → Nat → Nat) (hν : ∀ n, NoncesOk (nonces n)) (cs : List Coin)
    (ps : List (Int × Address)) (hc : cs ≠ []) (hco : ∀ c ∈ cs, c.Ok) (hp : ps ≠ []) (hpo : ∀ p ∈ ps, PayOk p)
    (hcl : cs.length < 2 ^ 63) (hpl : ps.length < 2 ^ 63) :
    Payment.run H (fun n => keySigner (nonces n)) cs ps = .error .rsZeroError ∨
    ∃ w : WireTx, Payment.run H (fun n => keySigner (nonces n)) cs ps = .ok (hexText w.bytes) ∧
      ∀ rate, Ref.Standard rate w ↔ w.bytes.length < 100000 ∧ ∀ p ∈ ps, 3 * Ref.feeFor rate 182 ≤ p.1 := by
  obtain ⟨xs, os, hxs, hnew, ht, ho0, hol, hof, _, _, ho⟩ := build_serialisable H cs ps hc hco hp hpo hcl hpl
  have e : Payment.run H (fun n => keySigner (nonces n)) cs ps = Payment.transfer H (fun n => keySigner (nonces n)) cs os := by
    simp only [Payment.run, Payment.transfer, ht, hxs, hnew]
  rw [e]
  rcases C113_transfer H nonces hν cs os hc hco ho0 hof hcl hol with h | ⟨w, h1, h2, _, _, h3⟩
  · exact .inl h
  · refine .inr ⟨w, h1, fun rate => (h3 rate).trans (and_congr_right fun _ => ?_)⟩
    have hps : List.Forall₂ Pays ps w.outputs := shows_pays ho hpo h2
    have hdata : ∀ o ∈ w.outputs, ¬ Ref.IsForm o.script .nullData := by
      intro o ho' hf
      obtain ⟨p, hpm, hpp⟩ := forall₂_mem_left hps.flip ho'
      rw [hpp.2, form_payScript _ (hpo p hpm).2] at hf
      cases hf
    have hall : (∀ o ∈ w.outputs, Ref.OutputOk rate o) ↔ ∀ p ∈ ps, 3 * (Ref.feeFor rate 182 : Int) ≤ p.1 := by
      clear hdata h3 h2 h1 ho e ht hc hcl hp hpl hxs hnew
      generalize w.outputs = ws at hps
      induction hps with
      | nil => simp
      | cons hx _ ih =>
        rw [List.forall_mem_cons, List.forall_mem_cons, ih fun p hp => hpo p (List.mem_cons_of_mem _ hp),
          payOut_ok rate _ _ (hpo _ List.mem_cons_self).2 hx.2, hx.1]
        exact and_congr_left fun _ => by omega
    rw [hall]
    exact ⟨fun h => h.1, fun h => ⟨h, fun i j a b ha _ pa _ => absurd pa (hdata a (List.mem_of_getElem? ha))⟩⟩

/-- C113. It is enough that there are at most 300 coins and 1300 payments, of at least 546 units each. -/
theorem C113_payment (H : Hashes) (nonces : Nat → Nat → Nat) (hν : ∀ n, NoncesOk (nonces n)) (cs : List Coin)
    (ps : List (Int × Address)) (hc : cs ≠ []) (hco : ∀ c ∈ cs, c.Ok) (hp : ps ≠ []) (hpo : ∀ p ∈ ps, PayOk p)
    (hcl : cs.length ≤ 300) (hpl : ps.length ≤ 1300) (hd : ∀ p ∈ ps, 546 ≤ p.1) :
    Payment.run H (fun n => keySigner (nonces n)) cs ps = .error .rsZeroError ∨
    ∃ w : WireTx, Payment.run H (fun n => keySigner (nonces n)) cs ps = .ok (hexText w.bytes) ∧ Ref.Standard 1000 w := by
  have l1 : cs.length < 2 ^ 63 := by omega
  have l2 : ps.length < 2 ^ 63 := by omega
  rcases C113_payment_partial H nonces hν cs ps hc hco hp hpo l1 l2 with h | ⟨w, h, hiff⟩
  · exact .inl h
  · rcases C103_payment H nonces hν cs ps hc hco hp hpo l1 l2 with h' | ⟨b, base, h', hb, -, hu⟩
    · exact .inl h'
    · right
      rw [h] at h'
      have e : w.bytes = b := hexText_inj (by injection h')
      have hfee : (3 * (Ref.feeFor 1000 182 : Int)) = 546 := by decide
      refine ⟨w, h, (hiff 1000).2 ⟨?_, fun p hp => by rw [hfee]; exact hd p hp⟩⟩
      have hs : (cs.map fun c => 115 + c.key.secSize).sum ≤ 180 * cs.length := by
        clear hiff hu hb h' h l1 hcl hco hc
        induction cs with
        | nil => simp
        | cons c cs ih =>
          have : c.key.secSize ≤ 65 := by unfold PrivateKey.secSize; split <;> omega
          simp only [List.map_cons, List.sum_cons, List.length_cons]
          omega
      have hcs : ∀ n, countSize n ≤ 9 := by intro n; unfold countSize; split_ifs <;> omega
      have := hcs cs.length
      have := hcs ps.length
      rw [e]
      omega

/-- C113 is false of the code: a payment of less is signed all the same, and not relayed. -/
theorem C113_dust_refuted (H : Hashes) (nonces : Nat → Nat → Nat) (hν : ∀ n, NoncesOk (nonces n)) (c : Coin) (hco : c.Ok)
    (p : Int × Address) (hpo : PayOk p) (hd : p.1 < 546) :
    Payment.run H (fun n => keySigner (nonces n)) [c] [p] = .error .rsZeroError ∨
    ∃ w : WireTx, Payment.run H (fun n => keySigner (nonces n)) [c] [p] = .ok (hexText w.bytes) ∧ ¬ Ref.Standard 1000 w := by
  rcases C113_payment_partial H nonces hν [c] [p] (by simp) (by simpa using hco) (by simp) (by simpa using hpo)
    (by simp) (by simp) with h | ⟨w, h, hiff⟩
  · exact .inl h
  · refine .inr ⟨w, h, fun hs => ?_⟩
    have hfee : (3 * (Ref.feeFor 1000 182 : Int)) = 546 := by decide
    have := ((hiff 1000).1 hs).2 p (by simp)
    rw [hfee] at this
    omega

/-- The payment of the example of C92 meets the hypotheses. -/
example : sampleCoins.length ≤ 300 ∧ (546 : Int) ≤ 10000 := by decide

end Bitforge
