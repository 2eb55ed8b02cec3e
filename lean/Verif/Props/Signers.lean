import Verif.Props.Sender

/-! # C145: who has signed for a multisig payment can be told from the transaction

An input that the reference client accepts for a payment to the hash of a multisig script has one form under the rules of
nodes.  The theorems say what the library reads of it. -/

namespace Bitforge.Spec.Ref

/-- With MINIMALDATA, only OP_0 pushes the empty string. -/
theorem act_empty {H : Hashes} {C : Checker} {flags : Nat} (h6 : flags.testBit 6) {i : WireInstr}
    {after : List WireInstr} {s s' : St} (hi : i.1.val ≤ 96) (hc : s.cond = []) (h : act H C flags i after s = some s')
    (he : s'.stack.head? = some []) : i.1 = 0 := by
  obtain ⟨op, od⟩ := i
  simp only [] at hi
  unfold act at h
  simp only [hc, List.all_nil, true_and, true_or, if_true] at h
  rw [if_neg (by omega : ¬ op.val > 96)] at h
  split at h
  · cases h
  · split at h
    · cases h
    · split at h
      · cases h
      · split at h
        · next h78 =>
          split at h
          · cases h
          · next hm =>
            cases h
            simp only [List.head?_cons, Option.some.injEq] at he
            rw [he] at hm
            have hm : minimalPush op.val [] = true := by
              by_contra hn
              exact hm ⟨h6, by simpa using hn⟩
            exact Fin.ext (eq_of_beq hm)
        · by_cases h79 : op.val = 79
          · rw [h79] at h
            have e : exec H C flags 79 true after s = some { s with stack := serialize (-1) :: s.stack } := rfl
            rw [e] at h
            cases h
            exact absurd he (by simp only [List.head?_cons]; decide)
          · by_cases h80 : op.val = 80
            · rw [h80] at h
              have e : exec H C flags 80 true after s = none := rfl
              rw [e] at h
              cases h
            · have e : exec H C flags op.val true after s = some { s with stack := serialize ((op.val : Int) - 80) :: s.stack } := by
                unfold exec
                rw [if_neg h79, if_pos (by omega)]
              rw [e] at h
              cases h
              have : ∀ n : Nat, n < 17 → 1 ≤ n → serialize ((n : Nat) : Int) ≠ [] := by decide
              rw [show ((op.val : Int) - 80) = ((op.val - 80 : Nat) : Int) by omega] at he
              exact absurd (Option.some.inj he) (this _ (by omega) (by omega))

/-- `run_pushOnly`, with the empty string. -/
theorem run_pushOnly_empty {H : Hashes} {C : Checker} {flags : Nat} (h6 : flags.testBit 6) :
    ∀ (s : List WireInstr) (σ r : St), PushOnly s → σ.cond = [] → run H C flags s σ = some r →
    ∃ ds, r.stack = ds.reverse ++ σ.stack ∧
      List.Forall₂ (fun i d => (2 ≤ d.length → i = pushOf d) ∧ (d = [] → i.1 = 0)) s ds
  | [], σ, r, _, _, h => by cases h; exact ⟨[], by simp, .nil⟩
  | i :: is, σ, r, hp, hc, h => by
    rw [run] at h
    cases ha : act H C flags i is σ with
    | none => rw [ha] at h; cases h
    | some σ' =>
      rw [ha] at h
      simp only [] at h
      obtain ⟨d, rfl, hd⟩ := act_pushOnly h6 (hp i (by simp)) hc ha
      have hd' : d = [] → i.1 = 0 := fun e => act_empty h6 (hp i (by simp)) hc ha (by rw [e]; rfl)
      split at h
      · cases h
      · obtain ⟨ds, e, hf⟩ := run_pushOnly_empty h6 is { σ with stack := d :: σ.stack } r (fun j hj => hp j (by simp [hj])) hc h
        exact ⟨d :: ds, by simpa using e, .cons ⟨hd, hd'⟩ hf⟩

/-- `redeem_inv`, with what is left on the stack. -/
theorem redeem_left {H : Hashes} {C : Checker} {flags m : Nat} {keys st st' : List Bytes}
    (hk : ∀ k ∈ keys, 2 ≤ k.length ∧ k.length ≤ 65) (hm : m ≤ 16) (hn : keys.length ≤ 16)
    (he : eval H C flags (redeemScript m keys) st = some st') (hs : Succeeds st') :
    m ≤ keys.length ∧ ∃ sigs d rest, st = sigs ++ d :: rest ∧ sigs.length = m ∧ (flags.testBit 4 → d = []) ∧ (∃ x, st' = x :: rest) ∧
      multisig (C.sig (redeemScript m keys) sigs) sigs keys.reverse = some true := by
  obtain ⟨s, hr, rfl⟩ := eval_inv he
  generalize hcode : redeemScript m keys = code at hr ⊢
  have hr : run H C flags (redeemScript m keys) { stack := st, code := code } = some s := by rw [hcode]; exact hr
  unfold redeemScript at hr
  have hr := run_act (act_small H C flags m hm _ _ rfl) hr
  have hr := run_pushes_inv keys _ (fun b hb => ⟨(hk b hb).1, by have := (hk b hb).2; omega⟩) rfl hr
  have hr := run_act (act_small H C flags keys.length hn _ _ rfl) hr
  obtain ⟨s1, e1, hr⟩ := run_op_inv (by decide) (by decide) rfl (by simp only []; omega) hr
  have n1 := number_serialize_small (flags.testBit 6) keys.length hn
  have n2 := number_serialize_small (flags.testBit 6) m (by omega)
  have d3 : ∀ l : List Bytes, List.drop keys.length (keys.reverse ++ l) = l := fun l => by
    rw [List.drop_left' (by simp)]
  have d4 : ∀ l : List Bytes, List.take keys.length (keys.reverse ++ l) = keys.reverse := fun l => by
    rw [List.take_left' (by simp)]
  simp only [exec, show (174 : Byte).val = 174 from rfl, n1] at e1
  norm_num [d3, d4] at e1
  obtain ⟨_, _, e1⟩ := e1
  simp only [n2, Int.toNat_natCast] at e1
  split at e1
  · cases e1
  · next hmn =>
    split at e1
    · cases e1
    · next d rest hd =>
      split at e1
      · cases e1
      · next ok hok =>
        have hst : st = st.take m ++ d :: rest := by rw [← hd, List.take_append_drop]
        have hlen : (st.take m).length = m := by
          have := congrArg List.length hd
          simp only [List.length_drop, List.length_cons] at this
          simp only [List.length_take]; omega
        split at e1
        · cases e1
        · next hdd =>
          cases e1
          cases hr
          obtain ⟨x, r, e, ht⟩ := hs
          cases e
          have := truth_flag ht
          subst this
          refine ⟨by omega, st.take m, d, rest, hst, hlen, fun hb => ?_, ⟨_, rfl⟩, hok⟩
          by_contra hne
          exact hdd ⟨hb, hne⟩

end Bitforge.Spec.Ref

namespace Bitforge.Signers
open Spec Txs Scripts Found

/-- The rules of nodes for payments to scripts: those of C98, P2SH (bit 0) and NULLDUMMY (bit 4). -/
def ScriptRules (flags : Nat) : Prop := NodeRules flags ∧ flags.testBit 0 ∧ flags.testBit 4

theorem pushes_of {is : List WireInstr} {ds : List Bytes} (h2 : ∀ d ∈ ds, 2 ≤ d.length)
    (h : List.Forall₂ (fun i d => (2 ≤ d.length → i = pushOf d) ∧ (d = [] → i.1 = 0)) is ds) : is = ds.map pushOf := by
  induction h with
  | nil => rfl
  | cons h _ ih =>
    rw [List.map_cons, h.1 (h2 _ (by simp)), ih fun d hd => h2 d (by simp [hd])]

theorem endorsed_sigs {H : Hashes} {flags : Nat} {w : WireTx} {n m : Nat} {keys sigs : List Bytes}
    (h : EndorsedBy H flags w n m keys sigs) : ∀ g ∈ sigs, 9 ≤ g.length ∧ g.length ≤ 73 := fun g hg => by
  obtain ⟨-, sub, -, hf⟩ := h
  obtain ⟨k, -, hk⟩ := forall₂_mem_left hf hg
  have := endorsed_lengths hk
  omega

/-- C145. Under the rules of nodes, an input that spends a payment to the hash of a multisig script is OP_0, as many signatures as
the script needs, and the script; or it shows a script that collides with it. -/
theorem C145_form (H : Hashes) (flags : Nat) (hf : ScriptRules flags) (w : WireTx) (n : Nat) (m : Nat) (keys : List Bytes)
    (hk : ∀ b ∈ keys, ∃ x y c, Sec x y c b) (hm : m ≤ 16) (hn : keys.length ≤ 16) (rb : Bytes)
    (hr : Encodes (Ref.redeemScript m keys) rb)
    (hs : Ref.Spends H flags w n (169 :: 20 :: (H.ripemd160 (H.sha256 rb) ++ [135]))) :
    ∃ x redeem rest, w.inputs[n]? = some x ∧ Leaves H flags w n (redeem :: rest) ∧
      (Collide160 H redeem rb ∨ ∃ sigs, EndorsedBy H flags w n m keys sigs ∧
        Encodes ((0, none) :: (sigs ++ [rb]).map pushOf) x.script) := by
  obtain ⟨⟨-, h5, h6, h8⟩, h0, h4⟩ := hf
  have hl := H.ripemd160_length (H.sha256 rb)
  obtain ⟨x, hx, s, p, st, st', es, ep, hpo, e1, e2, hsu, hif⟩ := hs
  cases encodes_injective ep (payToScript_encodes _ hl)
  obtain ⟨redeem, rest, rfl, hh⟩ := Ref.payToScript_inv hl e2 hsu
  rw [if_pos ⟨h0, _, hl, rfl⟩] at hif
  obtain ⟨-, redeem', rest', is, st'', e, he, hev, hsu', hcl⟩ := hif
  cases e
  refine ⟨x, redeem, rest, hx, ⟨x, s, hx, es, e1⟩, ?_⟩
  rcases hash160_cases H hh with rfl | hc
  · refine .inr ?_
    cases encodes_injective he hr
    obtain ⟨-, gs, d, rest', hst, hgl, hd, ⟨y, hy⟩, hmu⟩ := Ref.redeem_left (sec_lengths hk) hm hn hev hsu'
    obtain ⟨sub, g1, g2⟩ := multisig_sound _ _ _ hmu
    have hend : EndorsedBy H flags w n m keys gs.reverse := by
      refine ⟨by simp [hgl], sub.reverse, by simpa using g1.reverse, ?_⟩
      rw [List.forall₂_reverse_iff, endorsed_reverse]
      exact g2.imp fun _ _ => checker_iff.1
    have hnil : rest' = [] := by
      have := hcl h8
      rw [hy] at this
      simpa using this
    cases hd h4
    subst hnil
    subst hst
    refine ⟨gs.reverse, hend, ?_⟩
    obtain ⟨σ, hrun, hσ⟩ := Ref.eval_inv e1
    obtain ⟨ds, e, hds⟩ := Ref.run_pushOnly_empty h6 s _ σ (hpo h5) rfl hrun
    rw [hσ] at e
    have : ds = [] :: (gs.reverse ++ [redeem]) := by
      have := congrArg List.reverse e
      simpa using this.symm
    subst this
    obtain ⟨i, js, hi, hds1, rfl⟩ := List.forall₂_cons_right_iff.1 hds
    have h2 : 2 ≤ redeem.length := by
      rw [encodes_unique hr (redeem_encodes m hm keys hn fun k hk' => by have := sec_lengths hk k hk'; omega)]
      simp only [List.length_cons, List.length_append, List.length_nil]
      omega
    have := pushes_of (fun d hd => by
      rcases List.mem_append.1 hd with h | h
      · have := endorsed_sigs hend d h
        omega
      · rw [List.mem_singleton.1 h]
        exact h2) hds1
    subst this
    have hwf := encodes_wf es i (by simp)
    obtain ⟨op, od⟩ := i
    obtain rfl : op = 0 := hi.2 rfl
    cases od with
    | none => exact es
    | some d => exact absurd hwf (by simp [Wf, show pushKind 0 = .plain by decide])
  · exact .inl hc

theorem script_paid {H : Hashes} {v : Int} {r : Script} {rb : Bytes} (hr : r.toBytes = .ok rb) {o : Output}
    (ho : ScriptOutput.create H v r = .ok o) {b : Bytes} (hb : o.script.toBytes = .ok b) :
    b = 169 :: 20 :: (H.ripemd160 (H.sha256 rb) ++ [135]) := by
  obtain ⟨o', ho', _, _, hb', _⟩ := (C43_script H v r).2 rb hr
  rw [ho] at ho'
  cases ho'
  rw [hb] at hb'
  cases hb'
  rfl

theorem form_shape {ds : List Bytes} (h : ∀ d ∈ ds, 1 ≤ d.length) {b : Bytes} (he : Encodes ((0, none) :: ds.map pushOf) b) :
    shape ((0, none) :: ds.map pushOf) = some 0 :: List.replicate ds.length none := by
  have hwf := encodes_wf he
  rw [shape, List.map_cons]
  congr 1
  rw [List.map_map, List.eq_replicate_iff]
  refine ⟨by simp, fun y hy => ?_⟩
  obtain ⟨d, hd, rfl⟩ := List.mem_map.1 hy
  exact push_shape (hwf _ (List.mem_cons_of_mem _ (List.mem_map_of_mem hd))) (Ref.pushOf_op d (h d hd)).1

theorem form_data {ds : List Bytes} (h : ∀ d ∈ ds, 1 ≤ d.length) :
    (ds.map pushOf).map (fun i => (instruction .bytearray i).data) = ds.map fun d => some ⟨.bytearray, d⟩ := by
  rw [List.map_map]
  refine List.map_congr_left fun d hd => ?_
  simp only [Function.comp, instruction, (Ref.pushOf_op d (h d hd)).1, Option.map_some]

/-- What is read of an input that is OP_0 and pushes. -/
theorem form_read {sigs : List Bytes} {rb : Bytes} (hlen : ∀ d ∈ sigs ++ [rb], 1 ≤ d.length) (h2 : 2 ≤ (sigs ++ [rb]).length)
    {x : WireIn} (he : Encodes ((0, none) :: (sigs ++ [rb]).map pushOf) x.script) (cls : InputClass) :
    (∃ i, ReadIn cls x i) ∧ ∀ i, ReadIn cls x i →
      i.script.cls = .payToScriptIn ∧ PayToScriptIn.getSignatures i.script = sigs.map (fun g => some ⟨.bytearray, g⟩) ∧
      PayToScriptIn.getScript i.script = Script.fromBytes rb := by
  have hsh := form_shape hlen he
  have hmatch : Matches .p2shIn (shape ((0, none) :: (sigs ++ [rb]).map pushOf)) :=
    ⟨(sigs ++ [rb]).length, h2, hsh⟩
  refine ⟨?_, fun i hi => ?_⟩
  · rcases script_fromBytes _ _ he with ⟨_, sc, g1, -, -⟩ | ⟨hc, _⟩
    · exact ⟨_, .mk ((C129_bytes _ _).1 g1)⟩
    · exact absurd hmatch hc.2.1
  · cases hi with
    | mk hbr =>
      rename_i sc
      obtain ⟨ws, he', hins, htm⟩ := read_script hbr
      obtain rfl := encodes_injective he' he
      refine ⟨?_, ?_, ?_⟩
      · have hq : sc.cls.template = some .p2shIn := (htm .p2shIn).2 hmatch
        show sc.cls = _
        generalize sc.cls = q at hq
        cases q <;> first | rfl | cases hq
      · show PayToScriptIn.getSignatures sc = _
        unfold PayToScriptIn.getSignatures
        rw [hins]
        have hd := form_data (ds := sigs) fun d hd => hlen d (by simp [hd])
        simp only [List.map_cons, List.map_append, List.map_nil, List.length_cons, List.length_append, List.length_map,
          List.length_nil, Nat.add_sub_cancel]
        rw [List.take_succ_cons, List.drop_succ_cons, List.drop_zero, List.take_left' (by simp)]
        rw [List.map_map]
        exact hd
      · show PayToScriptIn.getScript sc = _
        unfold PayToScriptIn.getScript
        rw [hins]
        have hd := (Ref.pushOf_op rb (hlen rb (by simp))).1
        simp only [List.map_cons, List.map_append, List.map_nil, ← List.cons_append, List.getLast?_concat, instruction, hd,
          Option.map_some]

/-- C145, part that holds: the input is read as one of class PayToScriptIn, `get_signatures` gives the signatures, which are by
some of the keys in their order, and `get_script` reads the multisig script; unless the script that the input shows collides
with it.  Missing: the keys, see the refutation. -/
theorem C145_signers_partial (H : Hashes) (flags : Nat) (hf : ScriptRules flags) (ks : List PublicKey) (m : Nat)
    (hk : ∀ k ∈ ks, k.Valid) (h1 : 1 ≤ m) (hm : m ≤ 16) (h2 : ks.length ≤ 16) (r : Script) (hr : RedeemMultisig.create ks m = .ok r)
    (v : Int) (o : Output) (ho : ScriptOutput.create H v r = .ok o) (b : Bytes) (hb : o.script.toBytes = .ok b)
    (w : WireTx) (n : Nat) (hs : Ref.Spends H flags w n b) (x : WireIn) (hx : w.inputs[n]? = some x) (cls : InputClass) :
    ∃ bs rb redeem rest, List.Forall₂ (fun (k : PublicKey) b => k.toBytes = .ok b) ks bs ∧ r.toBytes = .ok rb ∧
      Leaves H flags w n (redeem :: rest) ∧ (Collide160 H redeem rb ∨
        (∃ i, ReadIn cls x i) ∧ ∃ sigs, EndorsedBy H flags w n m bs sigs ∧ ∀ i, ReadIn cls x i →
          i.script.cls = .payToScriptIn ∧ PayToScriptIn.getSignatures i.script = sigs.map (fun g => some ⟨.bytearray, g⟩) ∧
          PayToScriptIn.getScript i.script = Script.fromBytes rb) := by
  obtain ⟨s, bs, rb, hs1, hbs, hsec, hl, hrb, henc⟩ := redeem_keys hk hm h2
  rw [hr] at hs1
  cases hs1
  rw [script_paid hrb ho hb] at hs
  obtain ⟨x', redeem, rest, hx', hlv, hc⟩ := C145_form H flags hf w n m bs hsec hm (by omega) rb henc hs
  rw [hx] at hx'
  obtain rfl := Option.some.inj hx'
  refine ⟨bs, rb, redeem, rest, hbs, hrb, hlv, ?_⟩
  rcases hc with hc | ⟨sigs, hend, he⟩
  · exact .inl hc
  · refine .inr ?_
    have hlen : ∀ d ∈ sigs ++ [rb], 1 ≤ d.length := fun d hd => by
      rcases List.mem_append.1 hd with h | h
      · have := endorsed_sigs hend d h
        omega
      · rw [List.mem_singleton.1 h,
          encodes_unique henc (redeem_encodes m hm bs (by omega) fun k hk' => by have := sec_lengths hsec k hk'; omega)]
        simp
    obtain ⟨g1, g2⟩ := form_read hlen (by rw [List.length_append, hend.1]; simp; omega) he cls
    exact ⟨g1, sigs, hend, g2⟩

theorem small_value (n : Nat) (h : n ≤ 16) : smallNumber (Ref.smallOp n) = some n ∧
    Opcode.numberValue ⟨Ref.smallOp n⟩ = .ok (n : Int) ∧ pushKind (Ref.smallOp n) = .plain := by
  have : ∀ n : Fin 17, smallNumber (Ref.smallOp n.val) = some n.val ∧
      Opcode.numberValue ⟨Ref.smallOp n.val⟩ = .ok (n.val : Int) ∧ pushKind (Ref.smallOp n.val) = .plain := by decide +kernel
  exact this ⟨n, by omega⟩

/-- C145 is false of the code: the script that `get_script` gives for such an input is of class RedeemMultisig, gives the number
of signatures, and has the keys as data, but `get_public_keys` raises InvalidBinary. -/
theorem C145_keys_refuted (m : Nat) (hm : m ≤ 16) (keys : List Bytes) (h1 : 1 ≤ keys.length) (hn : keys.length ≤ 16)
    (hk : ∀ b ∈ keys, ∃ x y c, Sec x y c b) (rb : Bytes) (henc : Encodes (Ref.redeemScript m keys) rb) :
    ∃ s, Script.fromBytes rb = .ok s ∧ s.cls = .redeemMultisig ∧ RedeemMultisig.getMinSignatures s = .ok (m : Int) ∧
      (s.instructions.filterMap Instruction.data) = keys.map (fun b => ⟨.bytearray, b⟩) ∧
      RedeemMultisig.getPublicKeys s = .error .pubInvalidBinary := by
  have hlen : ∀ d ∈ keys, 1 ≤ d.length := fun d hd => by have := sec_lengths hk d hd; omega
  have hd := form_data hlen
  have hwf := encodes_wf henc
  obtain ⟨a1, a2, a3⟩ := small_value m hm
  obtain ⟨b1, b2, b3⟩ := small_value keys.length hn
  have hmid : (keys.map pushOf).map (fun i : WireInstr => if pushKind i.1 = .plain then some i.1 else none) =
      List.replicate keys.length none := by
    rw [List.map_map, List.eq_replicate_iff]
    refine ⟨by simp, fun y hy => ?_⟩
    obtain ⟨d, hd, rfl⟩ := List.mem_map.1 hy
    exact push_shape (hwf _ (by
      unfold Ref.redeemScript
      exact List.mem_cons_of_mem _ (List.mem_append_left _ (List.mem_map_of_mem hd)))) (Ref.pushOf_op d (hlen d hd)).1
  have hsh : shape (Ref.redeemScript m keys) = some (Ref.smallOp m) ::
      (List.replicate keys.length none ++ [some (Ref.smallOp keys.length), some 174]) := by
    unfold Ref.redeemScript shape
    rw [List.map_cons, List.map_append, hmid]
    simp only [List.map_cons, List.map_nil, a3, b3, if_true, show pushKind 174 = .plain by decide]
  have hmatch : Matches .multisig (shape (Ref.redeemScript m keys)) :=
    ⟨_, _, keys.length, h1, by rw [a1]; rfl, by rw [b1]; rfl, hsh⟩
  rcases script_fromBytes _ _ henc with ⟨_, s, g1, -, -⟩ | ⟨hc, _⟩
  · obtain ⟨ws, he', hins, htm⟩ := read_script ((C129_bytes _ _).1 g1)
    obtain rfl := encodes_injective he' henc
    refine ⟨s, g1, ?_, ?_, ?_, ?_⟩
    · have hq : s.cls.template = some .multisig := (htm .multisig).2 hmatch
      generalize s.cls = q at hq
      cases q <;> first | rfl | cases hq
    · unfold RedeemMultisig.getMinSignatures
      rw [hins]
      exact a2
    · rw [hins, Ref.redeemScript]
      rw [List.map_cons, List.map_append, List.filterMap_cons_none (by rfl), List.filterMap_append]
      have : ((keys.map pushOf).map (instruction .bytearray)).filterMap Instruction.data =
          keys.map fun b => (⟨.bytearray, b⟩ : Data) := by
        rw [List.map_map, List.filterMap_map]
        rw [show keys.map (fun b => (⟨.bytearray, b⟩ : Data)) = keys.filterMap fun b => some ⟨.bytearray, b⟩ by
          simp]
        refine List.filterMap_congr fun d hd => ?_
        simp only [Function.comp, instruction, (Ref.pushOf_op d (hlen d hd)).1, Option.map_some]
      rw [this]
      exact List.append_nil _
    · unfold RedeemMultisig.getPublicKeys
      rw [hins, Ref.redeemScript]
      match keys, h1, hlen with
      | k :: ks, _, hlen =>
        simp only [List.map_cons, List.map_append, List.map_nil, List.length_cons, List.length_append, List.length_map,
          List.length_nil, List.cons_append]
        rw [show ks.length + (0 + 1 + 1) + 1 + 1 - 2 = (ks.length + 1) + 1 by omega, List.take_succ_cons, List.drop_succ_cons,
          List.drop_zero, List.take_succ_cons, List.mapM_cons]
        have : publicKeyOf (instruction .bytearray (pushOf k)).data = .error .pubInvalidBinary := by
          simp only [instruction, (Ref.pushOf_op k (hlen k (by simp))).1, Option.map_some]
          exact C19_bytearray k _
        rw [this]
        rfl
  · obtain ⟨-, -, hc⟩ := hc
    rw [hsh] at hc
    rcases hc with hc | ⟨-, hc⟩
    · cases hc
    · rw [show (some (Ref.smallOp m) :: (List.replicate keys.length none ++ [some (Ref.smallOp keys.length), some 174])).length - 2 =
          keys.length + 1 by simp, List.getElem?_cons_succ, List.getElem?_append_right (by simp)] at hc
      simp at hc

/-- C145. Under the rules of nodes, an input that spends a multisig script paid to directly is OP_0 and the signatures. -/
theorem C145_bare_form (H : Hashes) (flags : Nat) (hf : NodeRules flags) (h4 : flags.testBit 4) (w : WireTx) (n : Nat) (m : Nat)
    (keys : List Bytes) (hk : ∀ b ∈ keys, ∃ x y c, Sec x y c b) (hm : m ≤ 16) (hn : keys.length ≤ 16) (rb : Bytes)
    (hr : Encodes (Ref.redeemScript m keys) rb) (hs : Ref.Spends H flags w n rb) :
    ∃ x sigs, w.inputs[n]? = some x ∧ EndorsedBy H flags w n m keys sigs ∧ Encodes ((0, none) :: sigs.map pushOf) x.script := by
  obtain ⟨-, h5, h6, h8⟩ := hf
  obtain ⟨x, hx, s, p, st, st', es, ep, hpo, e1, e2, hsu, hif⟩ := hs
  cases encodes_injective ep hr
  have hnot : ¬ Ref.PaysToScript rb := by
    rintro ⟨h, hl, rfl⟩
    have := encodes_injective hr (payToScript_encodes h hl)
    have := congrArg List.getLast? this
    rw [show Ref.redeemScript m keys = ((Ref.smallOp m, none) :: (keys.map pushOf ++ [(Ref.smallOp keys.length, none)])) ++
      [(174, none)] by unfold Ref.redeemScript; simp, List.getLast?_concat] at this
    unfold Ref.payToScript at this
    simp at this
  rw [if_neg fun h => hnot h.2] at hif
  obtain ⟨-, gs, d, rest, hst, hgl, hd, ⟨y, hy⟩, hmu⟩ := Ref.redeem_left (sec_lengths hk) hm hn e2 hsu
  obtain ⟨sub, g1, g2⟩ := multisig_sound _ _ _ hmu
  have hend : EndorsedBy H flags w n m keys gs.reverse := by
    refine ⟨by simp [hgl], sub.reverse, by simpa using g1.reverse, ?_⟩
    rw [List.forall₂_reverse_iff, endorsed_reverse]
    exact g2.imp fun _ _ => checker_iff.1
  have hnil : rest = [] := by
    have := hif h8
    rw [hy] at this
    simpa using this
  cases hd h4
  subst hnil
  subst hst
  refine ⟨x, gs.reverse, hx, hend, ?_⟩
  obtain ⟨σ, hrun, hσ⟩ := Ref.eval_inv e1
  obtain ⟨ds, e, hds⟩ := Ref.run_pushOnly_empty h6 s _ σ (hpo h5) rfl hrun
  rw [hσ] at e
  have : ds = [] :: gs.reverse := by
    have := congrArg List.reverse e
    simpa using this.symm
  subst this
  obtain ⟨i, js, hi, hds1, rfl⟩ := List.forall₂_cons_right_iff.1 hds
  have := pushes_of (fun d hd => by have := endorsed_sigs hend d hd; omega) hds1
  subst this
  have hwf := encodes_wf es i (by simp)
  obtain ⟨op, od⟩ := i
  obtain rfl : op = 0 := hi.2 rfl
  cases od with
  | none => exact es
  | some d => exact absurd hwf (by simp [Wf, show pushKind 0 = .plain by decide])

/-- C145 is false of the code for multisig scripts paid to directly: an input that spends one with two signatures or more is read
as one of class PayToScriptIn, whose `get_signatures` leaves out the last signature, and whose `get_script` reads that
signature as a script. -/
theorem C145_bare_refuted (H : Hashes) (flags : Nat) (hf : NodeRules flags) (h4 : flags.testBit 4) (ks : List PublicKey) (m : Nat)
    (hk : ∀ k ∈ ks, k.Valid) (h1 : 2 ≤ m) (hm : m ≤ 16) (h2 : ks.length ≤ 16) (v : Int) (o : Output)
    (ho : MultisigOutput.create v ks m = .ok o) (b : Bytes) (hb : o.script.toBytes = .ok b)
    (w : WireTx) (n : Nat) (hs : Ref.Spends H flags w n b) (x : WireIn) (hx : w.inputs[n]? = some x) (cls : InputClass) :
    ∃ bs sigs last, List.Forall₂ (fun (k : PublicKey) b => k.toBytes = .ok b) ks bs ∧
      EndorsedBy H flags w n m bs (sigs ++ [last]) ∧ (∃ i, ReadIn cls x i) ∧ ∀ i, ReadIn cls x i →
        i.script.cls = .payToScriptIn ∧ PayToScriptIn.getSignatures i.script = sigs.map (fun g => some ⟨.bytearray, g⟩) ∧
        PayToScriptIn.getScript i.script = Script.fromBytes last := by
  obtain ⟨s, bs, rb, hs1, hbs, hsec, hl, hrb, henc⟩ := redeem_keys hk hm h2
  unfold MultisigOutput.create at ho
  rw [hs1] at ho
  cases ho
  rw [show _ = _ from hb] at hrb
  cases hrb
  obtain ⟨x', gs, hx', hend, he⟩ := C145_bare_form H flags hf h4 w n m bs hsec hm (by omega) b henc hs
  rw [hx] at hx'
  obtain rfl := Option.some.inj hx'
  rcases List.eq_nil_or_concat gs with rfl | ⟨sigs, last, rfl⟩
  · have := hend.1
    simp at this
    omega
  rw [List.concat_eq_append] at hend he
  have hlen : ∀ d ∈ sigs ++ [last], 1 ≤ d.length := fun d hd => by
    have := endorsed_sigs hend d hd
    omega
  exact ⟨bs, sigs, last, hbs, hend, form_read hlen (by rw [hend.1]; omega) he cls⟩

/-- The transaction of Verif/Props/Instances.lean, two of two with the real hash functions, under the rules of nodes. -/
theorem both_nodes : ∃ s o ob w, RedeemMultisig.create [onePub, twoPub] 2 = .ok s ∧ ScriptOutput.create .real 258 s = .ok o ∧
    o.script.toBytes = .ok ob ∧ Ref.Spends .real 377 w 0 ob := by
  obtain ⟨h1, h2, h3, _⟩ := both_create
  obtain ⟨s, o, ob, hs, ho, hob, h⟩ := C94_spend_partial .real _ nonce_one bothTx [oneKey, twoKey]
    both_keys 0 _ 0 _ [onePub, twoPub] both_valid (.inr ⟨rfl, by simp [onePub, twoPub]⟩)
    ⟨_, .cons h2 (.cons h3 .nil), List.Sublist.refl _⟩ bothInput h1 both_serialisable rfl 258
  obtain ⟨u, hu⟩ := ok_of_toBool (e := bothTx.sign .real (keySigner fun _ => 1) [oneKey, twoKey] (0 : Nat)) (by decide +kernel)
  rcases h with h | ⟨u', w, _, _, _, _, _, h6⟩
  · rw [hu] at h
    cases h
  · exact ⟨s, o, ob, w, hs, ho, hob, h6 377 (by decide)⟩

theorem rules_377 : ScriptRules 377 := ⟨⟨by decide, by decide, by decide, by decide⟩, by decide, by decide⟩

example : ∃ (w : WireTx) (x : WireIn) (s : Script) (bs : List Bytes) (rb redeem : Bytes) (rest : List Bytes),
    RedeemMultisig.create [onePub, twoPub] 2 = .ok s ∧ s.toBytes = .ok rb ∧ w.inputs[0]? = some x ∧
    Leaves .real 377 w 0 (redeem :: rest) ∧ (Collide160 .real redeem rb ∨
      (∃ i, ReadIn .generic x i) ∧ ∃ sigs, EndorsedBy .real 377 w 0 2 bs sigs ∧ ∀ i, ReadIn .generic x i →
        i.script.cls = .payToScriptIn ∧ PayToScriptIn.getSignatures i.script = sigs.map (fun g => some ⟨.bytearray, g⟩) ∧
        PayToScriptIn.getScript i.script = Script.fromBytes rb) := by
  obtain ⟨s, o, ob, w, hs, ho, hob, hsp⟩ := both_nodes
  obtain ⟨x, hx, -⟩ := id hsp
  obtain ⟨bs, rb, redeem, rest, -, g0, g1, g2⟩ := C145_signers_partial .real 377 rules_377 [onePub, twoPub] 2 both_valid (by omega)
    (by omega) (by simp) s hs 258 o ho ob hob w 0 hsp x hx .generic
  exact ⟨w, x, s, bs, rb, redeem, rest, hs, g0, hx, g1, g2⟩

/-- The signatures of that transaction also spend the multisig script paid to directly (C106), so that `C145_bare_refuted` applies;
unless the script that the transaction shows collides with it. -/
example : ∃ o b, MultisigOutput.create 258 [onePub, twoPub] 2 = .ok o ∧ o.script.toBytes = .ok b ∧
    ((∃ (w : WireTx) (x : WireIn) (i : Input), Ref.Spends .real 377 w 0 b ∧ w.inputs[0]? = some x ∧ ReadIn .generic x i ∧
        i.script.cls = .payToScriptIn ∧ (PayToScriptIn.getSignatures i.script).length = 1) ∨
      ∃ w redeem rest, Leaves .real 377 w 0 (redeem :: rest) ∧ Collide160 .real redeem b) := by
  obtain ⟨s, o, ob, w, hs, ho, hob, hsp⟩ := both_nodes
  obtain ⟨bs, rb, redeem, rest, hbs, hrb, h1, h2⟩ := C106_multisig .real 377 (by decide) 258 [onePub, twoPub] 2 both_valid (by omega)
    (by simp) s hs o ho ob hob w 0 hsp
  have hm : MultisigOutput.create 258 [onePub, twoPub] 2 = .ok ⟨.multisig, 258, s⟩ := by
    unfold MultisigOutput.create
    rw [hs]
  refine ⟨_, rb, hm, hrb, ?_⟩
  rcases h2 with ⟨sigs, _, _, _, hend⟩ | hc
  · refine .inl ?_
    obtain ⟨bs', hbs', hiff⟩ := C106_bare_iff .real 377 258 [onePub, twoPub] 2 both_valid (by omega) (by simp) _ hm rb hrb
    have : bs' = bs := by
      have uniq : ∀ {l : List PublicKey} {a b : List Bytes}, List.Forall₂ (fun (k : PublicKey) b => k.toBytes = .ok b) l a →
          List.Forall₂ (fun (k : PublicKey) b => k.toBytes = .ok b) l b → a = b := by
        intro l a b ha
        induction ha generalizing b with
        | nil => intro hb; cases hb; rfl
        | cons h _ ih => intro hb; cases hb with
          | cons h' t => rw [ih t, Except.ok.inj (h.symm.trans h')]
      exact uniq hbs' hbs
    subst this
    obtain ⟨x0, hx0, -⟩ := id hsp
    obtain ⟨w', -, hsp'⟩ := (hiff w 0 (by
      by_contra hlt
      rw [List.getElem?_eq_none (by omega)] at hx0
      cases hx0)).2 ⟨sigs, hend⟩
    obtain ⟨x, hx, -⟩ := id hsp'
    obtain ⟨_, gs, last, -, hend', ⟨i, hi⟩, hall⟩ := C145_bare_refuted .real 377 rules_377.1 (by decide) [onePub, twoPub] 2 both_valid
      (by omega) (by omega) (by simp) 258 _ hm rb hrb w' 0 hsp' x hx .generic
    obtain ⟨c1, c2, -⟩ := hall i hi
    refine ⟨w', x, i, hsp', hx, hi, c1, ?_⟩
    have := hend'.1
    rw [c2]
    simpa using this
  · exact .inr ⟨w, redeem, rest, h1, hc⟩

example : ∃ r rb s, RedeemMultisig.create [onePub, twoPub] 2 = .ok r ∧ r.toBytes = .ok rb ∧ Script.fromBytes rb = .ok s ∧
    RedeemMultisig.getMinSignatures s = .ok 2 ∧ RedeemMultisig.getPublicKeys s = .error .pubInvalidBinary := by
  obtain ⟨r, bs, rb, h1, -, hsec, hl, hrb, henc⟩ := redeem_keys (ks := [onePub, twoPub]) (m := 2) both_valid (by omega) (by simp)
  obtain ⟨s, g1, -, g2, -, g3⟩ := C145_keys_refuted 2 (by omega) bs (by simp [hl]) (by simp [hl]) hsec rb henc
  exact ⟨r, rb, s, h1, hrb, g1, g2, g3⟩

end Bitforge.Signers
