import Verif.Props.ConsensusCases
import Verif.Props.Binding
import Verif.Props.InOut

/-! # C106: only the owner can spend

What the reference client asks of whoever spends an output that one of the constructors of `bitforge/transaction/output.py` has
made: the converse of C83 and C84. -/

namespace Bitforge.Spec.Ref

theorem run_act {H : Hashes} {C : Checker} {flags : Nat} {i : WireInstr} {after : List WireInstr} {s s' r : St}
    (ha : act H C flags i after s = some s') (hr : run H C flags (i :: after) s = some r) :
    run H C flags after s' = some r := by
  rw [run, ha] at hr
  simp only [] at hr
  split at hr
  · cases hr
  · exact hr

theorem run_op_inv {H : Hashes} {C : Checker} {flags : Nat} {op : Byte} {after : List WireInstr} {s r : St}
    (h : 96 < op.val) (hd : disabled op.val = false) (hc : s.cond = []) (ho : s.ops ≤ 200)
    (hr : run H C flags ((op, none) :: after) s = some r) :
    ∃ s', exec H C flags op.val true after { s with ops := s.ops + 1 } = some s' ∧ run H C flags after s' = some r := by
  cases he : exec H C flags op.val true after { s with ops := s.ops + 1 } with
  | none => rw [run, act_op H C flags op after s h hd hc ho, he] at hr; cases hr
  | some s' => exact ⟨s', rfl, run_act ((act_op H C flags op after s h hd hc ho).trans he) hr⟩

theorem run_push_inv {H : Hashes} {C : Checker} {flags : Nat} {b : Bytes} {after : List WireInstr} {s r : St}
    (h : 2 ≤ b.length) (h' : b.length ≤ 520) (hc : s.cond = []) (hr : run H C flags (pushOf b :: after) s = some r) :
    run H C flags after { s with stack := b :: s.stack } = some r :=
  run_act (act_pushOf H C flags b after s h h' hc) hr

theorem run_pushes_inv {H : Hashes} {C : Checker} {flags : Nat} {rest : List WireInstr} {r : St} :
    ∀ (bs : List Bytes) (s : St), (∀ b ∈ bs, 2 ≤ b.length ∧ b.length ≤ 520) → s.cond = [] →
    run H C flags (bs.map pushOf ++ rest) s = some r →
    run H C flags rest { s with stack := bs.reverse ++ s.stack } = some r
  | [], _, _, _, hr => hr
  | b :: bs, s, h, hc, hr => by
    obtain ⟨h1, h2⟩ := h b (by simp)
    have := run_pushes_inv bs { s with stack := b :: s.stack } (fun x hx => h x (by simp [hx])) hc
      (run_push_inv h1 h2 hc hr)
    simpa using this

theorem act_small (H : Hashes) (C : Checker) (flags : Nat) (n : Nat) (hn : n ≤ 16) (after : List WireInstr) (s : St)
    (hc : s.cond = []) : act H C flags (smallOp n, none) after s = some { s with stack := serialize n :: s.stack } := by
  have hv := smallOp_val n hn
  unfold act
  simp only [Option.getD_none, List.length_nil, hc, List.all_nil]
  have h96 : ¬ (smallOp n).val > 96 := by rw [hv]; split <;> omega
  have hd : disabled (smallOp n).val = false := by
    unfold disabled; simp only [decide_eq_false_iff_not]; rw [hv]; split <;> omega
  simp only [if_neg h96]
  rw [if_neg (by omega), if_neg (by omega), hd, if_neg (by decide)]
  by_cases h0 : n = 0
  · subst h0
    rw [if_pos ⟨trivial, by decide⟩, if_neg (by simp [minimalPush, smallOp])]
    simp [serialize]
    exact hc
  · rw [if_neg h0] at hv
    rw [if_neg (by omega), if_pos (by simp), hv]
    unfold exec
    rw [if_neg (by omega), if_pos (by omega)]
    congr 2
    push_cast
    congr 1
    congr 1
    omega

theorem eval_inv {H : Hashes} {C : Checker} {flags : Nat} {script : List WireInstr} {st st' : List Bytes}
    (h : eval H C flags script st = some st') :
    ∃ s, run H C flags script { stack := st, code := script } = some s ∧ s.stack = st' := by
  unfold eval at h
  split at h
  · cases h
  · split at h
    · cases h
    · next s hs =>
      split at h
      · cases h; exact ⟨s, hs, rfl⟩
      · cases h

theorem truth_flag {b : Bool} (h : truth (flagBytes b) = true) : b = true := by
  cases b
  · cases h
  · rfl

/-- Whoever gets a payment to a hash of a key past the client shows a key with that hash, and a signature by it. -/
theorem payToKey_inv {H : Hashes} {C : Checker} {flags : Nat} {h : Bytes} {st st' : List Bytes} (hl : h.length = 20)
    (he : eval H C flags (payToKey h) st = some st') (hs : Succeeds st') :
    ∃ key sig rest, st = key :: sig :: rest ∧ H.ripemd160 (H.sha256 key) = h ∧
      C.sig (payToKey h) [sig] sig key = some true ∧ st' = [1] :: rest := by
  obtain ⟨s, hr, rfl⟩ := eval_inv he
  generalize hcode : payToKey h = code at hr ⊢
  have hr : run H C flags (payToKey h) { stack := st, code := code } = some s := by rw [hcode]; exact hr
  obtain ⟨s1, e1, hr⟩ := run_op_inv (by decide) (by decide) rfl (by simp only []; omega) hr
  match st, e1 with
  | [], e1 => cases e1
  | key :: st, e1 =>
    cases e1
    obtain ⟨s2, e2, hr⟩ := run_op_inv (by decide) (by decide) rfl (by simp only []; omega) hr
    cases e2
    have hr := run_push_inv (by omega) (by omega) rfl hr
    obtain ⟨s3, e3, hr⟩ := run_op_inv (by decide) (by decide) rfl (by simp only []; omega) hr
    have e3 : result true (H.ripemd160 (H.sha256 key) == h)
        { stack := h :: H.ripemd160 (H.sha256 key) :: key :: st, code := code, ops := 3 } (key :: st) = some s3 := e3
    unfold result at e3
    rw [if_pos rfl] at e3
    split at e3
    · next hk =>
      cases e3
      obtain ⟨s4, e4, hr⟩ := run_op_inv (by decide) (by decide) rfl (by simp only []; omega) hr
      match st, e4 with
      | [], e4 => cases e4
      | sig :: rest, e4 =>
        have e4 : (match C.sig code [sig] sig key with
          | none => none
          | some ok => result false ok { stack := key :: sig :: rest, code := code, ops := 4 } rest) = some s4 := e4
        cases hc : C.sig code [sig] sig key with
        | none => rw [hc] at e4; cases e4
        | some ok =>
          rw [hc] at e4
          cases e4
          cases hr
          obtain ⟨x, r, e, ht⟩ := hs
          cases e
          have := truth_flag ht
          subst this
          exact ⟨key, sig, rest, rfl, by simpa using hk, hc, rfl⟩
    · cases e3

/-- Whoever gets a payment to a hash of a script past the client has that script on the stack. -/
theorem payToScript_inv {H : Hashes} {C : Checker} {flags : Nat} {h : Bytes} {st st' : List Bytes} (hl : h.length = 20)
    (he : eval H C flags (payToScript h) st = some st') (hs : Succeeds st') :
    ∃ redeem rest, st = redeem :: rest ∧ H.ripemd160 (H.sha256 redeem) = h := by
  obtain ⟨s, hr, rfl⟩ := eval_inv he
  generalize hcode : payToScript h = code at hr
  have hr : run H C flags (payToScript h) { stack := st, code := code } = some s := by rw [hcode]; exact hr
  obtain ⟨s1, e1, hr⟩ := run_op_inv (by decide) (by decide) rfl (by simp only []; omega) hr
  match st, e1 with
  | [], e1 => cases e1
  | redeem :: st, e1 =>
    cases e1
    have hr := run_push_inv (by omega) (by omega) rfl hr
    obtain ⟨s3, e3, hr⟩ := run_op_inv (by decide) (by decide) rfl (by simp only []; omega) hr
    have e3 : result false (H.ripemd160 (H.sha256 redeem) == h)
        { stack := h :: H.ripemd160 (H.sha256 redeem) :: st, code := code, ops := 2 } st = some s3 := e3
    cases e3
    cases hr
    obtain ⟨x, r, e, ht⟩ := hs
    cases e
    exact ⟨redeem, st, rfl, by simpa using truth_flag ht⟩

/-- Whoever gets a multisig script past the client has its number of signatures on the stack, by some of its keys, in
their order. -/
theorem redeem_inv {H : Hashes} {C : Checker} {flags m : Nat} {keys st st' : List Bytes}
    (hk : ∀ k ∈ keys, 2 ≤ k.length ∧ k.length ≤ 65) (hm : m ≤ 16) (hn : keys.length ≤ 16)
    (he : eval H C flags (redeemScript m keys) st = some st') (hs : Succeeds st') :
    m ≤ keys.length ∧ ∃ sigs d rest, st = sigs ++ d :: rest ∧ sigs.length = m ∧ (flags.testBit 4 → d = []) ∧
      multisig (C.sig (redeemScript m keys) sigs) sigs keys.reverse = some true := by
  obtain ⟨s, hr, rfl⟩ := eval_inv he
  generalize hcode : redeemScript m keys = code at hr ⊢
  have hr : run H C flags (redeemScript m keys) { stack := st, code := code } = some s := by rw [hcode]; exact hr
  unfold redeemScript at hr
  have hr := run_act (act_small H C flags m hm _ _ rfl) hr
  have hr := run_pushes_inv keys _ (fun b hb => ⟨(hk b hb).1, by have := (hk b hb).2; omega⟩) rfl hr
  have hr := run_act (act_small H C flags keys.length hn _ _ rfl) hr
  obtain ⟨s1, e1, hr⟩ := run_op_inv (by decide) (by decide) rfl (by simp only []; omega) hr
  have n1 := number_serialize_small (flags.testBit 6) keys.length hn
  have n2 := number_serialize_small (flags.testBit 6) m (by omega)
  have d3 : ∀ l : List Bytes, List.drop keys.length (keys.reverse ++ l) = l := fun l => by
    rw [List.drop_left' (by simp)]
  have d4 : ∀ l : List Bytes, List.take keys.length (keys.reverse ++ l) = keys.reverse := fun l => by
    rw [List.take_left' (by simp)]
  simp only [exec, show (174 : Byte).val = 174 from rfl, n1] at e1
  norm_num [d3, d4] at e1
  obtain ⟨_, _, e1⟩ := e1
  simp only [n2, Int.toNat_natCast] at e1
  split at e1
  · cases e1
  · next hmn =>
    split at e1
    · cases e1
    · next d rest hd =>
      split at e1
      · cases e1
      · next ok hok =>
        have hst : st = st.take m ++ d :: rest := by rw [← hd, List.take_append_drop]
        have hlen : (st.take m).length = m := by
          have := congrArg List.length hd
          simp only [List.length_drop, List.length_cons] at this
          simp only [List.length_take]; omega
        split at e1
        · cases e1
        · next hdd =>
          cases e1
          cases hr
          obtain ⟨x, r, e, ht⟩ := hs
          cases e
          have := truth_flag ht
          subst this
          refine ⟨by omega, st.take m, d, rest, hst, hlen, fun hb => ?_, hok⟩
          by_contra hne
          exact hdd ⟨hb, hne⟩

/-- Nothing gets past OP_RETURN. -/
theorem return_none {H : Hashes} {C : Checker} {flags : Nat} {after : List WireInstr} {st : List Bytes} :
    eval H C flags ((106, none) :: after) st = none := by
  cases h : eval H C flags ((106, none) :: after) st with
  | none => rfl
  | some st' =>
    obtain ⟨s, hr, _⟩ := eval_inv h
    obtain ⟨s1, e1, _⟩ := run_op_inv (by decide) (by decide) rfl (by simp only []; omega) hr
    cases st <;> cases e1

end Bitforge.Spec.Ref

namespace Bitforge

open Spec
open Spec.Ref (Succeeds)

/-- Some transaction that differs from `w` in nothing but the scripts of its inputs is accepted as spending, by its input
at `n`, an output with script `pub`. -/
def Spendable (H : Hashes) (flags : Nat) (w : WireTx) (n : Nat) (pub : Bytes) : Prop :=
  ∃ w', SameCore w w' ∧ Ref.Spends H flags w' n pub

/-- What the client asks of a signature: its encoding, and that of the key, and that it is one. -/
def Endorsed (H : Hashes) (flags : Nat) (w : WireTx) (n : Nat) (code : List WireInstr) (sigs : List Bytes)
    (sig key : Bytes) : Prop :=
  Ref.SigEncoding flags sig ∧ Ref.KeyEncoding flags key ∧ Ref.Signed H w n code sigs sig key

theorem checker_iff {H : Hashes} {flags : Nat} {w : WireTx} {n : Nat} {code : List WireInstr} {sigs : List Bytes}
    {sig key : Bytes} : (Ref.checker H flags w n).sig code sigs sig key = some true ↔
      Endorsed H flags w n code sigs sig key := by
  simp only [Ref.checker, Endorsed]
  by_cases h : Ref.SigEncoding flags sig ∧ Ref.KeyEncoding flags key
  · rw [if_pos h]
    simp [h]
  · rw [if_neg h]
    constructor
    · intro h'; cases h'
    · exact fun h' => absurd ⟨h'.1, h'.2.1⟩ h

theorem signed_core (H : Hashes) {w w' : WireTx} (h : SameCore w w') (n : Nat) :
    Ref.Signed H w n = Ref.Signed H w' n := by
  funext code sigs sig key
  unfold Ref.Signed
  simp only [signatureHash_core H h]

theorem checker_core (H : Hashes) (flags : Nat) {w w' : WireTx} (h : SameCore w w') (n : Nat) :
    Ref.checker H flags w n = Ref.checker H flags w' n := by
  have e : (∃ x ∈ w.inputs[n]?, x.sequence ≠ 2 ^ 32 - 1) ↔ ∃ x ∈ w'.inputs[n]?, x.sequence ≠ 2 ^ 32 - 1 := by
    have := core_map (fun x => ⟨[], 0, [], x.sequence⟩) (fun x y e => by rw [(core_eq e).2.2]) (sameCore_get h n)
    cases h1 : w.inputs[n]? <;> cases h2 : w'.inputs[n]? <;> rw [h1, h2] at this <;> simp at this ⊢
    rw [this]
  unfold Ref.checker
  rw [signed_core H h, h.2.1]
  simp only [e]

/-- The transaction with a script at one of its inputs. -/
def withScript (w : WireTx) (n : Nat) (b : Bytes) : WireTx :=
  { w with inputs := w.inputs.modify n fun x => { x with script := b } }

theorem withScript_core (w : WireTx) (n : Nat) (b : Bytes) : SameCore w (withScript w n b) := by
  refine ⟨rfl, rfl, rfl, ?_⟩
  apply List.ext_getElem?
  intro k
  simp only [withScript, List.getElem?_map, List.getElem?_modify]
  cases w.inputs[k]? with
  | none => rfl
  | some x => simp only [Option.map_some, WireIn.core]; split <;> rfl

/-- Spending is showing an input script that is accepted. -/
theorem spendable_iff (H : Hashes) (flags : Nat) (w : WireTx) (n : Nat) (hn : n < w.inputs.length) (pub : Bytes) :
    Spendable H flags w n pub ↔ ∃ b, Ref.Accepts H (Ref.checker H flags w n) flags b pub := by
  constructor
  · rintro ⟨w', hw, x, _, ha⟩
    exact ⟨x.script, checker_core H flags hw n ▸ ha⟩
  · rintro ⟨b, ha⟩
    refine ⟨withScript w n b, withScript_core w n b, { w.inputs[n] with script := b }, ?_,
      checker_core H flags (withScript_core w n b) n ▸ ha⟩
    simp only [withScript, List.getElem?_modify, List.getElem?_eq_getElem hn]
    simp

theorem spendable_accepts {H : Hashes} {flags : Nat} {w : WireTx} {n : Nat} {pub : Bytes}
    (h : Spendable H flags w n pub) : n < w.inputs.length ∧ ∃ b, Ref.Accepts H (Ref.checker H flags w n) flags b pub := by
  obtain ⟨w', hw, x, hx, ha⟩ := h
  have := congrArg List.length hw.2.2.2
  simp only [List.length_map] at this
  exact ⟨this ▸ (List.getElem?_eq_some_iff.1 hx).1, x.script, checker_core H flags hw n ▸ ha⟩

/-- Input scripts of pushes of 2 to 520 bytes, after OP_0 or not. -/
theorem eval_pushes (H : Hashes) (C : Ref.Checker) (flags : Nat) (zero : Bool) (bs : List Bytes)
    (hb : ∀ b ∈ bs, 2 ≤ b.length ∧ b.length ≤ 520) (hl : bs.length ≤ 18) :
    Ref.eval H C flags ((if zero then [(0, none)] else []) ++ bs.map pushOf) [] =
      some (bs.reverse ++ if zero then [[]] else []) := by
  unfold Ref.eval
  have hz : ∀ l : List Bytes, (∀ b ∈ l, b.length ≤ 520) → ((l.map pushOf).map wireSize).sum ≤ 525 * l.length := by
    intro l
    induction l with
    | nil => intro _; simp
    | cons a l ih =>
      intro h
      have h1 := ih fun k hk => h k (by simp [hk])
      have h2 := Ref.pushOf_size a
      have h3 := h a (by simp)
      simp only [List.map_cons, List.sum_cons, List.length_cons]
      omega
  have hz' := hz _ fun b h => (hb b h).2
  cases zero with
  | false =>
    rw [if_neg (by simp only [Ref.size, List.nil_append, Bool.false_eq_true, if_false]; omega)]
    have e1 := Ref.run_pushes H C flags [] bs { stack := [], code := bs.map pushOf } hb rfl (by simp; omega)
    rw [List.append_nil] at e1
    simp only [Bool.false_eq_true, if_false, List.nil_append]
    rw [e1]
    simp [Ref.run]
  | true =>
    rw [if_neg (by
      simp only [Ref.size, if_true, List.cons_append, List.nil_append, List.map_cons, List.sum_cons, Ref.op_size]; omega)]
    have e0 := Ref.run_small H C flags 0 (by omega) (bs.map pushOf)
      { stack := [], code := (0, none) :: bs.map pushOf } rfl (by simp)
    rw [show Ref.smallOp 0 = 0 from rfl] at e0
    have e1 := Ref.run_pushes H C flags [] bs
      { stack := [[]], code := (0, none) :: bs.map pushOf } hb rfl (by simp; omega)
    rw [List.append_nil] at e1
    simp only [if_true, List.cons_append, List.nil_append]
    rw [e0, show Ref.serialize ((0 : Nat) : Int) = [] by decide, e1]
    simp [Ref.run]

theorem pushes_pushOnly (zero : Bool) (bs : List Bytes) (hb : ∀ b ∈ bs, 2 ≤ b.length ∧ b.length ≤ 520) :
    Ref.PushOnly ((if zero then [(0, none)] else []) ++ bs.map pushOf) := by
  intro i hi
  rcases List.mem_append.1 hi with hi | hi
  · cases zero
    · simp at hi
    · simp only [if_true, List.mem_singleton] at hi
      subst hi
      decide
  · obtain ⟨b, h, rfl⟩ := List.mem_map.1 hi
    have := (Ref.pushOf_op b (by have := hb b h; omega)).2.2.1
    omega

theorem pushes_exist (zero : Bool) (bs : List Bytes) (hb : ∀ b ∈ bs, 2 ≤ b.length ∧ b.length ≤ 520) :
    ∃ b, Encodes ((if zero then [(0, none)] else []) ++ bs.map pushOf) b := by
  apply encodes_exists
  intro i hi
  rcases List.mem_append.1 hi with hi | hi
  · cases zero
    · simp at hi
    · simp only [if_true, List.mem_singleton] at hi
      subst hi
      decide
  · obtain ⟨b, h, rfl⟩ := List.mem_map.1 hi
    exact Ref.pushOf_wf b (by have := hb b h; omega)

theorem endorsed_lengths {H : Hashes} {flags : Nat} {w : WireTx} {n : Nat} {code : List WireInstr} {sigs : List Bytes}
    {sig key : Bytes} (h : Endorsed H flags w n code sigs sig key) :
    9 ≤ sig.length ∧ sig.length ≤ 73 ∧ 33 ≤ key.length ∧ key.length ≤ 65 := by
  obtain ⟨h1, _, der, t, _, _, _, _, _, _, _, rfl, _, hsec, _⟩ := h
  rcases h1 with h1 | ⟨⟨_, _, _, _, _, _, _, _, _, _, _, _, h9, h73⟩, _⟩
  · simp at h1
  · refine ⟨h9, h73, ?_⟩
    rcases sec_head hsec with h | h <;> omega

/-- The input at `n` of `w` leaves `st` on the stack. -/
def Leaves (H : Hashes) (flags : Nat) (w : WireTx) (n : Nat) (st : List Bytes) : Prop :=
  ∃ x s, w.inputs[n]? = some x ∧ Encodes s x.script ∧ Ref.eval H (Ref.checker H flags w n) flags s [] = some st

theorem address_script {v : Int} {a : Address} (ha : a.phash.length = 20) {o : Output}
    (ho : AddressOutput.create v a = .ok o) {b : Bytes} (hb : o.script.toBytes = .ok b) :
    b = 118 :: 169 :: 20 :: (a.phash ++ [136, 172]) := by
  obtain ⟨o', ho', _, _, hb', _⟩ := C43_address v a ha
  rw [ho] at ho'
  cases ho'
  rw [hb] at hb'
  exact Except.ok.inj hb'

/-- C106. Whatever is accepted as spending an `AddressOutput` shows a public key whose hash is that of the address, and a
signature of the transaction by that key. -/
theorem C106_address (H : Hashes) (flags : Nat) (v : Int) (a : Address) (ha : a.phash.length = 20) (o : Output)
    (ho : AddressOutput.create v a = .ok o) (b : Bytes) (hb : o.script.toBytes = .ok b) (w : WireTx) (n : Nat)
    (h : Ref.Spends H flags w n b) :
    ∃ key sig rest, Leaves H flags w n (key :: sig :: rest) ∧ H.ripemd160 (H.sha256 key) = a.phash ∧
      Endorsed H flags w n (Ref.payToKey a.phash) [sig] sig key := by
  cases address_script ha ho hb
  obtain ⟨x, hx, s, p, st, st', es, ep, _, e1, e2, hs, _⟩ := h
  cases encodes_injective ep (payToKey_encodes a.phash ha)
  obtain ⟨key, sig, rest, rfl, hk, hc, _⟩ := Ref.payToKey_inv ha e2 hs
  exact ⟨key, sig, rest, ⟨x, s, hx, es, e1⟩, hk, checker_iff.1 hc⟩

/-- C106. Such a key and such a signature are enough: they make a transaction spend an `AddressOutput`, whatever the
flags. -/
theorem C106_address_iff (H : Hashes) (flags : Nat) (v : Int) (a : Address) (ha : a.phash.length = 20) (o : Output)
    (ho : AddressOutput.create v a = .ok o) (b : Bytes) (hb : o.script.toBytes = .ok b) (w : WireTx) (n : Nat)
    (hn : n < w.inputs.length) :
    Spendable H flags w n b ↔ ∃ sig key, H.ripemd160 (H.sha256 key) = a.phash ∧
      Endorsed H flags w n (Ref.payToKey a.phash) [sig] sig key := by
  cases address_script ha ho hb
  have hp := payToKey_encodes a.phash ha
  rw [spendable_iff H flags w n hn]
  constructor
  · rintro ⟨b, s, p, st, st', _, ep, _, _, e2, hs, _⟩
    cases encodes_injective ep hp
    obtain ⟨key, sig, rest, _, hk, hc, _⟩ := Ref.payToKey_inv ha e2 hs
    exact ⟨sig, key, hk, checker_iff.1 hc⟩
  · rintro ⟨sig, key, hk, he⟩
    obtain ⟨h1, h2, h3, h4⟩ := endorsed_lengths he
    have hall : ∀ b ∈ [sig, key], 2 ≤ b.length ∧ b.length ≤ 520 := by
      intro b hb
      simp only [List.mem_cons, List.not_mem_nil, or_false] at hb
      rcases hb with rfl | rfl <;> omega
    obtain ⟨sb, hsb⟩ := pushes_exist false [sig, key] hall
    have hout := Ref.eval_payToKey H (Ref.checker H flags w n) flags sig key
    rw [hk, checker_iff.2 he] at hout
    refine ⟨sb, _, _, _, _, hsb, hp, fun _ => pushes_pushOnly false _ hall,
      eval_pushes H (Ref.checker H flags w n) flags false [sig, key] hall (by simp), hout, ⟨[1], [], rfl, by decide⟩, ?_⟩
    rw [if_neg]
    · exact fun _ => rfl
    · rintro ⟨_, h', _, e⟩
      exact absurd (List.cons.inj e).1 (by decide)

/-- C106. Where pay to script hash is verified, whatever is accepted as spending a `ScriptOutput` shows a script with the
hash of the redeem script, and a stack on which it succeeds. -/
theorem C106_script (H : Hashes) (flags : Nat) (hf : flags.testBit 0) (v : Int) (r : Script) (rb : Bytes)
    (hr : r.toBytes = .ok rb) (o : Output) (ho : ScriptOutput.create H v r = .ok o) (b : Bytes)
    (hb : o.script.toBytes = .ok b) (w : WireTx) (n : Nat) (h : Ref.Spends H flags w n b) :
    ∃ redeem rest is st, Leaves H flags w n (redeem :: rest) ∧
      H.ripemd160 (H.sha256 redeem) = H.ripemd160 (H.sha256 rb) ∧ Encodes is redeem ∧
      Ref.eval H (Ref.checker H flags w n) flags is rest = some st ∧ Succeeds st := by
  obtain ⟨o', ho', _, _, hb', _⟩ := (C43_script H v r).2 rb hr
  rw [ho] at ho'
  cases ho'
  rw [hb] at hb'
  cases hb'
  have hl := H.ripemd160_length (H.sha256 rb)
  have hp := payToScript_encodes _ hl
  obtain ⟨x, hx, s, p, st, st', es, ep, _, e1, e2, hs, hif⟩ := h
  cases encodes_injective ep hp
  obtain ⟨redeem, rest, rfl, hk⟩ := Ref.payToScript_inv hl e2 hs
  rw [if_pos ⟨hf, _, hl, rfl⟩] at hif
  obtain ⟨_, redeem', rest', is, st'', e, he, hev, hsu, _⟩ := hif
  cases e
  exact ⟨redeem, rest, is, st'', ⟨x, s, hx, es, e1⟩, hk, he, hev, hsu⟩

/-- C106. Where pay to script hash is not verified, whoever knows the redeem script of a `ScriptOutput`, of 2 to 520
bytes, can spend it. -/
theorem C106_unverified (H : Hashes) (flags : Nat) (hf : ¬ flags.testBit 0) (v : Int) (r : Script) (rb : Bytes)
    (hr : r.toBytes = .ok rb) (h2 : 2 ≤ rb.length) (h520 : rb.length ≤ 520) (o : Output)
    (ho : ScriptOutput.create H v r = .ok o) (b : Bytes) (hb : o.script.toBytes = .ok b) (w : WireTx) (n : Nat)
    (hn : n < w.inputs.length) : Spendable H flags w n b := by
  obtain ⟨o', ho', _, _, hb', _⟩ := (C43_script H v r).2 rb hr
  rw [ho] at ho'
  cases ho'
  rw [hb] at hb'
  cases hb'
  rw [spendable_iff H flags w n hn]
  have hall : ∀ b ∈ [rb], 2 ≤ b.length ∧ b.length ≤ 520 := by simp [h2, h520]
  obtain ⟨sb, hsb⟩ := pushes_exist false [rb] hall
  refine ⟨sb, _, _, _, _, hsb, payToScript_encodes _ (H.ripemd160_length (H.sha256 rb)),
    fun _ => pushes_pushOnly false _ hall, eval_pushes H (Ref.checker H flags w n) flags false [rb] hall (by simp),
    Ref.eval_payToScript H (Ref.checker H flags w n) flags rb [] (by simp), ⟨[1], [], rfl, by decide⟩, ?_⟩
  rw [if_neg fun h => hf h.1]
  exact fun _ => rfl

/-- Signatures by some of the keys, in their order. -/
def EndorsedBy (H : Hashes) (flags : Nat) (w : WireTx) (n : Nat) (m : Nat) (keys sigs : List Bytes) : Prop :=
  sigs.length = m ∧ ∃ sub, sub.Sublist keys ∧
    List.Forall₂ (Endorsed H flags w n (Ref.redeemScript m keys) sigs) sigs sub

theorem scriptCode_reverse (sigs : List Bytes) (code : List WireInstr) :
    Ref.scriptCode sigs.reverse code = Ref.scriptCode sigs code := by
  unfold Ref.scriptCode
  simp only [List.mem_reverse]

theorem endorsed_reverse {H : Hashes} {flags : Nat} {w : WireTx} {n : Nat} {code : List WireInstr} {sigs : List Bytes} :
    Endorsed H flags w n code sigs.reverse = Endorsed H flags w n code sigs := by
  funext sig key
  unfold Endorsed Ref.Signed
  rw [scriptCode_reverse]

theorem redeem_endorsed {H : Hashes} {flags : Nat} {w : WireTx} {n m : Nat} {keys st st' : List Bytes}
    (hk : ∀ k ∈ keys, 2 ≤ k.length ∧ k.length ≤ 65) (hm : m ≤ 16) (hn : keys.length ≤ 16)
    (he : Ref.eval H (Ref.checker H flags w n) flags (Ref.redeemScript m keys) st = some st') (hs : Succeeds st') :
    ∃ sigs d rest, st = sigs.reverse ++ d :: rest ∧ EndorsedBy H flags w n m keys sigs := by
  obtain ⟨_, sigs, d, rest, hst, hl, _, hmu⟩ := Ref.redeem_inv hk hm hn he hs
  obtain ⟨sub, h1, h2⟩ := multisig_sound _ _ _ hmu
  refine ⟨sigs.reverse, d, rest, by simpa using hst, by simp [hl], sub.reverse, by simpa using h1.reverse, ?_⟩
  rw [List.forall₂_reverse_iff, endorsed_reverse]
  exact h2.imp fun _ _ => checker_iff.1

/-- The bytes of the public keys of a multisig script. -/
theorem redeem_keys {ks : List PublicKey} {m : Nat} (hk : ∀ k ∈ ks, k.Valid) (hm : m ≤ 16) (h2 : ks.length ≤ 16) :
    ∃ s bs rb, RedeemMultisig.create ks m = .ok s ∧ List.Forall₂ (fun (k : PublicKey) b => k.toBytes = .ok b) ks bs ∧
      (∀ b ∈ bs, ∃ x y c, Sec x y c b) ∧ bs.length = ks.length ∧ s.toBytes = .ok rb ∧
      Encodes (Ref.redeemScript m bs) rb := by
  obtain ⟨s, bs, h1, _, hf, hb⟩ := C41_redeem_bytes ks m hk hm h2
  have hsec : ∀ b ∈ bs, ∃ x y c, Sec x y c b := by
    intro b hb
    obtain ⟨p, hp, hpb, _⟩ := forall₂_mem_left hf.flip hb
    obtain ⟨b', hb', hsec⟩ := C18_to_bytes p (hk p hp).2.1 (hk p hp).2.2
    rw [hpb] at hb'
    cases hb'
    exact ⟨_, _, _, hsec⟩
  have hl := hf.length_eq
  refine ⟨s, bs, _, h1, hf.imp fun _ _ h => h.1, hsec, hl.symm, hb, ?_⟩
  rw [hl]
  refine redeem_encodes m hm bs (by omega) fun k hk => ?_
  obtain ⟨_, _, _, h⟩ := hsec k hk
  rcases sec_head h with h | h <;> omega

theorem sec_lengths {keys : List Bytes} (h : ∀ b ∈ keys, ∃ x y c, Sec x y c b) :
    ∀ k ∈ keys, 2 ≤ k.length ∧ k.length ≤ 65 := fun k hk => by
  obtain ⟨_, _, _, h⟩ := h k hk
  rcases sec_head h with h | h <;> omega

/-- C106. Where pay to script hash is verified, whatever is accepted as spending a `ScriptOutput` of a multisig script shows
as many signatures as it needs, by some of its keys, in their order; or a script that collides with it. -/
theorem C106_multisig (H : Hashes) (flags : Nat) (hf : flags.testBit 0) (v : Int) (ks : List PublicKey) (m : Nat)
    (hk : ∀ k ∈ ks, k.Valid) (hm : m ≤ 16) (h2 : ks.length ≤ 16) (r : Script) (hr : RedeemMultisig.create ks m = .ok r)
    (o : Output) (ho : ScriptOutput.create H v r = .ok o) (b : Bytes)
    (hb : o.script.toBytes = .ok b) (w : WireTx) (n : Nat) (h : Ref.Spends H flags w n b) :
    ∃ bs rb redeem rest, List.Forall₂ (fun (k : PublicKey) b => k.toBytes = .ok b) ks bs ∧ r.toBytes = .ok rb ∧
      Leaves H flags w n (redeem :: rest) ∧
      ((∃ sigs d rest', rest = sigs.reverse ++ d :: rest' ∧ EndorsedBy H flags w n m bs sigs) ∨ Collide160 H redeem rb) := by
  obtain ⟨s, bs, rb, h1, hbs, hsec, hl, hrb, henc⟩ := redeem_keys hk hm h2
  rw [hr] at h1
  cases h1
  obtain ⟨redeem, rest, is, st, hlv, hh, he, hev, hs⟩ := C106_script H flags hf v r rb hrb o ho b hb w n h
  refine ⟨bs, rb, redeem, rest, hbs, hrb, hlv, ?_⟩
  rcases hash160_cases H hh with rfl | hc
  · cases encodes_injective he henc
    exact .inl (redeem_endorsed (sec_lengths hsec) hm (by omega) hev hs)
  · exact .inr hc

/-- C106. Whatever is accepted as spending a `MultisigOutput` shows as many signatures as it needs, by some of its keys, in
their order. -/
theorem C106_bare (H : Hashes) (flags : Nat) (v : Int) (ks : List PublicKey) (m : Nat)
    (hk : ∀ k ∈ ks, k.Valid) (hm : m ≤ 16) (h2 : ks.length ≤ 16) (o : Output) (ho : MultisigOutput.create v ks m = .ok o)
    (b : Bytes) (hb : o.script.toBytes = .ok b) (w : WireTx) (n : Nat) (h : Ref.Spends H flags w n b) :
    ∃ bs sigs d rest, List.Forall₂ (fun (k : PublicKey) b => k.toBytes = .ok b) ks bs ∧
      Leaves H flags w n (sigs.reverse ++ d :: rest) ∧ EndorsedBy H flags w n m bs sigs := by
  obtain ⟨s, bs, rb, h1, hbs, hsec, hl, hrb, henc⟩ := redeem_keys hk hm h2
  unfold MultisigOutput.create at ho
  rw [h1] at ho
  cases ho
  rw [show _ = _ from hb] at hrb
  cases hrb
  obtain ⟨x, hx, s, p, st, st', es, ep, _, e1, e2, hs, _⟩ := h
  cases encodes_injective ep henc
  obtain ⟨sigs, d, rest, rfl, hend⟩ := redeem_endorsed (sec_lengths hsec) hm (by omega) e2 hs
  exact ⟨bs, sigs, d, rest, hbs, ⟨x, s, hx, es, e1⟩, hend⟩

/-- C106. Such signatures are enough: they make a transaction spend a `MultisigOutput`, whatever the flags. -/
theorem C106_bare_iff (H : Hashes) (flags : Nat) (v : Int) (ks : List PublicKey) (m : Nat)
    (hk : ∀ k ∈ ks, k.Valid) (hm : m ≤ 16) (h2 : ks.length ≤ 16) (o : Output) (ho : MultisigOutput.create v ks m = .ok o)
    (b : Bytes) (hb : o.script.toBytes = .ok b) :
    ∃ bs, List.Forall₂ (fun (k : PublicKey) b => k.toBytes = .ok b) ks bs ∧
      ∀ (w : WireTx) (n : Nat), n < w.inputs.length → (Spendable H flags w n b ↔ ∃ sigs, EndorsedBy H flags w n m bs sigs) := by
  obtain ⟨s, bs, rb, h1, hbs, hsec, hl, hrb, henc⟩ := redeem_keys hk hm h2
  unfold MultisigOutput.create at ho
  rw [h1] at ho
  cases ho
  rw [show _ = _ from hb] at hrb
  cases hrb
  have hlen := sec_lengths hsec
  refine ⟨bs, hbs, fun w n hn => ?_⟩
  rw [spendable_iff H flags w n hn]
  constructor
  · rintro ⟨sb, s, p, st, st', _, ep, _, _, e2, hs, _⟩
    cases encodes_injective ep henc
    obtain ⟨sigs, _, _, _, h⟩ := redeem_endorsed hlen hm (by omega) e2 hs
    exact ⟨sigs, h⟩
  · rintro ⟨sigs, hsl, sub, hsub, hall⟩
    have hsz : ∀ b ∈ sigs, 2 ≤ b.length ∧ b.length ≤ 520 := by
      intro b hb
      obtain ⟨k, _, hkb⟩ := forall₂_mem_left hall hb
      have := endorsed_lengths hkb
      omega
    obtain ⟨sb, hsb⟩ := pushes_exist true sigs hsz
    have hle : sigs.length ≤ bs.length := by rw [hall.length_eq]; exact hsub.length_le
    have hout := Ref.eval_redeem H (Ref.checker H flags w n) flags sigs bs hlen (by omega) hle
    rw [multisig_matches, hsl] at hout
    · refine ⟨sb, _, _, _, _, hsb, henc, fun _ => pushes_pushOnly true _ hsz,
        eval_pushes H (Ref.checker H flags w n) flags true sigs hsz (by omega), hout, ⟨[1], [], rfl, by decide⟩, ?_⟩
      rw [if_neg]
      · exact fun _ => rfl
      · rintro ⟨_, h', hl', e⟩
        have := encodes_injective henc (e ▸ payToScript_encodes h' hl')
        have := (List.cons.inj this).1
        have hv := Ref.smallOp_val m hm
        rw [(Prod.mk.inj this).1] at hv
        split at hv
        · exact absurd hv (by decide)
        · rw [show (169 : Byte).val = 169 from rfl] at hv; omega
    · intro s hs k hk
      obtain ⟨k', _, hkb⟩ := forall₂_mem_left hall (List.mem_reverse.1 hs)
      obtain ⟨_, _, _, hsec'⟩ := hsec k (List.mem_reverse.1 hk)
      simp only [Ref.checker]
      rw [if_pos ⟨hkb.1, fun _ => sec_head hsec'⟩]
      simp
    · refine ⟨sub.reverse, hsub.reverse, ?_⟩
      rw [List.forall₂_reverse_iff, hsl]
      refine hall.imp fun s k h => checker_iff.2 ?_
      rw [endorsed_reverse]
      exact h

/-- C106. Nothing spends a `DataOutput`. -/
theorem C106_data (H : Hashes) (flags : Nat) (d : Data) (o : Output) (ho : DataOutput.create d = .ok o) (b : Bytes)
    (hb : Encodes o.script.wires b) (w : WireTx) (n : Nat) : ¬ Spendable H flags w n b := by
  intro h
  have hw : ∃ is, o.script.wires = (106, none) :: is := by
    unfold DataOutput.create at ho
    split at ho
    · cases ho
    · split at ho
      · cases ho
      · next s hs =>
        cases ho
        obtain ⟨c, l⟩ := s
        have := (ofSchematic_ok _ _ _ hs).2
        unfold toInstructions at this
        split at this
        · cases this
        · next i hi =>
          split at this
          · cases this
          · cases this
            cases (show Except.ok _ = Except.ok i from hi)
            exact ⟨_, rfl⟩
  obtain ⟨is, hw⟩ := hw
  obtain ⟨_, _, s, p, st, st', _, ep, _, _, e2, _⟩ := spendable_accepts h
  rw [hw] at hb
  cases encodes_injective ep hb
  rw [Ref.return_none] at e2
  cases e2

/-- C106. Whatever is accepted as spending what an `AddressOutput` paid to the address of a multisig script (C43: by the
script for the hash of a key) shows a public key that collides with that script. -/
theorem C106_misdirected (H : Hashes) (flags : Nat) (v : Int) (ks : List PublicKey) (m : Nat)
    (hk : ∀ k ∈ ks, k.Valid) (hm : m ≤ 16) (h2 : ks.length ≤ 16) (r : Script) (hr : RedeemMultisig.create ks m = .ok r)
    (rb : Bytes) (hrb : r.toBytes = .ok rb) (network : Network) (a : Address)
    (ha : Address.fromScriptBytes H rb (.network network) = .ok a) (o : Output) (ho : AddressOutput.create v a = .ok o)
    (b : Bytes) (hb : o.script.toBytes = .ok b) (w : WireTx) (n : Nat) (h : Ref.Spends H flags w n b) :
    ∃ key sig rest, Leaves H flags w n (key :: sig :: rest) ∧ Collide160 H key rb ∧
      Endorsed H flags w n (Ref.payToKey a.phash) [sig] sig key := by
  rw [(C15_from_key_or_script H rb network).2] at ha
  cases ha
  obtain ⟨key, sig, rest, hlv, hh, he⟩ := C106_address H flags v _ (H.ripemd160_length _) o ho b hb w n h
  refine ⟨key, sig, rest, hlv, (hash160_cases H hh).resolve_left ?_, he⟩
  rintro rfl
  obtain ⟨s, bs, h1, _, _, hb⟩ := C41_redeem_bytes ks m hk hm h2
  rw [hr] at h1
  cases h1
  rw [hrb] at hb
  obtain ⟨_, _, _, _, _, _, _, _, _, _, _, _, _, hsec, _⟩ := he
  have hv : ∀ m : Fin 17, smallByte m.val ≠ 2 ∧ smallByte m.val ≠ 3 ∧ smallByte m.val ≠ 4 := by decide +kernel
  have hv := hv ⟨m, by omega⟩
  simp only at hv
  rw [Except.ok.inj hb] at hsec
  rcases sec_head hsec with ⟨_, e | e⟩ | ⟨_, e⟩ <;> simp only [List.head?_cons, Option.some.injEq] at e <;> tauto

/-- Outputs that meet the hypotheses of C106. -/
example : (∃ o b, AddressOutput.create 258 ⟨oneHash, .livenet, .publicKey⟩ = .ok o ∧ o.script.toBytes = .ok b) ∧
    (∃ o, DataOutput.create ⟨.str, [7, 8, 9]⟩ = .ok o ∧ ∃ b, Encodes o.script.wires b) ∧ 0 < pairWire.inputs.length := by
  obtain ⟨o, h1, _, _, h2, _⟩ := C43_address 258 ⟨oneHash, .livenet, .publicKey⟩ (by decide +kernel)
  refine ⟨⟨o, _, h1, h2⟩, ⟨⟨.data, 0, ⟨.opReturnOut, [⟨.num 106, none⟩, ⟨.num 3, some ⟨.str, [7, 8, 9]⟩⟩]⟩⟩, by decide +kernel,
    [106, 3, 7, 8, 9], ?_⟩, by decide⟩
  exact .cons (b := [106]) (by decide) rfl (.cons (b := [3, 7, 8, 9]) (by decide) rfl .nil)

example : ∃ r o b rb, RedeemMultisig.create [onePub, twoPub] 2 = .ok r ∧ r.toBytes = .ok rb ∧
    ScriptOutput.create .toy 258 r = .ok o ∧ o.script.toBytes = .ok b ∧ ∀ p ∈ [onePub, twoPub], p.Valid := by
  obtain ⟨r, bs, h1, _, _, h2⟩ := C41_redeem_bytes [onePub, twoPub] 2 both_valid (by omega) (by simp)
  obtain ⟨o, h3, _, _, h4, _⟩ := (C43_script .toy 258 r).2 _ h2
  exact ⟨r, o, _, _, h1, h2, h3, h4, both_valid⟩

/-- … and a transaction that can be made to spend one. -/
example : ∃ (r : Script) (o : Output) (b : Bytes), ScriptOutput.create .toy 258 r = .ok o ∧ o.script.toBytes = .ok b ∧
    Spendable .toy 2 pairWire 0 b := by
  obtain ⟨r, bs, h1, _, hl, h2⟩ := C41_redeem_bytes [onePub] 1 (by intro p hp; exact both_valid p (by simp_all)) (by omega) (by simp)
  obtain ⟨o, h3, _, _, h4, _⟩ := (C43_script .toy 258 r).2 _ h2
  refine ⟨r, o, _, h3, h4, C106_unverified .toy 2 (by decide) 258 r _ h2 (by simp) ?_ o h3 _ h4 pairWire 0 (by decide)⟩
  have := flatMap_length_keys hl
  simp only [List.length_cons, List.length_append, List.length_nil, this, List.map_cons, List.map_nil, List.sum_cons,
    List.sum_nil]
  split <;> omega

end Bitforge
