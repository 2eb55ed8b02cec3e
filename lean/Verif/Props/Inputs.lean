import Verif.Spec.Inputs
import Verif.Props.Relay

/-! # C138: the inputs that the reference client relays, and the signature operations -/

namespace Bitforge.Inputs
open Spec Transaction Interpreter Relay

/-! ## Counting -/

/-- An instruction is read from a byte string in at most one way. -/
theorem wire_unique {i j : WireInstr} {c d r s : Bytes} (hi : Wf i) (hj : Wf j) (hc : IsWire i c) (hd : IsWire j d)
    (h : c ++ r = d ++ s) : i = j ∧ r = s := by
  obtain ⟨op, a⟩ := i
  obtain ⟨op', a'⟩ := j
  have hop : op = op' := by
    have e : ∀ {op : Byte} {a : Option Bytes} {c : Bytes}, IsWire (op, a) c → ∀ r : Bytes, (c ++ r).head? = some op := by
      intro op a c h r
      cases a with
      | none => simp only [IsWire] at h; rw [h]; rfl
      | some d =>
        simp only [IsWire] at h
        cases hk : pushKind op with
        | plain => rw [hk] at h; exact h.elim
        | direct n => rw [hk] at h; rw [h]; rfl
        | counted w => rw [hk] at h; obtain ⟨_, _, _, rfl⟩ := h; rfl
    have h1 := e hc r
    rw [h, e hd s] at h1
    exact (Option.some.inj h1).symm
  subst hop
  cases hk : pushKind op with
  | plain =>
    cases a with
    | some _ => simp only [Wf, hk] at hi
    | none =>
      cases a' with
      | some _ => simp only [Wf, hk] at hj
      | none =>
        simp only [IsWire] at hc hd
        subst hc hd
        exact ⟨rfl, by simpa using h⟩
  | direct n =>
    cases a with
    | none => simp [Wf, hk] at hi
    | some x =>
      cases a' with
      | none => simp [Wf, hk] at hj
      | some y =>
        simp only [Wf, IsWire, hk] at hc hd hi hj
        subst hc hd
        simp only [List.cons_append, List.cons.injEq, true_and] at h
        obtain ⟨rfl, rfl⟩ := List.append_inj h (by omega)
        exact ⟨rfl, rfl⟩
  | counted w =>
    cases a with
    | none => simp [Wf, hk] at hi
    | some x =>
      cases a' with
      | none => simp [Wf, hk] at hj
      | some y =>
        simp only [IsWire, hk] at hc hd
        obtain ⟨p, p1, p2, rfl⟩ := hc
        obtain ⟨q, q1, q2, rfl⟩ := hd
        simp only [List.cons_append, List.append_assoc, List.cons.injEq, true_and] at h
        obtain ⟨rfl, h'⟩ := List.append_inj h (by omega)
        obtain ⟨rfl, rfl⟩ := List.append_inj h' (by omega)
        exact ⟨rfl, rfl⟩

theorem wire_ne {i : WireInstr} {c r : Bytes} (h : IsWire i c) : c ++ r ≠ [] := by
  have := wire_size h
  obtain ⟨op, a⟩ := i
  intro e
  obtain ⟨rfl, rfl⟩ := List.append_eq_nil_iff.1 e
  cases a with
  | none => cases h
  | some d =>
    simp only [IsWire] at h
    cases hk : pushKind op with
    | plain => rw [hk] at h; exact h
    | direct n => rw [hk] at h; cases h
    | counted w => rw [hk] at h; obtain ⟨_, _, _, h⟩ := h; cases h

/-- The count is a function of the bytes. -/
theorem counts_unique {acc : Bool} {last : Byte} {b : Bytes} {n m : Nat} (h : Ref.Counts acc last b n)
    (h' : Ref.Counts acc last b m) : n = m := by
  induction h generalizing m with
  | stop hs =>
    cases h' with
    | stop _ => rfl
    | step h1 h2 _ => exact absurd rfl (hs _ _ _ h1 h2)
  | @step last i c rest n h1 h2 _ ih =>
    generalize e : c ++ rest = b at h'
    cases h' with
    | stop hs => exact absurd e.symm (hs _ _ _ h1 h2)
    | step g1 g2 g3 =>
      obtain ⟨rfl, rfl⟩ := wire_unique h1 g1 h2 g2 e
      rw [ih g3]

/-- The count of a list of instructions. -/
def count (acc : Bool) : Byte → List WireInstr → Nat
  | _, [] => 0
  | last, i :: is => Ref.opCount acc last i.1 + count acc i.1 is

theorem counts_encodes {acc : Bool} {is : List WireInstr} {b : Bytes} (h : Encodes is b) :
    ∀ last, Ref.Counts acc last b (count acc last is) := by
  induction h with
  | nil => exact fun last => .stop fun i c rest _ hw e => wire_ne hw e.symm
  | cons h1 h2 _ ih => exact fun last => .step h1 h2 (ih _)

theorem sigOps_iff {acc : Bool} {is : List WireInstr} {b : Bytes} (h : Encodes is b) (n : Nat) :
    Ref.SigOps acc b n ↔ n = count acc 255 is :=
  ⟨fun h' => counts_unique h' (counts_encodes h _), fun e => e ▸ counts_encodes h _⟩

theorem count_pushes {acc : Bool} : ∀ (is rest : List WireInstr) (last : Byte), Ref.PushOnly is →
    count acc last (is ++ rest) = count acc ((is.getLast?.map (·.1)).getD last) rest
  | [], _, _, _ => rfl
  | i :: is, rest, last, h => by
    have hi := h i List.mem_cons_self
    have := count_pushes (acc := acc) is rest i.1 fun j hj => h j (List.mem_cons_of_mem _ hj)
    rw [List.cons_append, count, this]
    have e : Ref.opCount acc last i.1 = 0 := by
      unfold Ref.opCount
      rw [if_neg (by omega), if_neg (by omega)]
    rw [e, Nat.zero_add]
    cases is with
    | nil => rfl
    | cons j is => rw [List.getLast?_cons_cons]; cases h : (j :: is).getLast? with
      | none => simp at h
      | some k => rfl

theorem count_pushOnly {acc : Bool} (is : List WireInstr) (last : Byte) (h : Ref.PushOnly is) : count acc last is = 0 := by
  have := count_pushes (acc := acc) is [] last h
  rw [List.append_nil] at this
  rw [this, count]

theorem count_redeem (acc : Bool) (m : Nat) (ks : List Bytes) (hm : m ≤ 16) (hn : ks.length ≤ 16) :
    count acc 255 (Ref.redeemScript m ks) = if acc = true ∧ 1 ≤ ks.length then ks.length else 20 := by
  have e : Ref.redeemScript m ks = ((Ref.smallOp m, none) :: (ks.map pushOf ++ [(Ref.smallOp ks.length, none)])) ++ [(174, none)] := by
    unfold Ref.redeemScript; simp
  rw [e, count_pushes]
  · rw [← List.cons_append, List.getLast?_append]
    have hv := Ref.smallOp_val ks.length hn
    simp only [List.getLast?_singleton, Option.some_or, Option.map_some, Option.getD_some, count, Nat.add_zero]
    unfold Ref.opCount
    rw [if_neg (by decide), if_pos (by decide), hv]
    cases acc
    · simp
    · by_cases h0 : ks.length = 0
      · simp [h0]
      · rw [if_neg h0, if_pos (by simp; omega), if_pos (by simp; omega)]; omega
  · intro i hi
    have hs : ∀ n ≤ 16, (Ref.smallOp n).val ≤ 96 := fun n hn => by rw [Ref.smallOp_val n hn]; split <;> omega
    simp only [List.mem_cons, List.mem_append, List.mem_map, List.not_mem_nil, or_false] at hi
    rcases hi with rfl | ⟨b, _, rfl⟩ | rfl
    · exact hs m hm
    · exact pushOf_small b
    · exact hs _ hn

theorem count_payToKey (acc : Bool) (h : Bytes) : count acc 255 (Ref.payToKey h) = 1 := by
  have := pushOf_small h
  unfold Ref.payToKey
  simp only [count]
  have e : Ref.opCount acc 169 (pushOf h).1 = 0 := by
    unfold Ref.opCount
    rw [if_neg (by omega), if_neg (by omega)]
  rw [e]
  cases acc <;> rfl

theorem made {α : Type} {l : List α} {f : α → Nat → Prop} {c : Nat} (h : ∀ a ∈ l, ∀ k, f a k ↔ k = c) :
    List.Forall₂ f l (l.map fun _ => c) := by
  rw [List.forall₂_map_right_iff, List.forall₂_same]
  exact fun a ha => (h a ha c).2 rfl

theorem sum_of {α : Type} {l : List α} {ns : List Nat} {f : α → Nat → Prop} {c : Nat} (hf : List.Forall₂ f l ns)
    (h : ∀ a ∈ l, ∀ k, f a k ↔ k = c) : ns.sum = c * l.length := by
  induction hf with
  | nil => rfl
  | cons h1 _ ih =>
    rw [List.sum_cons, ih fun a ha => h a (List.mem_cons_of_mem _ ha), (h _ List.mem_cons_self _).1 h1, List.length_cons]
    rw [Nat.mul_succ, Nat.add_comm]

/-! ## Running pushes -/

theorem pushOf_data (b : Bytes) : (pushOf b).2.getD [] = b := by
  by_cases h0 : b.length = 0
  · rw [List.length_eq_zero_iff.1 h0]; rfl
  · rw [(Ref.pushOf_op b (by omega)).1]; rfl

theorem pushOf_le (b : Bytes) : (pushOf b).1.val ≤ 78 := by
  by_cases h0 : b.length = 0
  · unfold pushOf; rw [if_pos h0]; decide
  · exact (Ref.pushOf_op b (by omega)).2.2.1

theorem act_push (H : Hashes) (C : Ref.Checker) (b : Bytes) (after : List WireInstr) (s : Ref.St) (hb : b.length ≤ 520)
    (hc : s.cond = []) : Ref.act H C 0 (pushOf b) after s = some { s with stack := b :: s.stack } := by
  have h := pushOf_le b
  have hd : Ref.disabled (pushOf b).1.val = false := by
    unfold Ref.disabled
    rw [decide_eq_false_iff_not]
    omega
  unfold Ref.act
  simp only [pushOf_data, hd]
  rw [if_neg (by omega : ¬ (pushOf b).1.val > 96), if_neg (by omega), if_neg (by omega), if_neg (by decide),
    if_pos ⟨by rw [hc]; rfl, h⟩, if_neg (by simp)]

theorem run_pushes_iff (H : Hashes) (C : Ref.Checker) : ∀ (l : List Bytes) (s s' : Ref.St), s.cond = [] →
    s.stack.length + s.alt.length ≤ 1000 → (Ref.run H C 0 (l.map pushOf) s = some s' ↔ (∀ b ∈ l, b.length ≤ 520) ∧
      l.length + s.stack.length + s.alt.length ≤ 1000 ∧ s' = { s with stack := l.reverse ++ s.stack })
  | [], s, s', _, hl => by
    simp only [List.map_nil, Ref.run, List.not_mem_nil, false_implies, implies_true, List.length_nil, List.reverse_nil,
      List.nil_append, true_and, Option.some.injEq]
    exact ⟨fun h => ⟨by omega, h.symm⟩, fun h => h.2.symm⟩
  | b :: l, s, s', hc, hl => by
    by_cases hb : b.length ≤ 520
    · rw [List.map_cons, Ref.run, act_push H C b _ s hb hc]
      simp only [List.length_cons]
      split
      · simp only [reduceCtorEq, false_iff, not_and]
        intro _ h
        omega
      · rw [run_pushes_iff H C l { s with stack := b :: s.stack } s' hc (by simp only [List.length_cons]; omega)]
        simp only [List.length_cons, List.reverse_cons, List.append_assoc, List.singleton_append, List.forall_mem_cons]
        exact ⟨fun ⟨h1, h2, h3⟩ => ⟨⟨hb, h1⟩, by omega, h3⟩, fun ⟨⟨_, h1⟩, h2, h3⟩ => ⟨h1, by omega, h3⟩⟩
    · rw [run_big H C 0 _ s ⟨pushOf b, by simp, by rw [pushOf_data]; omega⟩]
      simp only [reduceCtorEq, false_iff, not_and]
      intro h
      exact absurd (h b List.mem_cons_self) hb

/-- What a script of pushes leaves, if it runs. -/
theorem eval_pushes_iff (H : Hashes) (C : Ref.Checker) (l : List Bytes) (st : List Bytes) :
    Ref.eval H C 0 (l.map pushOf) [] = some st ↔
      Ref.size (l.map pushOf) ≤ 10000 ∧ (∀ b ∈ l, b.length ≤ 520) ∧ l.length ≤ 1000 ∧ st = l.reverse := by
  unfold Ref.eval
  split
  · simp only [reduceCtorEq, false_iff, not_and]
    intro h
    omega
  · next hs =>
    have hr := run_pushes_iff H C l { stack := [], code := l.map pushOf }
    cases h : Ref.run H C 0 (l.map pushOf) { stack := [], code := l.map pushOf } with
    | none =>
      simp only [reduceCtorEq, false_iff, not_and]
      intro _ h1 h2 _
      have := (hr _ rfl (by simp)).2 ⟨h1, by simpa using h2, rfl⟩
      rw [h] at this
      cases this
    | some s' =>
      obtain ⟨h1, h2, rfl⟩ := (hr _ rfl (by simp)).1 h
      simp only [List.length_nil, Nat.add_zero] at h2
      simp only [List.append_nil, if_true, Option.some.injEq]
      exact ⟨fun e => ⟨by omega, h1, h2, e.symm⟩, fun e => e.2.2.2.symm⟩

/-! ## The inputs -/

/-- A script has at most one form. -/
theorem isForm_unique {b : Bytes} {f g : Ref.Form} (hf : Ref.IsForm b f) (hg : Ref.IsForm b g) : f = g := by
  obtain ⟨ws, he⟩ : ∃ ws, Encodes ws b := by
    cases hf with
    | scriptHash h => obtain ⟨d, hd, rfl⟩ := h; exact ⟨_, scriptHash_encodes d hd⟩
    | pubkey h _ _ _ => exact ⟨_, h⟩
    | pubkeyHash h _ _ => exact ⟨_, h⟩
    | multisig h _ _ _ _ _ _ => exact ⟨_, h⟩
    | nullData h _ => exact ⟨_, h⟩
    | nullEmpty => exact ⟨_, .cons (i := (106, none)) (bs := []) (by decide) rfl .nil⟩
  have h1 := isForm_wires hf he
  have h2 := isForm_wires hg he
  have key : ∀ {f g : Ref.Form}, FormOf ws f → FormOf ws g → (∀ m n, f ≠ .multisig m n) → f = g := by
    intro f g h1 h2 hm
    cases f with
    | multisig m n => exact absurd rfl (hm m n)
    | scriptHash =>
      obtain ⟨h, _, rfl⟩ := h1
      cases g with
      | scriptHash => rfl
      | pubkey => obtain ⟨_, _, e, _⟩ := h2; cases e
      | pubkeyHash => obtain ⟨_, _, e, _⟩ := h2; cases e
      | multisig m n => obtain ⟨_, _, _, e, _⟩ := h2; have := last_multisig e; simp at this
      | nullData => obtain e | ⟨_, e⟩ := h2 <;> cases e
    | pubkey =>
      obtain ⟨i, k, rfl, hi⟩ := h1
      cases g with
      | scriptHash => obtain ⟨_, _, e⟩ := h2; cases e
      | pubkey => rfl
      | pubkeyHash => obtain ⟨_, _, e, _⟩ := h2; cases e
      | multisig m n => obtain ⟨_, _, _, e, _⟩ := h2; have := last_multisig e; simp at this
      | nullData =>
        obtain e | ⟨_, e⟩ := h2
        · cases e
        · cases e; cases hi
    | pubkeyHash =>
      obtain ⟨i, k, rfl, hi⟩ := h1
      cases g with
      | scriptHash => obtain ⟨_, _, e⟩ := h2; cases e
      | pubkey => obtain ⟨_, _, e, _⟩ := h2; cases e
      | pubkeyHash => rfl
      | multisig m n => obtain ⟨_, _, _, e, _⟩ := h2; have := last_multisig e; simp at this
      | nullData => obtain e | ⟨_, e⟩ := h2 <;> cases e
    | nullData =>
      cases g with
      | nullData => rfl
      | scriptHash => obtain ⟨_, _, rfl⟩ := h2; obtain e | ⟨_, e⟩ := h1 <;> cases e
      | pubkey =>
        obtain ⟨_, _, rfl, hi⟩ := h2
        obtain e | ⟨_, e⟩ := h1
        · cases e
        · cases e; cases hi
      | pubkeyHash => obtain ⟨_, _, rfl, _⟩ := h2; obtain e | ⟨_, e⟩ := h1 <;> cases e
      | multisig m n =>
        obtain ⟨opM, ops, _, e, _, hM, _⟩ := h2
        have : ws.head? = some (106, none) := by obtain rfl | ⟨_, rfl⟩ := h1 <;> rfl
        rw [e] at this
        simp only [List.head?_cons, Option.some.injEq, Prod.mk.injEq, and_true] at this
        rw [this] at hM
        have e0 : Ref.smallNumber 106 = none := by decide
        rw [e0] at hM
        cases hM
  by_cases hm : ∀ m n, f ≠ .multisig m n
  · exact key h1 h2 hm
  by_cases hm' : ∀ m n, g ≠ .multisig m n
  · exact (key h2 h1 hm').symm
  push Not at hm hm'
  obtain ⟨m, n, rfl⟩ := hm
  obtain ⟨m', n', rfl⟩ := hm'
  obtain ⟨opM, ops, opN, e, hl, hM, hN, -⟩ := h1
  obtain ⟨opM', ops', opN', e', hl', hM', hN', -⟩ := h2
  rw [e] at e'
  simp only [List.cons.injEq, Prod.mk.injEq, and_true] at e'
  obtain ⟨rfl, e'⟩ := e'
  obtain ⟨rfl, _⟩ := List.append_inj' e' rfl
  rw [hM] at hM'
  cases hM'
  rw [← hl, ← hl']

/-- What a signed `ScriptInput` or `MultisigInput` pushes. -/
theorem signed_pushes (H : Hashes) (nonces : Nat → Nat) (hν : NoncesOk nonces) (t u v : Transaction) (ks : List PrivateKey)
    (n : Nat) (st : Int) (x : Input) (hcls : x.cls = .script ∨ x.cls = .multisig) (ht : t.InRange)
    (hx : t.inputs[n]? = some x) (h : t.sign H (keySigner nonces) ks n st = .ok u) (hv : Signs H u v) (w : WireTx)
    (hw : v.Shows w) (rb : Bytes) (hrb : x.script.toBytes = .ok rb) :
    ∃ i sbs, w.inputs[n]? = some i ∧ Encodes (([] :: (sbs ++ [rb])).map pushOf) i.script ∧ sbs.length = ks.length ∧
      ∀ b ∈ sbs, 9 ≤ b.length ∧ b.length ≤ 73 := by
  obtain ⟨w0, y, sbs, rb', hw0, hy, hrb2, hsig, _, _, hwires⟩ := C74_script H nonces hν t u ks n st _ ht hx hcls h
  rw [hrb] at hrb2
  cases hrb2
  obtain ⟨_, _, _, _, _, hfr⟩ := C37_frame H _ t u ks n st h
  obtain ⟨_, y', _, _, hy', _, _, _, _, _, hgen⟩ := hfr n rfl
  rw [hy] at hy'
  cases hy'
  obtain ⟨i, hi, his⟩ := shows_get hw.2.1 (signs_generic hv hy hgen)
  have he : Encodes ((0, none) :: (sbs ++ [rb]).map pushOf) i.script := hwires ▸ his.2.2.1
  refine ⟨i, sbs, hi, he, hsig.length_eq.symm, fun b hb => ?_⟩
  obtain ⟨k, _, hk⟩ := forall₂_mem_left hsig.flip hb
  exact ⟨(signsDigest_head hk).1, (signsDigest_head hk).2.1⟩

/-- C138. When the reference client relays a signed `ScriptInput` or `MultisigInput` that spends the hash of a script: the
script has at most 520 bytes, the input at most 10000 and 998 signatures, and either the script has a form and there are as
many signatures as it asks for, or it has none and at most fifteen signature operations. -/
theorem C138_script (H : Hashes) (nonces : Nat → Nat) (hν : NoncesOk nonces) (t u v : Transaction) (ks : List PrivateKey)
    (n : Nat) (st : Int) (x : Input) (hcls : x.cls = .script ∨ x.cls = .multisig) (ht : t.InRange)
    (hx : t.inputs[n]? = some x) (h : t.sign H (keySigner nonces) ks n st = .ok u) (hv : Signs H u v) (w : WireTx)
    (hw : v.Shows w) (rb : Bytes) (hrb : x.script.toBytes = .ok rb) :
    ∃ i, w.inputs[n]? = some i ∧ ∀ hash : Bytes, hash.length = 20 →
      (Ref.InputStandard H i (169 :: 20 :: (hash ++ [135])) ↔
        rb.length ≤ 520 ∧ i.script.length ≤ 10000 ∧ ks.length ≤ 998 ∧
        ((∃ g, Ref.IsForm rb g ∧ g.args = some (ks.length + 1)) ∨
          (∀ g, ¬ Ref.IsForm rb g) ∧ ∃ k, Ref.SigOps true rb k ∧ k ≤ 15)) := by
  obtain ⟨i, sbs, hi, he, hl, hsb⟩ := signed_pushes H nonces hν t u v ks n st x hcls ht hx h hv w hw rb hrb
  refine ⟨i, hi, fun hash hh => ?_⟩
  have hf := form_scriptHash hash hh
  have hrev : ([] :: (sbs ++ [rb])).reverse = rb :: (sbs.reverse ++ [[]]) := by simp
  constructor
  · rintro ⟨f, m, is, st', h1, h2, h3, h4, -, h6⟩
    obtain rfl := (hf f).1 h1
    cases h2
    obtain rfl := encodes_injective h3 he
    obtain ⟨e1, e2, e3, rfl⟩ := (eval_pushes_iff H _ _ st').1 h4
    rw [size_spec he] at e1
    simp only [List.length_cons, List.length_append, List.length_nil, hl] at e3
    refine ⟨e2 rb (by simp), e1, by omega, ?_⟩
    obtain ⟨redeem, rest, e, h6⟩ := h6 rfl
    rw [hrev] at e h6
    cases e
    rcases h6 with ⟨g, k, g1, g2, g3⟩ | h6
    · left
      refine ⟨g, g1, g2.trans ?_⟩
      simp only [List.length_cons, List.length_append, List.length_reverse, List.length_nil, hl] at g3
      congr 1
      omega
    · exact .inr h6
  · rintro ⟨h1, h2, h3, h4⟩
    refine ⟨.scriptHash, 1, _, _, (hf _).2 rfl, rfl, he, (eval_pushes_iff H _ _ _).2 ⟨by rw [size_spec he]; exact h2, ?_, ?_, rfl⟩,
      fun h => absurd rfl h, fun _ => ⟨rb, _, hrev, ?_⟩⟩
    · intro b hb
      simp only [List.mem_cons, List.mem_append, List.not_mem_nil, or_false] at hb
      rcases hb with rfl | hb | rfl
      · simp
      · have := hsb b hb; omega
      · exact h1
    · simp only [List.length_cons, List.length_append, List.length_nil, hl]; omega
    · rcases h4 with ⟨g, g1, g2⟩ | h4
      · refine .inl ⟨g, _, g1, g2, ?_⟩
        rw [hrev]
        simp only [List.length_cons, List.length_append, List.length_reverse, List.length_nil, hl]
        omega
      · exact .inr h4

/-- C138. A signed `MultisigInput` is relayed exactly if its script has at most 520 bytes and it is signed with as many keys as
are asked for, which are at least one and no more than there are.  Otherwise nobody can spend it, and it is relayed up to
fifteen keys. -/
theorem C138_multisig (H : Hashes) (nonces : Nat → Nat) (hν : NoncesOk nonces) (t u v : Transaction) (ks : List PrivateKey)
    (n : Nat) (st : Int) (id : Text) (ix seq : Int) (pubs : List PublicKey) (m : Nat) (hpv : ∀ p ∈ pubs, p.Valid)
    (hn : pubs.length ≤ 16) (hm : m ≤ 16) (x : Input) (hc : MultisigInput.create id ix pubs m seq = .ok x) (ht : t.InRange)
    (hx : t.inputs[n]? = some x) (h : t.sign H (keySigner nonces) ks n st = .ok u) (hv : Signs H u v) (w : WireTx)
    (hw : v.Shows w) : ∃ i rb, w.inputs[n]? = some i ∧ x.script.toBytes = .ok rb ∧ ∀ hash : Bytes, hash.length = 20 →
      ((1 ≤ m ∧ m ≤ pubs.length) → (Ref.InputStandard H i (169 :: 20 :: (hash ++ [135])) ↔
        rb.length ≤ 520 ∧ ks.length = m)) ∧
      (¬ (1 ≤ m ∧ m ≤ pubs.length) → (Ref.InputStandard H i (169 :: 20 :: (hash ++ [135])) ↔
        rb.length ≤ 520 ∧ i.script.length ≤ 10000 ∧ ks.length ≤ 998 ∧ 1 ≤ pubs.length ∧ pubs.length ≤ 15)) := by
  obtain ⟨s, bs, rb, r⟩ := redeem_made pubs m hpv hm hn
  have hxs : x.script = s ∧ x.cls = .multisig := by
    unfold MultisigInput.create at hc
    rw [r.create] at hc
    cases hc
    exact ⟨rfl, rfl⟩
  have hrb : x.script.toBytes = .ok rb := hxs.1 ▸ r.bytes
  have hbl : bs.length = pubs.length := r.keys.length_eq.symm
  have hlen : ∀ b ∈ bs, 33 ≤ b.length ∧ b.length ≤ 65 := by
    intro b hb
    obtain ⟨p, _, _, h⟩ := forall₂_mem_left r.keys.flip hb
    rw [h]
    split <;> omega
  have hen : Encodes (Ref.redeemScript m bs) rb := r.wires ▸ r.encodes
  have hform := form_redeem m bs rb hm (by omega) hlen hen
  obtain ⟨i, hi, hiff⟩ := C138_script H nonces hν t u v ks n st x (.inr hxs.2) ht hx h hv w hw rb hrb
  obtain ⟨i', hi', _, _, hsz⟩ := C113_signed H nonces hν t u v ks n st x (.inr hxs.2) ht hx h hv w hw rb hrb
  rw [hi] at hi'
  cases hi'
  refine ⟨i, rb, hi, hrb, fun hash hh => ⟨fun hg => ?_, fun hg => ?_⟩⟩
  · rw [hiff hash hh]
    constructor
    · rintro ⟨h1, _, _, ⟨g, g1, g2⟩ | ⟨h4, _⟩⟩
      · obtain ⟨rfl, _⟩ := (hform g).1 g1
        simp only [Ref.Form.args, Option.some.injEq] at g2
        exact ⟨h1, by omega⟩
      · exact absurd ((hform _).2 ⟨rfl, hg.1, by omega⟩) (h4 _)
    · rintro ⟨h1, rfl⟩
      exact ⟨h1, by omega, by omega, .inl ⟨_, (hform _).2 ⟨rfl, hg.1, by omega⟩, rfl⟩⟩
  · rw [hiff hash hh]
    have hno : ∀ g, ¬ Ref.IsForm rb g := fun g hgf => hg (by have := (hform g).1 hgf; omega)
    have hcount : (∃ k, Ref.SigOps true rb k ∧ k ≤ 15) ↔ 1 ≤ pubs.length ∧ pubs.length ≤ 15 := by
      simp only [sigOps_iff hen, count_redeem true m bs hm (by omega), hbl, true_and, exists_eq_left]
      split <;> omega
    rw [hcount]
    exact ⟨fun ⟨h1, h2, h3, h4⟩ => ⟨h1, h2, h3, h4.elim (fun ⟨g, hg, _⟩ => absurd hg (hno g)) (·.2)⟩,
      fun ⟨h1, h2, h3, h4⟩ => ⟨h1, h2, h3, .inr ⟨hno, h4⟩⟩⟩

/-- C138. A signed `AddressInput` that spends its address is relayed. -/
theorem C138_address (H : Hashes) (nonces : Nat → Nat) (hν : NoncesOk nonces) (t u v : Transaction) (k : PrivateKey)
    (hk : k.Good) (n : Nat) (st : Int) (id : Text) (ix seq : Int) (a : Address) (x : Input) (ha : a.phash.length = 20)
    (hc : AddressInput.create id ix a seq = .ok x) (hcan : AddressInput.canSign H x [k] = .ok true)
    (ht : t.InRange) (hx : t.inputs[n]? = some x) (h : t.sign H (keySigner nonces) [k] n st = .ok u)
    (hv : Signs H u v) (w : WireTx) (hw : v.Shows w) :
    ∃ i, w.inputs[n]? = some i ∧ Ref.InputStandard H i (118 :: 169 :: 20 :: (a.phash ++ [136, 172])) := by
  obtain ⟨w0, xw, y, sb, pb, ax, ay, _, _, _, _, _, _, hsig, _, _, _, hsec, ⟨_, i, hi, he⟩, -⟩ :=
    address_spends H nonces hν t u v k hk n st id ix seq a x ha hc hcan ht hx h hv w hw
  have hs := signsDigest_head hsig
  have hp : pb.length ≤ 65 := by rcases sec_head hsec with h | h <;> omega
  have he' : Encodes ([sb, pb].map pushOf) i.script := he
  refine ⟨i, hi, .pubkeyHash, 2, _, [pb, sb], (form_payScript _ ha _).2 rfl, rfl, he',
    (eval_pushes_iff H _ _ _).2 ⟨?_, ?_, by simp, rfl⟩, fun _ => rfl, fun h => (nomatch h)⟩
  · have h1 := Ref.pushOf_size sb
    have h2 := Ref.pushOf_size pb
    simp only [Ref.size, List.map_cons, List.map_nil, List.sum_cons, List.sum_nil]
    omega
  · intro b hb
    simp only [List.mem_cons, List.not_mem_nil, or_false] at hb
    rcases hb with rfl | rfl <;> omega

/-! ## The number of signature operations -/

/-- C138. The outputs have one signature operation if they pay to a key, none if they pay to a script or are data, and twenty
if they pay to several keys without a hash. -/
theorem C138_outputs (H : Hashes) (amount : Int) :
    (∀ a : Address, a.phash.length = 20 → ∃ o b, AddressOutput.create amount a = .ok o ∧ o.script.toBytes = .ok b ∧
      ∀ k, Ref.SigOps false b k ↔ k = 1) ∧
    (∀ (r : Script) (rb : Bytes), r.toBytes = .ok rb → ∃ o b, ScriptOutput.create H amount r = .ok o ∧
      o.script.toBytes = .ok b ∧ ∀ k, Ref.SigOps false b k ↔ k = 0) ∧
    (∀ d : Bytes, 1 ≤ d.length → d.length ≤ 75 → ∃ o b, DataOutput.create ⟨.str, d⟩ = .ok o ∧ o.script.toBytes = .ok b ∧
      ∀ k, Ref.SigOps false b k ↔ k = 0) ∧
    ∀ (ks : List PublicKey) (m : Nat), (∀ k ∈ ks, k.Valid) → m ≤ 16 → ks.length ≤ 16 →
      ∃ o b, MultisigOutput.create amount ks m = .ok o ∧ o.script.toBytes = .ok b ∧ ∀ k, Ref.SigOps false b k ↔ k = 20 := by
  refine ⟨fun a ha => ?_, fun r rb h => ?_, fun d h1 h2 => ?_, fun ks m hk hm hn => ?_⟩
  · obtain ⟨o, h1, _, _, h2, _⟩ := C43_address amount a ha
    refine ⟨o, _, h1, h2, fun k => ?_⟩
    rw [sigOps_iff (payToKey_encodes _ ha), count_payToKey]
  · obtain ⟨o, h1, _, _, h2, _⟩ := (C43_script H amount r).2 rb h
    refine ⟨o, _, h1, h2, fun k => ?_⟩
    rw [sigOps_iff (scriptHash_encodes _ (H.ripemd160_length _))]
    exact Iff.rfl
  · obtain ⟨o, h, _, _, _, _, _, hb, _⟩ := C43_data_partial d h1 (by omega)
    refine ⟨o, _, h, hb h2, fun k => ?_⟩
    have he : Encodes [(106, none), pushOf d] ([106] ++ (shortPush d ++ [])) :=
      .cons (by decide) rfl (.cons (Ref.pushOf_wf d (by omega)) (pushOf_isWire d h1 h2) .nil)
    have e0 : (106 :: byte d.length :: d : Bytes) = [106] ++ (shortPush d ++ []) := by
      rw [List.append_nil]; rfl
    rw [e0, sigOps_iff he, count, count_pushOnly _ _ (fun i hi => by rw [List.mem_singleton.1 hi]; exact pushOf_small d)]
    exact Iff.rfl
  · obtain ⟨s, bs, rb, r⟩ := redeem_made ks m hk hm hn
    have hbl : bs.length = ks.length := r.keys.length_eq.symm
    refine ⟨⟨.multisig, amount, s⟩, rb, by unfold MultisigOutput.create; rw [r.create], r.bytes, fun k => ?_⟩
    have hen : Encodes (Ref.redeemScript m bs) rb := r.wires ▸ r.encodes
    rw [sigOps_iff hen, count_redeem false m bs hm (by omega), if_neg (by simp)]

/-- C138. Signed inputs have none of their own, and a `MultisigInput` as many as there are keys in the script that it spends. -/
theorem C138_inputs (H : Hashes) (nonces : Nat → Nat) (hν : NoncesOk nonces) (t u v : Transaction) (ks : List PrivateKey)
    (n : Nat) (st : Int) (id : Text) (ix seq : Int) (pubs : List PublicKey) (m : Nat) (hpv : ∀ p ∈ pubs, p.Valid)
    (hp : 1 ≤ pubs.length) (hn : pubs.length ≤ 16) (hm : m ≤ 16) (x : Input)
    (hc : MultisigInput.create id ix pubs m seq = .ok x) (ht : t.InRange)
    (hx : t.inputs[n]? = some x) (h : t.sign H (keySigner nonces) ks n st = .ok u) (hv : Signs H u v) (w : WireTx)
    (hw : v.Shows w) : ∃ i, w.inputs[n]? = some i ∧ (∀ k, Ref.SigOps false i.script k ↔ k = 0) ∧
      ∀ hash : Bytes, hash.length = 20 → ∀ k, Ref.ScriptOps i (169 :: 20 :: (hash ++ [135])) k ↔ k = pubs.length := by
  obtain ⟨s, bs, rb, r⟩ := redeem_made pubs m hpv hm hn
  have hxs : x.script = s ∧ x.cls = .multisig := by
    unfold MultisigInput.create at hc
    rw [r.create] at hc
    cases hc
    exact ⟨rfl, rfl⟩
  have hrb : x.script.toBytes = .ok rb := hxs.1 ▸ r.bytes
  have hbl : bs.length = pubs.length := r.keys.length_eq.symm
  have hen : Encodes (Ref.redeemScript m bs) rb := r.wires ▸ r.encodes
  obtain ⟨i, sbs, hi, he, _, _⟩ := signed_pushes H nonces hν t u v ks n st x (.inr hxs.2) ht hx h hv w hw rb hrb
  have hpush : Ref.PushOnly (([] :: (sbs ++ [rb])).map pushOf) := by
    intro j hj
    obtain ⟨b, _, rfl⟩ := List.mem_map.1 hj
    exact pushOf_small b
  have hlast : (((([] :: (sbs ++ [rb])).map pushOf).getLast?.bind (·.2)).getD []) = rb := by
    rw [← List.cons_append, List.map_append, List.getLast?_append]
    exact pushOf_data rb
  have hcount : ∀ k, Ref.SigOps true rb k ↔ k = pubs.length := fun k => by
    rw [sigOps_iff hen, count_redeem true m bs hm (by omega), hbl, if_pos ⟨rfl, hp⟩]
  refine ⟨i, hi, fun k => by rw [sigOps_iff he, count_pushOnly _ _ hpush], fun hash hh k => ?_⟩
  have hps : Ref.PaysToScript (169 :: 20 :: (hash ++ [135])) := ⟨hash, hh, rfl⟩
  constructor
  · rintro (⟨_, is, h1, _, h3⟩ | ⟨h1, _⟩)
    · rw [encodes_injective h1 he, hlast] at h3
      exact (hcount k).1 h3
    · exact absurd ⟨hps, _, he, hpush⟩ h1
  · exact fun e => .inl ⟨hps, _, he, hpush, by rw [hlast]; exact (hcount k).2 e⟩

/-- C138. The payments of the examples that are not too long to be relayed have few enough signature operations. -/
theorem C138_payment (H : Hashes) (nonces : Nat → Nat → Nat) (hν : ∀ n, NoncesOk (nonces n)) (cs : List Coin)
    (ps : List (Int × Address)) (hc : cs ≠ []) (hco : ∀ c ∈ cs, c.Ok) (hp : ps ≠ []) (hpo : ∀ p ∈ ps, PayOk p)
    (hcl : cs.length < 2 ^ 63) (hpl : ps.length < 2 ^ 63) :
    Payment.run H (fun n => keySigner (nonces n)) cs ps = .error .rsZeroError ∨
    ∃ w : WireTx, Payment.run H (fun n => keySigner (nonces n)) cs ps = .ok (hexText w.bytes) ∧
      (∀ k, Ref.LegacyOps w k ↔ k = ps.length) ∧
      (w.bytes.length < 100000 → ∀ hashes : List Bytes, Ref.FewOps w (hashes.map payScript)) := by
  obtain ⟨xs, os, hxs, hnew, ht, ho0, hol, hof, _, _, ho⟩ := build_serialisable H cs ps hc hco hp hpo hcl hpl
  have e : Payment.run H (fun n => keySigner (nonces n)) cs ps = Payment.transfer H (fun n => keySigner (nonces n)) cs os := by
    simp only [Payment.run, Payment.transfer, ht, hxs, hnew]
  rw [e]
  rcases C113_transfer H nonces hν cs os hc hco ho0 hof hcl hol with h | ⟨w, h1, h2, _, hin, _⟩
  · exact .inl h
  · have hps : List.Forall₂ Pays ps w.outputs := shows_pays ho hpo h2
    have hi : ∀ i ∈ w.inputs, ∀ k, Ref.SigOps false i.script k ↔ k = 0 := fun i him k => by
      obtain ⟨_, is, he, hpush⟩ := hin i him
      rw [sigOps_iff he, count_pushOnly _ _ hpush]
    have hout : ∀ o ∈ w.outputs, (∀ k, Ref.SigOps false o.script k ↔ k = 1) ∧ o.bytes.length = 34 := fun o hom => by
      obtain ⟨p, hpm, hpp⟩ := forall₂_mem_left hps.flip hom
      have hl := (hpo p hpm).2
      refine ⟨fun k => ?_, payOut_size o _ hl hpp.2⟩
      rw [hpp.2]
      unfold payScript
      rw [sigOps_iff (payToKey_encodes _ hl), count_payToKey]
    have hleg : ∀ k, Ref.LegacyOps w k ↔ k = ps.length := fun k => by
      rw [hps.length_eq]
      constructor
      · rintro ⟨ns, ms, f1, f2, rfl⟩
        rw [sum_of f1 hi, sum_of f2 fun o ho => (hout o ho).1]
        omega
      · rintro rfl
        refine ⟨_, _, made hi, made fun o ho => (hout o ho).1, ?_⟩
        simp
    refine .inr ⟨w, h1, hleg, fun hsz hashes => ⟨_, _, (hleg _).2 rfl, made (c := 0) fun ip hip k => ?_, ?_⟩⟩
    · have hno : ¬ Ref.PaysToScript ip.2 := by
        obtain ⟨hh, _, e⟩ := List.mem_map.1 (List.of_mem_zip hip).2
        rintro ⟨_, _, e'⟩
        rw [← e] at e'
        unfold payScript at e'
        simp at e'
      exact ⟨fun h => h.elim (fun h => absurd h.1 hno) (·.2), fun h => .inr ⟨fun h' => hno h'.1, h⟩⟩
    · have : 34 * w.outputs.length ≤ w.bytes.length := by
        have : (w.outputs.map WireOut.bytes).flatten.length = 34 * w.outputs.length := by
          have := fun o ho => (hout o ho).2
          clear hleg hout hps h2
          generalize w.outputs = l at this
          induction l with
          | nil => rfl
          | cons o l ih =>
            rw [List.map_cons, List.flatten_cons, List.length_append, ih fun o ho => this o (List.mem_cons_of_mem _ ho),
              this o List.mem_cons_self, List.length_cons]
            omega
        unfold WireTx.bytes
        simp only [List.length_append]
        omega
      have := hps.length_eq
      simp only [List.map_const', List.sum_replicate, smul_eq_mul, mul_zero]
      omega

/-- C138 is false of the code: a transaction that pays more than two hundred times with `MultisigOutput` is made, and not
relayed, as each counts as twenty keys. -/
theorem C138_bare_refuted (t : Transaction) (ho : ∀ o ∈ t.outputs, ∃ amount ks m, (∀ k ∈ ks, PublicKey.Valid k) ∧ m ≤ 16 ∧
      ks.length ≤ 16 ∧ MultisigOutput.create amount ks (m : Nat) = .ok o) (hl : 200 < t.outputs.length) (w : WireTx)
    (hw : t.Shows w) (pubs : List Bytes) : ¬ Ref.FewOps w pubs := by
  rintro ⟨n, ms, ⟨ns, ks, _, f2, rfl⟩, _, hle⟩
  have hout : ∀ o ∈ w.outputs, ∀ k, Ref.SigOps false o.script k ↔ k = 20 := fun o hom k => by
    obtain ⟨o', hom', hs⟩ := forall₂_mem_left hw.2.2.1.flip hom
    obtain ⟨amount, ks, m, h1, h2, h3, h4⟩ := ho o' hom'
    obtain ⟨o'', b, g1, g2, g3⟩ := (C138_outputs .real amount).2.2.2 ks m h1 h2 h3
    rw [h4] at g1
    cases g1
    have : b = o.script := by
      have := script_toBytes _ _ hs.2
      rw [g2] at this
      split at this
      · cases this
      · exact Except.ok.inj this
    rw [← this]
    exact g3 k
  rw [sum_of f2 hout] at hle
  have := hw.2.2.1.length_eq
  omega

/-! ## Instances -/

/-- The input of an address, and two of two, signed: the reference client relays both. -/
example : ∃ w i, pairSigned.Shows w ∧ w.inputs[0]? = some i ∧
    Ref.InputStandard .real i (118 :: 169 :: 20 :: (oneHash ++ [136, 172])) := by
  obtain ⟨w, h1, _⟩ := pair_spends
  obtain ⟨i, hi⟩ := C138_address .real _ nonce_one pairTx _ _ oneKey (both_good _ (by simp)) 0 1 _ 0 _
    ⟨oneHash, .livenet, .publicKey⟩ _ (by decide +kernel) one_create.1 one_create.2 pair_tx rfl pair_signs (.refl _) w h1
  exact ⟨w, i, h1, hi⟩

example (hash : Bytes) (hh : hash.length = 20) : ∃ u w i, bothTx.sign .real (keySigner fun _ => 1) [oneKey, twoKey] (0 : Nat) 1 = .ok u ∧
    u.Shows w ∧ w.inputs[0]? = some i ∧ Ref.InputStandard .real i (169 :: 20 :: (hash ++ [135])) ∧
    ∀ k, Ref.ScriptOps i (169 :: 20 :: (hash ++ [135])) k ↔ k = 2 := by
  obtain ⟨u, hu⟩ := ok_of_toBool (e := bothTx.sign .real (keySigner fun _ => 1) [oneKey, twoKey] (0 : Nat) 1) (by decide +kernel)
  obtain ⟨w, hw⟩ := signs_shows (H := .real) (t := bothTx) (.step (.refl _) (Int.natCast_nonneg 0) hu (C74_signer _ nonce_one)
    both_keys) both_tx
  obtain ⟨i, rb, hi, hrb, h⟩ := C138_multisig .real _ nonce_one bothTx u u [oneKey, twoKey] 0 1 _ 0 _ [onePub, twoPub] 2
    both_valid (by simp) (by omega) bothInput both_create.1 both_tx rfl hu (.refl _) w hw
  obtain ⟨i', hi', _, h'⟩ := C138_inputs .real _ nonce_one bothTx u u [oneKey, twoKey] 0 1 _ 0 _ [onePub, twoPub] 2
    both_valid (by simp) (by simp) (by omega) bothInput both_create.1 both_tx rfl hu (.refl _) w hw
  rw [hi] at hi'
  cases hi'
  refine ⟨u, w, i, hu, hw, hi, ((h hash hh).1 (by simp)).2 ⟨?_, rfl⟩, h' hash hh⟩
  have hb : (bothInput.script.toBytes.toOption.getD []).length ≤ 520 := by decide +kernel
  rw [hrb] at hb
  exact hb

/-- A payment. -/
example : ∃ w : WireTx, Payment.run .real (fun _ => keySigner fun _ => 1) payCoins payOuts = .ok (hexText w.bytes) ∧
    ∀ k, Ref.LegacyOps w k ↔ k = payOuts.length := by
  obtain ⟨w, h1, h2, _⟩ := pay_ok (C138_payment .real (fun _ _ => 1) (fun _ => nonce_one) payCoins payOuts (by simp [payCoins])
    pay_coins (by simp [payOuts]) pay_outs (by simp [payCoins]) (by simp [payOuts]))
  exact ⟨w, h1, h2⟩

/-- Two hundred and one outputs for one of two keys. -/
example : ∃ o, MultisigOutput.create 258 [onePub, twoPub] (1 : Nat) = .ok o ∧
    let t : Transaction := ⟨[], List.replicate 201 o, 0, 1⟩
    (∀ o ∈ t.outputs, ∃ amount ks m, (∀ k ∈ ks, PublicKey.Valid k) ∧ m ≤ 16 ∧ ks.length ≤ 16 ∧
      MultisigOutput.create amount ks (m : Nat) = .ok o) ∧ 200 < t.outputs.length := by
  obtain ⟨o, b, h, _⟩ := (C138_outputs .real 258).2.2.2 [onePub, twoPub] 1 both_valid (by omega) (by simp)
  exact ⟨o, h, fun o' ho' => ⟨258, _, 1, both_valid, by omega, by simp, (List.eq_of_mem_replicate ho') ▸ h⟩,
    by show 200 < (List.replicate 201 o).length; rw [List.length_replicate]; omega⟩

end Bitforge.Inputs
