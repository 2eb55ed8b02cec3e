import Verif.Spec.Consensus
import Verif.Proofs.Script

/-! # Evaluating the standard scripts with the reference client -/

namespace Bitforge.Spec.Ref

theorem pushOf_op (b : Bytes) (h : 1 ≤ b.length) : (pushOf b).2 = some b ∧ 1 ≤ (pushOf b).1.val ∧ (pushOf b).1.val ≤ 78 ∧
    (b.length ≤ 75 → (pushOf b).1.val = b.length) ∧ (75 < b.length → b.length ≤ 255 → (pushOf b).1.val = 76) ∧
    (255 < b.length → b.length ≤ 65535 → (pushOf b).1.val = 77) ∧ (65535 < b.length → (pushOf b).1.val = 78) := by
  unfold pushOf
  rw [if_neg (by omega)]
  have e : ∀ n : Nat, n ≤ 78 → ((Fin.ofNat 256 n : Byte)).val = n := fun n hn => by
    simp only [Fin.val_ofNat]; omega
  refine ⟨rfl, ?_⟩
  simp only []
  split
  · rw [e _ (by omega)]; omega
  · split
    · rw [e _ (by omega)]; omega
    · split <;> rw [e _ (by omega)] <;> omega

theorem pushOf_wf (b : Bytes) (h : b.length < 2 ^ 32) : Wf (pushOf b) := by
  by_cases h0 : b.length = 0
  · unfold pushOf; rw [if_pos h0]; decide
  · obtain ⟨h2, h3, h4, a, b', c, d⟩ := pushOf_op b (by omega)
    have e : pushOf b = ((pushOf b).1, some b) := Prod.ext rfl h2
    rw [e]
    generalize (pushOf b).1 = op at *
    unfold Wf pushKind
    simp only []
    by_cases k1 : b.length ≤ 75
    · have := a k1
      rw [if_neg (by omega), if_pos (by omega)]; simp only []; omega
    · by_cases k2 : b.length ≤ 255
      · have := b' (by omega) k2
        rw [if_neg (by omega), if_neg (by omega), if_pos (by omega)]; simp only []; omega
      · by_cases k3 : b.length ≤ 65535
        · have := c (by omega) k3
          rw [if_neg (by omega), if_neg (by omega), if_neg (by omega), if_pos (by omega)]; simp only []; omega
        · have := d (by omega)
          rw [if_neg (by omega), if_neg (by omega), if_neg (by omega), if_neg (by omega), if_pos (by omega)]
          simp only []; omega

theorem pushOf_size (b : Bytes) : wireSize (pushOf b) ≤ 5 + b.length := by
  by_cases h0 : b.length = 0
  · unfold pushOf; rw [if_pos h0]; simp only [wireSize]; omega
  · obtain ⟨h2, h3, h4, -⟩ := pushOf_op b (by omega)
    have e : pushOf b = ((pushOf b).1, some b) := Prod.ext rfl h2
    rw [e]
    generalize (pushOf b).1 = op at *
    have hk : ∀ op : Byte, ∀ w, pushKind op = .counted w → w ≤ 4 := by
      intro op w q
      unfold pushKind at q
      split at q
      · cases q
      · split at q
        · cases q
        · split at q
          · cases q; omega
          · split at q
            · cases q; omega
            · split at q
              · cases q; omega
              · cases q
    unfold wireSize
    simp only []
    split
    · omega
    · omega
    · next w q => have := hk _ _ q; omega

/-- Pushing an element of 2 to 520 bytes. -/
theorem act_pushOf (H : Hashes) (C : Checker) (flags : Nat) (b : Bytes) (after : List WireInstr) (s : St)
    (h : 2 ≤ b.length) (h' : b.length ≤ 520) (hc : s.cond = []) :
    act H C flags (pushOf b) after s = some { s with stack := b :: s.stack } := by
  obtain ⟨h2, h3, h4, p1, p2, p3, p4⟩ := pushOf_op b (by omega)
  have hm : minimalPush (pushOf b).1.val b = true := by
    obtain ⟨x, y, r, rfl⟩ : ∃ x y r, b = x :: y :: r := by
      match b, h with
      | x :: y :: r, _ => exact ⟨x, y, r, rfl⟩
    unfold minimalPush
    simp only [List.cons_ne_nil, false_and, if_false, reduceCtorEq]
    split
    · next k => rw [p1 k]; simp
    · next k =>
      split
      · next k2 => rw [p2 (by omega) k2]; rfl
      · next k2 =>
        split
        · next k3 => rw [p3 (by omega) k3]; rfl
        · rfl
  have hd : disabled (pushOf b).1.val = false := by unfold disabled; simp only [decide_eq_false_iff_not]; omega
  unfold act
  have hns : ¬ (pushOf b).1.val > 96 := by omega
  simp only [h2, Option.getD_some, if_neg hns]
  rw [if_neg (by omega), if_neg (by omega), hd, if_neg (by decide)]
  rw [if_pos ⟨by rw [hc]; rfl, h4⟩, if_neg (by rw [hm]; simp)]

theorem run_pushes (H : Hashes) (C : Checker) (flags : Nat) (rest : List WireInstr) : ∀ (bs : List Bytes) (s : St),
    (∀ b ∈ bs, 2 ≤ b.length ∧ b.length ≤ 520) → s.cond = [] → bs.length + s.stack.length + s.alt.length ≤ 1000 →
    run H C flags (bs.map pushOf ++ rest) s = run H C flags rest { s with stack := bs.reverse ++ s.stack }
  | [], s, _, _, _ => rfl
  | b :: bs, s, h, hc, hl => by
    obtain ⟨h1, h2⟩ := h b (by simp)
    rw [List.map_cons, List.cons_append, run, act_pushOf H C flags b _ s h1 h2 hc]
    simp only [List.length_cons] at hl ⊢
    rw [if_neg (by omega)]
    have := run_pushes H C flags rest bs { s with stack := b :: s.stack } (fun x hx => h x (by simp [hx])) hc
      (by simp only [List.length_cons]; omega)
    rw [this]
    simp

theorem act_op (H : Hashes) (C : Checker) (flags : Nat) (op : Byte) (after : List WireInstr) (s : St)
    (h : 96 < op.val) (hd : disabled op.val = false) (hc : s.cond = []) (ho : s.ops ≤ 200) :
    act H C flags (op, none) after s = exec H C flags op.val true after { s with ops := s.ops + 1 } := by
  unfold act
  have h' : op.val > 96 := h
  simp only [Option.getD_none, if_pos h', List.length_nil, hd, hc, List.all_nil]
  rw [if_neg (by omega), if_neg (by omega), if_neg (by decide), if_neg (by omega), if_pos (by simp)]

/-- An opcode that is executed, in a run. -/
theorem run_op {H : Hashes} {C : Checker} {flags : Nat} {op : Byte} {after : List WireInstr} {s s' : St}
    (h : 96 < op.val) (hd : disabled op.val = false) (hc : s.cond = []) (ho : s.ops ≤ 200)
    (he : exec H C flags op.val true after { s with ops := s.ops + 1 } = some s')
    (hl : s'.stack.length + s'.alt.length ≤ 1000) :
    run H C flags ((op, none) :: after) s = run H C flags after s' := by
  rw [run, act_op H C flags op after s h hd hc ho, he]
  exact if_neg (by omega)

theorem run_push (H : Hashes) (C : Checker) (flags : Nat) (b : Bytes) (after : List WireInstr) (s : St)
    (h : 2 ≤ b.length) (h' : b.length ≤ 520) (hc : s.cond = []) (hl : s.stack.length + s.alt.length ≤ 999) :
    run H C flags (pushOf b :: after) s = run H C flags after { s with stack := b :: s.stack } := by
  rw [run, act_pushOf H C flags b after s h h' hc]
  exact if_neg (by simp only [List.length_cons]; omega)

theorem op_size (op : Byte) : wireSize (op, none) = 1 := rfl

/-- The script of a payment to a hash of a public key. -/
def payToKey (h : Bytes) : List WireInstr := [(118, none), (169, none), pushOf h, (136, none), (172, none)]

theorem eval_payToKey (H : Hashes) (C : Checker) (flags : Nat) (sig key : Bytes) :
    eval H C flags (payToKey (H.ripemd160 (H.sha256 key))) [key, sig] =
      (C.sig (payToKey (H.ripemd160 (H.sha256 key))) [sig] sig key).map fun ok => [flagBytes ok] := by
  have hl : (H.ripemd160 (H.sha256 key)).length = 20 := H.ripemd160_length _
  generalize he : H.ripemd160 (H.sha256 key) = h at *
  have hz : ¬ size (payToKey h) > 10000 := by
    have := pushOf_size h
    simp only [size, payToKey, List.map_cons, List.map_nil, List.sum_cons, List.sum_nil, op_size]
    omega
  unfold eval
  rw [if_neg hz]
  have e : ∀ code, run H C flags (payToKey h) { stack := [key, sig], code := code } =
      (C.sig code [sig] sig key).map fun ok => { stack := [flagBytes ok], code := code, ops := 4 } := by
    intro code
    unfold payToKey
    rw [run_op (s' := { stack := [key, key, sig], code := code, ops := 1 }) (by decide) (by decide) rfl
        (by simp only []; omega) rfl (by simp only [List.length_cons, List.length_nil]; omega),
      run_op (s' := { stack := [h, key, sig], code := code, ops := 2 }) (by decide) (by decide) rfl
        (by simp only []; omega) (he ▸ rfl) (by simp only [List.length_cons, List.length_nil]; omega),
      run_push _ _ _ _ _ _ (by omega) (by omega) rfl (by simp only [List.length_cons, List.length_nil]; omega),
      run_op (s' := { stack := [key, sig], code := code, ops := 3 }) (by decide) (by decide) rfl
        (by simp only []; omega) (by simp [exec, result]) (by simp only [List.length_cons, List.length_nil]; omega),
      run, act_op _ _ _ _ _ _ (by decide) (by decide) rfl (by simp only []; omega)]
    have he : exec H C flags (172 : Byte).val true [] { stack := [key, sig], ops := 3 + 1, code := code } =
        (C.sig code [sig] sig key).map fun ok => { stack := [flagBytes ok], code := code, ops := 4 } := by
      simp only [exec, show (172 : Byte).val = 172 from rfl]
      norm_num
      cases C.sig code [sig] sig key with
      | none => rfl
      | some ok => simp [result]
    rw [he]
    cases C.sig code [sig] sig key with
    | none => rfl
    | some ok => rfl
  rw [e _]
  cases C.sig (payToKey h) [sig] sig key with
  | none => rfl
  | some ok => rfl

/-- The script of a payment to a hash of a script. -/
def payToScript (h : Bytes) : List WireInstr := [(169, none), pushOf h, (135, none)]

theorem eval_payToScript (H : Hashes) (C : Checker) (flags : Nat) (redeem : Bytes) (rest : List Bytes)
    (hr : rest.length ≤ 990) :
    eval H C flags (payToScript (H.ripemd160 (H.sha256 redeem))) (redeem :: rest) = some ([1] :: rest) := by
  have hl : (H.ripemd160 (H.sha256 redeem)).length = 20 := H.ripemd160_length _
  generalize he : H.ripemd160 (H.sha256 redeem) = h at *
  have hz : ¬ size (payToScript h) > 10000 := by
    have := pushOf_size h
    simp only [size, payToScript, List.map_cons, List.map_nil, List.sum_cons, List.sum_nil, op_size]
    omega
  unfold eval
  rw [if_neg hz]
  have e : ∀ code, run H C flags (payToScript h) { stack := redeem :: rest, code := code } =
      some { stack := [1] :: rest, code := code, ops := 2 } := by
    intro code
    unfold payToScript
    rw [run_op (s' := { stack := h :: rest, code := code, ops := 1 }) (by decide) (by decide) rfl
        (by simp only []; omega) (he ▸ rfl) (by simp only [List.length_cons, List.length_nil]; omega),
      run_push _ _ _ _ _ _ (by omega) (by omega) rfl (by simp only [List.length_cons, List.length_nil]; omega),
      run_op (s' := { stack := [1] :: rest, code := code, ops := 2 }) (by decide) (by decide) rfl
        (by simp only []; omega) (by simp [exec, result, flagBytes]) (by simp only [List.length_cons, List.length_nil]; omega)]
    rfl
  rw [e _]
  rfl

/-- OP_0 to OP_16. -/
def smallOp (n : Nat) : Byte := if n = 0 then 0 else Fin.ofNat 256 (80 + n)

theorem smallOp_val (n : Nat) (h : n ≤ 16) : (smallOp n).val = if n = 0 then 0 else 80 + n := by
  unfold smallOp
  split
  · rfl
  · simp only [Fin.val_ofNat]; omega

theorem run_small (H : Hashes) (C : Checker) (flags : Nat) (n : Nat) (hn : n ≤ 16) (after : List WireInstr) (s : St)
    (hc : s.cond = []) (hl : s.stack.length + s.alt.length ≤ 999) :
    run H C flags ((smallOp n, none) :: after) s = run H C flags after { s with stack := serialize n :: s.stack } := by
  have e : act H C flags (smallOp n, none) after s = some { s with stack := serialize n :: s.stack } := by
    have hv := smallOp_val n hn
    unfold act
    simp only [Option.getD_none, List.length_nil, hc, List.all_nil]
    have h96 : ¬ (smallOp n).val > 96 := by rw [hv]; split <;> omega
    have hd : disabled (smallOp n).val = false := by
      unfold disabled; simp only [decide_eq_false_iff_not]; rw [hv]; split <;> omega
    simp only [if_neg h96]
    rw [if_neg (by omega), if_neg (by omega), hd, if_neg (by decide)]
    by_cases h0 : n = 0
    · subst h0
      rw [if_pos ⟨trivial, by decide⟩, if_neg (by simp [minimalPush, smallOp])]
      simp [serialize]
      exact hc
    · rw [if_neg h0] at hv
      rw [if_neg (by omega), if_pos (by simp), hv]
      unfold exec
      rw [if_neg (by omega), if_pos (by omega)]
      congr 2
      push_cast
      congr 1
      congr 1
      omega
  rw [run, e]
  exact if_neg (by simp only [List.length_cons]; omega)

/-- The redeem script of a multisig payment. -/
def redeemScript (m : Nat) (keys : List Bytes) : List WireInstr :=
  (smallOp m, none) :: (keys.map pushOf ++ [(smallOp keys.length, none), (174, none)])

theorem number_serialize_small (b : Bool) (n : Nat) (h : n ≤ 16) : number b (serialize n) = some (n : Int) := by
  have : ∀ (b : Bool) (n : Fin 17), number b (serialize n.val) = some (n.val : Int) := by decide +kernel
  exact this b ⟨n, by omega⟩

/-- The bare multisig script on as many elements as it needs, one more and any rest. -/
theorem eval_multisig (H : Hashes) (C : Checker) (flags : Nat) (sigs keys : List Bytes) (d : Bytes) (rest : List Bytes)
    (hk : ∀ k ∈ keys, 2 ≤ k.length ∧ k.length ≤ 65) (hn : keys.length ≤ 16) (hm : sigs.length ≤ keys.length)
    (hr : rest.length ≤ 100) :
    eval H C flags (redeemScript sigs.length keys) (sigs ++ d :: rest) =
      (multisig (C.sig (redeemScript sigs.length keys) sigs) sigs keys.reverse).bind fun ok =>
        if flags.testBit 4 ∧ d ≠ [] then none else some (flagBytes ok :: rest) := by
  have hz : ¬ size (redeemScript sigs.length keys) > 10000 := by
    have : ∀ l : List Bytes, (∀ k ∈ l, 2 ≤ k.length ∧ k.length ≤ 65) → ((l.map pushOf).map wireSize).sum ≤ 70 * l.length := by
      intro l
      induction l with
      | nil => intro _; simp
      | cons a l ih =>
        intro h
        have h1 := ih fun k hk => h k (by simp [hk])
        have h2 := pushOf_size a
        have h3 := h a (by simp)
        simp only [List.map_cons, List.sum_cons, List.length_cons]
        omega
    have := this keys hk
    simp only [size, redeemScript, List.map_cons, List.map_append, List.map_nil, List.sum_cons, List.sum_append, List.sum_nil, op_size]
    omega
  unfold eval
  rw [if_neg hz]
  have e : ∀ code, run H C flags (redeemScript sigs.length keys) { stack := sigs ++ d :: rest, code := code } =
      (multisig (C.sig code sigs) sigs keys.reverse).bind fun ok =>
        if flags.testBit 4 ∧ d ≠ [] then none
        else some { stack := flagBytes ok :: rest, code := code, ops := 1 + keys.length } := by
    intro code
    unfold redeemScript
    rw [run_small _ _ _ _ (by omega) _ _ rfl (by simp; omega),
      run_pushes _ _ _ _ _ _ (fun b hb => ⟨(hk b hb).1, by have := (hk b hb).2; omega⟩) rfl (by simp; omega),
      run_small _ _ _ _ (by omega) _ _ rfl (by simp; omega), run, act_op _ _ _ _ _ _ (by decide) (by decide) rfl
        (by simp only []; omega)]
    have he : exec H C flags (174 : Byte).val true []
        { stack := serialize ↑keys.length :: (keys.reverse ++ serialize ↑sigs.length :: (sigs ++ d :: rest)),
          ops := 0 + 1, code := code } = (multisig (C.sig code sigs) sigs keys.reverse).bind fun ok =>
        if flags.testBit 4 ∧ d ≠ [] then none
        else some { stack := flagBytes ok :: rest, code := code, ops := 1 + keys.length } := by
      have n1 := number_serialize_small (flags.testBit 6) keys.length hn
      have n2 := number_serialize_small (flags.testBit 6) sigs.length (by omega)
      have d1 : List.drop sigs.length (sigs ++ d :: rest) = d :: rest := by
        rw [List.drop_left' rfl]
      have d2 : List.take sigs.length (sigs ++ d :: rest) = sigs := by
        rw [List.take_left' rfl]
      have d3 : ∀ l : List Bytes, List.drop keys.length (keys.reverse ++ l) = l := fun l => by
        rw [List.drop_left' (by simp)]
      have d4 : ∀ l : List Bytes, List.take keys.length (keys.reverse ++ l) = keys.reverse := fun l => by
        rw [List.take_left' (by simp)]
      simp only [exec, show (174 : Byte).val = 174 from rfl, n1]
      norm_num [d3, d4]
      rw [if_neg (by omega), if_neg (by omega)]
      simp only [n2, Int.toNat_natCast, d1, d2]
      rw [if_neg (by omega)]
      cases multisig (C.sig code sigs) sigs keys.reverse with
      | none => rfl
      | some ok => simp [result]
    simp only [List.nil_append] at he ⊢
    rw [he]
    cases multisig (C.sig code sigs) sigs keys.reverse with
    | none => rfl
    | some ok =>
      simp only [Option.bind_some]
      by_cases hd : flags.testBit 4 = true ∧ d ≠ []
      · rw [if_pos hd]
      · rw [if_neg hd]
        simp only [run]
        rw [if_neg (by simp; omega)]
  rw [e _]
  cases multisig (C.sig (redeemScript sigs.length keys) sigs) sigs keys.reverse with
  | none => rfl
  | some ok =>
    simp only [Option.bind_some]
    by_cases hd : flags.testBit 4 = true ∧ d ≠ []
    · rw [if_pos hd, if_pos hd]
    · rw [if_neg hd, if_neg hd]
      rfl

theorem eval_redeem (H : Hashes) (C : Checker) (flags : Nat) (sigs keys : List Bytes)
    (hk : ∀ k ∈ keys, 2 ≤ k.length ∧ k.length ≤ 65) (hn : keys.length ≤ 16) (hm : sigs.length ≤ keys.length) :
    eval H C flags (redeemScript sigs.length keys) (sigs.reverse ++ [[]]) =
      (multisig (C.sig (redeemScript sigs.length keys) sigs.reverse) sigs.reverse keys.reverse).map fun ok => [flagBytes ok] := by
  have := eval_multisig H C flags sigs.reverse keys [] [] hk hn (by simpa using hm) (by simp)
  rw [List.length_reverse] at this
  rw [this]
  cases multisig (C.sig (redeemScript sigs.length keys) sigs.reverse) sigs.reverse keys.reverse <;> simp

end Bitforge.Spec.Ref
