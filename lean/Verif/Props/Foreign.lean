import Verif.Props.Inputs
import Verif.Props.TxParse

/-! # C139: reading the transactions that the reference client relays -/

namespace Bitforge.Foreign
open Spec Transaction Interpreter Relay Inputs

/-- The script can be read: complete instructions, which do not crash the classifier. -/
def ScriptOk (b : Bytes) : Prop := Complete b ∧ ¬ CrashesOn b

theorem ok_of {ws : List WireInstr} {b : Bytes} (h : Encodes ws b) (hc : ¬ Crashes (shape ws)) : ScriptOk b :=
  ⟨⟨ws, h⟩, fun h' => hc ((crashesOn_iff h).1 h')⟩

theorem ok_short {ws : List WireInstr} {b : Bytes} (h : Encodes ws b) (hl : ws.length ≤ 3) : ScriptOk b :=
  ok_of h fun hc => by
    have := hc.1
    unfold shape at this
    rw [List.length_map] at this
    omega

/-- C139. Every output script that the reference client relays can be read. -/
theorem C139_outputs {b : Bytes} {f : Ref.Form} (h : Ref.IsForm b f) : ScriptOk b := by
  cases h with
  | scriptHash h => obtain ⟨d, hd, rfl⟩ := h; exact ok_short (scriptHash_encodes d hd) (by simp)
  | pubkey h => exact ok_short h (by simp)
  | @pubkeyHash _ _ i h hi _ =>
    refine ok_of h fun hc => ?_
    obtain ⟨_, _, h | ⟨⟨m, h, h'⟩, _⟩⟩ := hc
    · exact absurd h (by simp [shape, show pushKind 118 = .plain by decide])
    · simp only [shape, show pushKind 118 = .plain by decide, List.map_cons, if_true, List.head?_cons, Option.some.injEq] at h
      subst h
      exact absurd h' (by decide)
  | @multisig _ ops ks opM opN m h hp hk hM hN h1 h2 =>
    refine ok_of h fun hc => ?_
    have hpl : ∀ op : Byte, ∀ n, Ref.smallNumber op = some n → pushKind op = .plain := by
      have : ∀ op : Byte, (Ref.smallNumber op).isSome → pushKind op = .plain := by decide +kernel
      exact fun op n h => this op (by rw [h]; rfl)
    have e : shape ((opM, none) :: (ops ++ [(opN, none), (174, none)])) =
        some opM :: (shape ops ++ [some opN, some 174]) := by
      unfold shape
      simp only [List.map_cons, List.map_append, List.map_nil, hpl opM m hM, hpl opN _ hN, show pushKind 174 = .plain by decide,
        if_true]
    rw [e] at hc
    obtain ⟨_, _, h | ⟨_, h⟩⟩ := hc
    · simp at h
    · rw [← List.cons_append, List.getElem?_append_right (by simp)] at h
      simp at h
  | nullData h => exact ok_short h (by simp)
  | nullEmpty => exact ok_short (.cons (i := (106, none)) (bs := []) (by decide) rfl .nil) (by simp)

/-! ## Inputs -/

theorem exec_small {H : Hashes} {C : Ref.Checker} {op : Nat} {after : List WireInstr} {s s' : Ref.St} (h1 : 78 < op)
    (h2 : op ≤ 96) (h : Ref.exec H C 0 op true after s = some s') :
    s'.stack.length = 1 + s.stack.length ∧ s'.cond = s.cond := by
  by_cases h79 : op = 79
  · subst h79
    unfold Ref.exec at h
    rw [if_pos rfl] at h
    cases h
    exact ⟨Nat.add_comm _ _, rfl⟩
  by_cases h81 : 81 ≤ op
  · unfold Ref.exec at h
    rw [if_neg h79, if_pos ⟨h81, h2⟩] at h
    cases h
    exact ⟨Nat.add_comm _ _, rfl⟩
  · obtain rfl : op = 80 := by omega
    exact absurd h (by simp [Ref.exec, Ref.rearrange])

/-- Scripts that only push leave one element for each instruction. -/
theorem run_length {H : Hashes} {C : Ref.Checker} : ∀ (is : List WireInstr) (s s' : Ref.St), Ref.PushOnly is → s.cond = [] →
    Ref.run H C 0 is s = some s' → s'.stack.length = is.length + s.stack.length
  | [], s, s', _, _, h => by cases h; simp
  | i :: is, s, s', hp, hc, h => by
    have hi := hp i List.mem_cons_self
    unfold Ref.run at h
    cases ha : Ref.act H C 0 i is s with
    | none => rw [ha] at h; cases h
    | some s1 =>
      rw [ha] at h
      simp only at h
      split at h
      · cases h
      · have h1 : s1.stack.length = 1 + s.stack.length ∧ s1.cond = s.cond := by
          have hd : Ref.disabled i.1.val = false := by
            unfold Ref.disabled
            rw [decide_eq_false_iff_not]
            omega
          unfold Ref.act at ha
          simp only [hd, if_neg (show ¬ i.1.val > 96 by omega)] at ha
          split at ha
          · cases ha
          rw [if_neg (by omega), if_neg (by decide)] at ha
          by_cases h78 : i.1.val ≤ 78
          · rw [if_pos ⟨by rw [hc]; rfl, h78⟩, if_neg (by simp)] at ha
            cases ha
            exact ⟨Nat.add_comm _ _, rfl⟩
          · have hf : s.cond.all id = true := by rw [hc]; rfl
            rw [if_neg (fun h => h78 h.2), if_pos (.inl hf), hf] at ha
            exact exec_small (by omega) hi ha
        have := run_length is s1 s' (fun j hj => hp j (List.mem_cons_of_mem _ hj)) (by rw [h1.2, hc]) h
        simp only [List.length_cons]
        omega

/-- C139. The input scripts of relayed transactions can be read if they spend payments to a key or its hash, or to one or two of
several keys. -/
theorem C139_inputs (H : Hashes) (i : WireIn) (pub : Bytes) (h : Ref.InputOk i) (hs : Ref.InputStandard H i pub)
    (hf : ∃ f n, Ref.IsForm pub f ∧ f.args = some n ∧ f ≠ .scriptHash ∧ n ≤ 3) : ScriptOk i.script := by
  obtain ⟨f, n, is, st, h1, h2, h3, h4, h5, -⟩ := hs
  obtain ⟨f', n', g1, g2, g3, g4⟩ := hf
  obtain rfl := isForm_unique h1 g1
  rw [h2] at g2
  cases g2
  obtain ⟨_, is', he, hp⟩ := h
  obtain rfl := encodes_injective h3 he
  refine ok_short h3 ?_
  have hl := h5 g3
  unfold Ref.eval at h4
  split at h4
  · cases h4
  · split at h4
    · cases h4
    · next s' hr =>
      split at h4
      · cases h4
        have := run_length is _ s' hp rfl hr
        simp only [List.length_nil] at this
        omega
      · cases h4

/-- C139. Those that spend the hash of a script can be read if they push nothing first, and then data. -/
theorem C139_pushes {l : List WireInstr} {b : Bytes} (h : Encodes ((0, none) :: l) b) (hl : ∀ i ∈ l, i.2 ≠ none) :
    ScriptOk b := by
  refine ok_of h fun hc => ?_
  obtain ⟨h4, hm, _⟩ := hc
  have hs : shape ((0, none) :: l) = some 0 :: List.replicate l.length none := by
    have hwf := encodes_wf h
    unfold shape
    rw [List.map_cons]
    congr 1
    rw [← List.map_const']
    refine List.map_congr_left fun i hi => if_neg fun hk => ?_
    obtain ⟨op, d⟩ := i
    have := hwf (op, d) (List.mem_cons_of_mem _ hi)
    cases d with
    | none => exact hl _ hi rfl
    | some d => simp only at hk; simp only [Wf, hk] at this
  rw [hs] at h4 hm
  simp only [List.length_cons, List.length_replicate] at h4
  exact hm ⟨l.length, by omega, rfl⟩

/-- C139, part that holds: a transaction that the reference client relays is read if its inputs spend payments to keys, or
push nothing first and then data, as those that spend the hash of a script of several keys do. Missing: see the refutation. -/
theorem C139_read_partial (H : Hashes) (rate : Nat) (w : WireTx) (hfit : w.Fits) (hc : Ref.Checks w) (hs : Ref.Standard rate w)
    (hi : ∀ i ∈ w.inputs,
      (∃ pub f n, Ref.InputStandard H i pub ∧ Ref.IsForm pub f ∧ f.args = some n ∧ f ≠ .scriptHash ∧ n ≤ 3) ∨
      ∃ l, Encodes ((0, none) :: l) i.script ∧ ∀ j ∈ l, j.2 ≠ none)
    (rest : Bytes) : ∃ t, Transaction.fromBytes (w.bytes ++ rest) = .ok t ∧ t.Shows w ∧
      Transaction.fromHex (hexText (w.bytes ++ rest)) = .ok t ∧ (¬ t.HasPushData → t.toBytes = .ok w.bytes) := by
  have hr : Readable w := by
    refine ⟨hfit, hc.inputs, hc.outputs, fun i him => ?_, fun o hom => ?_⟩
    · obtain ⟨pub, f, n, h1, h2⟩ | ⟨l, h1, h2⟩ := hi i him
      · exact C139_inputs H i pub (hs.inputs i him) h1 ⟨f, n, h2⟩
      · exact C139_pushes h1 h2
    · obtain ⟨f, hf, _⟩ := hs.outputs o hom
      exact C139_outputs hf
  obtain ⟨t, _, h1, h2, _, h3⟩ := C36_reads w hr w.bytes rest (wireTx_form w hfit)
  exact ⟨t, h1, h2, by rw [(C34_hex _ .generic).1, h1], h3⟩

/-! ## What cannot be read -/

/-- A script that drops three elements and leaves one. -/
def redeem : Bytes := [109, 117, 81]
/-- What is pushed to spend it. -/
def pushed : List Bytes := [[7, 7], [7, 7], [7, 7], redeem]
def spending : Bytes := [2, 7, 7, 2, 7, 7, 2, 7, 7, 3, 109, 117, 81]
def carrying (s : Bytes) : WireTx :=
  ⟨1, [⟨List.replicate 32 170, 0, s, 0xFFFFFFFF⟩], [⟨10000, payScript (List.replicate 20 9)⟩], 0⟩
def foreign : WireTx := carrying spending

theorem carrying_ok (is : List WireInstr) (s : Bytes) (he : Encodes is s) (hp : Ref.PushOnly is) (hl : s.length ≤ 1650)
    (hb : (carrying s).bytes.length < 100000) : (carrying s).Fits ∧ Ref.Checks (carrying s) ∧ Ref.Standard 1000 (carrying s) := by
  have hin : ∀ i ∈ (carrying s).inputs, i = ⟨List.replicate 32 170, 0, s, 0xFFFFFFFF⟩ := fun i hi => List.mem_singleton.1 hi
  have hout : ∀ o ∈ (carrying s).outputs, o = ⟨10000, payScript (List.replicate 20 9)⟩ := fun o ho => List.mem_singleton.1 ho
  have hnull : ∀ i ∈ (carrying s).inputs, ¬ Ref.Null i := fun i hi h => by
    rw [hin i hi] at h
    exact absurd (show (0 : Nat) = 2 ^ 32 - 1 from h.2) (by decide)
  refine ⟨⟨show 1 < 2 ^ 32 by decide, show 0 < 2 ^ 32 by decide, fun i hi => ?_, fun o ho => ?_, show 1 < 2 ^ 63 by decide,
    show 1 < 2 ^ 63 by decide⟩, ⟨by simp [carrying], by simp [carrying], by omega, ?_, show 10000 + 0 ≤ Ref.maxMoney by decide,
      by simp [carrying], ?_, fun _ => hnull⟩, ⟨rfl, hb, ?_, ?_, ?_⟩⟩
  · rw [hin i hi]
    exact ⟨List.length_replicate, show 0 < 2 ^ 32 by decide, by show s.length < 2 ^ 64; omega, show 0xFFFFFFFF < 2 ^ 32 by decide⟩
  · rw [hout o ho]; exact ⟨by decide, by decide⟩
  · intro o ho
    rw [hout o ho]
    decide
  · intro i hi hn
    exact absurd hn (hnull i (by rw [hi]; simp))
  · intro i hi
    rw [hin i hi]
    exact ⟨hl, _, he, hp⟩
  · intro o ho
    rw [hout o ho]
    exact (payOut_ok 1000 _ (List.replicate 20 9) (by decide) rfl).2 (by decide)
  · exact (List.length_filter_le _ _).trans (show 1 ≤ 1 by decide)

theorem redeem_encodes : Encodes [(109, none), (117, none), (81, none)] redeem :=
  .cons (b := [109]) (by decide) rfl (.cons (b := [117]) (by decide) rfl (.cons (b := [81]) (by decide) rfl .nil))

theorem spending_encodes : Encodes (pushed.map pushOf) spending :=
  .cons (b := [2, 7, 7]) (by decide) rfl (.cons (b := [2, 7, 7]) (by decide) rfl (.cons (b := [2, 7, 7]) (by decide) rfl
    (.cons (b := [3, 109, 117, 81]) (by decide) rfl .nil)))

theorem pushed_only : Ref.PushOnly (pushed.map pushOf) := by unfold Ref.PushOnly; decide

theorem eval_redeem (H : Hashes) (C : Ref.Checker) (flags : Nat) :
    Ref.eval H C flags [(109, none), (117, none), (81, none)] [[7, 7], [7, 7], [7, 7]] = some [[1]] := by
  unfold Ref.eval
  rw [if_neg (by decide)]
  rw [Ref.run_op (s' := ⟨[[7, 7]], [], [], 1, [(109, none), (117, none), (81, none)]⟩) (by decide) (by decide) rfl (by decide)
    (by simp [Ref.exec, Ref.rearrange]) (by decide)]
  rw [Ref.run_op (s' := ⟨[], [], [], 2, [(109, none), (117, none), (81, none)]⟩) (by decide) (by decide) rfl (by decide)
    (by simp [Ref.exec, Ref.rearrange]) (by decide)]
  rfl

/-- C139 is false of the code: this transaction passes the checks of the reference client, is relayed, and is accepted, with
whatever flags, as spending the hash of the script; reading it raises AttributeError, since it pushes four times. -/
theorem C139_read_refuted (H : Hashes) : let pub : Bytes := 169 :: 20 :: (H.ripemd160 (H.sha256 redeem) ++ [135])
    foreign.Fits ∧ Ref.Checks foreign ∧ Ref.Standard 1000 foreign ∧
    (∀ i ∈ foreign.inputs, Ref.InputStandard H i pub) ∧ Ref.FewOps foreign [pub] ∧
    (∀ flags : Nat, (flags.testBit 8 → flags.testBit 0) → Ref.Spends H flags foreign 0 pub) ∧
    ∀ rest, Transaction.fromBytes (foreign.bytes ++ rest) = .error .attributeError := by
  intro pub
  have hl : (H.ripemd160 (H.sha256 redeem)).length = 20 := H.ripemd160_length _
  have hin : ∀ i ∈ foreign.inputs, i = ⟨List.replicate 32 170, 0, spending, 0xFFFFFFFF⟩ := fun i hi => List.mem_singleton.1 hi
  have hout : ∀ o ∈ foreign.outputs, o = ⟨10000, payScript (List.replicate 20 9)⟩ := fun o ho => List.mem_singleton.1 ho
  obtain ⟨hfit, hchk, hstd⟩ : foreign.Fits ∧ Ref.Checks foreign ∧ Ref.Standard 1000 foreign :=
    carrying_ok _ _ spending_encodes pushed_only (by decide) (by decide)
  have hform : ∀ g, ¬ Ref.IsForm redeem g := fun g hg => by
    have hw := isForm_wires hg redeem_encodes
    cases g with
    | scriptHash => obtain ⟨_, _, e⟩ := hw; cases e
    | pubkey => obtain ⟨_, _, e, _⟩ := hw; cases e
    | pubkeyHash => obtain ⟨_, _, e, _⟩ := hw; cases e
    | multisig m n => obtain ⟨_, _, _, e, _⟩ := hw; have := last_multisig e; simp at this
    | nullData => obtain e | ⟨_, e⟩ := hw <;> cases e
  have hrun : ∀ C flags, Ref.eval H C flags (pushed.map pushOf) [] = some (redeem :: [[7, 7], [7, 7], [7, 7]]) := by
    intro C flags
    unfold Ref.eval
    rw [if_neg (by decide)]
    have e := Ref.run_pushes H C flags [] pushed { stack := [], code := pushed.map pushOf } (by decide) rfl (by decide)
    rw [List.append_nil] at e
    rw [e]
    rfl
  refine ⟨hfit, hchk, hstd, ?_, ?_, ?_, ?_⟩
  · intro i hi
    rw [hin i hi]
    refine ⟨.scriptHash, 1, _, _, (form_scriptHash _ hl _).2 rfl, rfl, spending_encodes, hrun _ 0, fun h => absurd rfl h,
      fun _ => ⟨redeem, _, rfl, .inr ⟨hform, 0, (sigOps_iff redeem_encodes 0).2 (by decide), by decide⟩⟩⟩
  · refine ⟨1, [0], ⟨[0], [1], .cons ((sigOps_iff spending_encodes 0).2 (by decide)) .nil, .cons ?_ .nil, by decide⟩, ?_, by decide⟩
    · exact (sigOps_iff (payToKey_encodes (List.replicate 20 9) (by decide)) 1).2 (by rw [count_payToKey])
    · refine .cons (.inl ⟨⟨_, hl, rfl⟩, _, spending_encodes, pushed_only, ?_⟩) .nil
      exact (sigOps_iff redeem_encodes 0).2 (by decide)
  · intro flags h8
    refine ⟨_, rfl, _, _, _, _, spending_encodes, payToScript_encodes _ hl, fun _ => pushed_only, hrun _ flags,
      Ref.eval_payToScript H _ flags redeem _ (by decide), ⟨[1], _, rfl, by decide⟩, ?_⟩
    by_cases h0 : flags.testBit 0
    · rw [if_pos ⟨h0, _, hl, rfl⟩]
      exact ⟨pushed_only, redeem, _, _, _, rfl, redeem_encodes, eval_redeem H _ flags, ⟨[1], [], rfl, by decide⟩, fun _ => rfl⟩
    · rw [if_neg fun h => h0 h.1]
      exact fun h => absurd (h8 h) h0
  · intro rest
    refine C36_trips foreign hfit (by decide) (by decide) (fun i hi => ?_) (fun o ho => ?_) (.inl ⟨_, List.mem_singleton.2 rfl, ?_⟩) _ rest
      (wireTx_form foreign hfit)
    · rw [hin i hi]; exact ⟨_, spending_encodes⟩
    · rw [hout o ho]; exact ⟨_, payToKey_encodes (List.replicate 20 9) (by decide)⟩
    · refine (crashesOn_iff spending_encodes).2 ⟨by decide, ?_, .inl (by decide)⟩
      rintro ⟨k, _, e⟩
      have : shape (pushed.map pushOf) = [none, none, none, none] := by decide
      rw [this] at e
      cases e

/-- A transaction that spends a payment to the hash of a key, to which the part that holds applies. -/
example : ∃ t, Transaction.fromBytes (carrying [2, 7, 7, 2, 7, 7]).bytes = .ok t ∧ t.Shows (carrying [2, 7, 7, 2, 7, 7]) := by
  have he : Encodes ([[7, 7], [7, 7]].map pushOf) [2, 7, 7, 2, 7, 7] :=
    .cons (b := [2, 7, 7]) (by decide) rfl (.cons (b := [2, 7, 7]) (by decide) rfl .nil)
  obtain ⟨h1, h2, h3⟩ := carrying_ok _ _ he (by unfold Ref.PushOnly; decide) (by decide) (by decide)
  obtain ⟨t, h4, h5, _⟩ := C139_read_partial .real 1000 _ h1 h2 h3 (fun i hi => by
    rw [List.mem_singleton.1 hi]
    have hf := (form_payScript (List.replicate 20 1) (by decide) .pubkeyHash).2 rfl
    exact .inl ⟨_, .pubkeyHash, 2, ⟨.pubkeyHash, 2, _, _, hf, rfl, he,
      (eval_pushes_iff _ _ _ _).2 ⟨by decide, by decide, by decide, rfl⟩, fun _ => rfl, fun h => (nomatch h)⟩, hf, rfl, by decide,
      by decide⟩) []
  exact ⟨t, by rw [List.append_nil] at h4; exact h4, h5⟩

/-- An input of three signatures and a script. -/
example : ScriptOk [0, 2, 7, 7, 2, 7, 8, 2, 7, 9, 3, 109, 117, 81] :=
  C139_pushes (l := [(2, some [7, 7]), (2, some [7, 8]), (2, some [7, 9]), (3, some [109, 117, 81])])
    (.cons (b := [0]) (by decide) rfl (.cons (b := [2, 7, 7]) (by decide) rfl (.cons (b := [2, 7, 8]) (by decide) rfl
      (.cons (b := [2, 7, 9]) (by decide) rfl (.cons (b := [3, 109, 117, 81]) (by decide) rfl .nil))))) (by decide)

end Bitforge.Foreign
