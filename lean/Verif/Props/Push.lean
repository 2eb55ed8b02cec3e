import Verif.Spec.Push
import Verif.Proofs.Interp
import Verif.Props.Script

/-! # Properties C71, C72, C73: `is_push_only`, `is_minimal_push`, `push_data` -/

namespace Bitforge
open Spec

/-! ## C71 -/

theorem pushed_low : ∀ b : Byte, b.val ≤ 96 → b.val ≠ 80 → pushKind b ≠ .plain ∨ (pushed (b, none)).isSome = true := by
  decide +kernel

theorem pushed_high : ∀ b : Byte, 96 < b.val → pushKind b = .plain ∧ pushed (b, none) = none := by
  decide +kernel

/-- C71. Without OP_RESERVED, `is_push_only` is True exactly if all instructions push something.  Missing: OP_RESERVED,
which pushes nothing and is accepted, see `C71_refuted`. -/
theorem C71_partial (s : Script) (hw : s.WellFormed) (hr : ∀ i ∈ s.instructions, i.opcode.number.val ≠ 80) :
    s.isPushOnly = true ↔ ∀ i ∈ s.instructions, ∃ d, pushed i.wire = some d := by
  unfold Script.isPushOnly
  rw [List.all_eq_true]
  refine forall_congr' fun i => forall_congr' fun hi => ?_
  rw [decide_eq_true_eq]
  have hwi : Wf i.wire := hw i hi
  obtain ⟨⟨op⟩, d⟩ := i
  have h80 := hr _ hi
  simp only [Instruction.wire] at hwi h80 ⊢
  cases d with
  | some d =>
    simp only [Option.map_some, Wf] at hwi
    refine ⟨fun _ => ⟨d.val, rfl⟩, fun _ => ?_⟩
    by_contra hc
    rw [(pushed_high op (by omega)).1] at hwi
    exact hwi
  | none =>
    simp only [Option.map_none, Wf] at hwi
    constructor
    · intro h
      rcases pushed_low op h h80 with h | h
      · exact absurd hwi h
      · exact Option.isSome_iff_exists.1 h
    · rintro ⟨d, hd⟩
      by_contra hc
      simp only [Option.map_none] at hd
      rw [(pushed_high op (by omega)).2] at hd
      cases hd

/-- C71. Exactly: no opcode above OP_16. -/
theorem C71_exact (s : Script) : s.isPushOnly = true ↔ ∀ i ∈ s.instructions, i.opcode.number.val ≤ 96 := by
  unfold Script.isPushOnly
  simp [List.all_eq_true]

/-- C71 is false of the code for OP_RESERVED. -/
theorem C71_refuted : ∃ s : Script, s.WellFormed ∧ s.isPushOnly = true ∧ ∃ i ∈ s.instructions, pushed i.wire = none :=
  ⟨⟨.generic, [⟨.num 80, none⟩]⟩, by unfold Script.WellFormed; decide, by decide, _, List.mem_singleton.2 rfl, by decide⟩

/-- C71. With SCRIPT_VERIFY_SIGPUSHONLY (bit 5) a script_sig with any other opcode is refused, whatever the rest. -/
theorem C71_flag (H : Hashes) (b : Interpreter.State) (sig pub : Script) (flags : Nat) (hf : flags.testBit 5 = true)
    (h : ∃ i ∈ sig.instructions, 96 < i.opcode.number.val) :
    ∃ t, Interpreter.verify H b sig pub flags = (.ok false, t) ∧ t.errstr = some .sigPushonly := by
  have hp : ¬ sig.isPushOnly = true := by
    rw [C71_exact]
    rintro hall
    obtain ⟨i, hi, hlt⟩ := h
    exact absurd (hall i hi) (by omega)
  rw [Interpreter.verify_eq, if_pos ⟨hf, hp⟩]
  exact ⟨_, rfl, rfl⟩

example : (Interpreter.verify Hashes.toy {} ⟨.generic, [⟨.num 97, none⟩]⟩ ⟨.generic, [⟨.num 81, none⟩]⟩ 32).1 = .ok false ∧
    (Interpreter.verify Hashes.toy {} ⟨.generic, [⟨.num 97, none⟩]⟩ ⟨.generic, [⟨.num 81, none⟩]⟩ 0).1 = .ok true := by
  decide +kernel

/-! ## C72 -/

/-- Lower bound on the size of whatever pushes `d`. -/
theorem wireSize_ge (j : WireInstr) (d : Bytes) (hw : Wf j) (hj : pushed j = some d) (h : 1 < d.length) :
    d.length + (if d.length ≤ 75 then 1 else if d.length ≤ 255 then 2 else if d.length ≤ 65535 then 3 else 5) ≤ wireSize j := by
  obtain ⟨op, e⟩ := j
  cases e with
  | none =>
    exfalso
    simp only [pushed] at hj
    split at hj
    · injection hj with hj; subst hj; simp at h
    · split at hj
      · injection hj with hj; subst hj; simp at h
      · split at hj
        · injection hj with hj; subst hj; simp at h
        · cases hj
  | some e =>
    simp only [pushed, Option.some.injEq] at hj
    subst hj
    simp only [Wf, wireSize] at hw ⊢
    rcases pushKind_cases op with hk | hk | ⟨h1, hk⟩ | ⟨h1, hk⟩ | ⟨h1, hk⟩ <;> rw [hk] at hw ⊢ <;> simp only at hw ⊢
    · have := (pushKind_const op).2 hk
      simp only [Opcode.isConstPush, Bool.and_eq_true, decide_eq_true_eq] at this
      rw [if_pos (by omega)]
      omega
    all_goals split
    all_goals try split
    all_goals try split
    all_goals omega

theorem isWf_of_data {i : Instruction} {d : Data} (hw : Wf i.wire) (hd : i.data = some d) :
    Wf (i.opcode.number, some d.val) := by
  simpa [Instruction.wire, hd] using hw

/-- C72. Above 75 bytes `is_minimal_push` is exact.  Missing: see the refutations. -/
theorem C72_long_partial (i : Instruction) (hw : Wf i.wire) (d : Data) (hd : i.data = some d) (hl : 75 < d.val.length) :
    ∃ v, i.isMinimalPush = .ok v ∧ (v = true ↔ MinimalPush i.wire) := by
  obtain ⟨⟨op⟩, _⟩ := i
  simp only at hd
  subst hd
  obtain ⟨k, val⟩ := d
  simp only [Instruction.wire, Option.map_some] at hw hl ⊢
  have hge := fun j h1 h2 => wireSize_ge j val h1 h2 (by omega)
  have small : ∀ (o : Byte), Wf (o, some val) → MinimalPush (op, some val) → wireSize (op, some val) ≤ wireSize (o, some val) :=
    fun o ho hm => hm _ ho rfl
  have e : Instruction.isMinimalPush ⟨⟨op⟩, some ⟨k, val⟩⟩ =
      if val.length ≤ 255 then .ok (decide (op.val = 76)) else if val.length ≤ 65535 then .ok (decide (op.val = 77))
      else .ok true := by
    have hop : ∀ n : Fin 256, ((Opcode.mk op == Opcode.num n.val) = decide (op.val = n.val)) := by
      intro n
      by_cases h : op = n
      · subst h
        simp [Opcode.num]
      · have h' : ¬ op.val = n.val := fun h' => h (Fin.ext h')
        simp [Opcode.num, h, h']
    unfold Instruction.isMinimalPush
    cases val with
    | nil => simp at hl
    | cons b rest =>
      have hr : rest ≠ [] := by rintro rfl; simp at hl
      simp only [hr, false_and, if_false]
      rw [if_neg (by omega)]
      rw [show (Opcode.mk op == Opcode.num 76) = _ from hop 76, show (Opcode.mk op == Opcode.num 77) = _ from hop 77]
      rfl
  rw [e]
  have hsz : wireSize (op, some val) = val.length + (if op.val = 76 then 2 else if op.val = 77 then 3 else 5) ∧
      (op.val = 76 ∨ op.val = 77 ∨ op.val = 78) ∧ (op.val = 76 → val.length ≤ 255) ∧ (op.val = 77 → val.length ≤ 65535) := by
    simp only [Wf, wireSize] at hw ⊢
    rcases pushKind_cases op with hk | hk | ⟨h1, hk⟩ | ⟨h1, hk⟩ | ⟨h1, hk⟩ <;> rw [hk] at hw ⊢ <;> simp only at hw ⊢
    · have := (pushKind_const op).2 hk
      simp only [Opcode.isConstPush, Bool.and_eq_true, decide_eq_true_eq] at this
      omega
    · simp only [h1]; simp; omega
    · simp only [h1]; simp; omega
    · simp only [h1]; simp; omega
  have w76 : val.length ≤ 255 → wireSize (76, some val) = val.length + 2 ∧ Wf (76, some val) := by
    intro h
    have hk : pushKind 76 = .counted 1 := by decide
    simp only [wireSize, Wf, hk]; omega
  have w77 : val.length ≤ 65535 → wireSize (77, some val) = val.length + 3 ∧ Wf (77, some val) := by
    intro h
    have hk : pushKind 77 = .counted 2 := by decide
    simp only [wireSize, Wf, hk]; omega
  by_cases h1 : val.length ≤ 255
  · rw [if_pos h1]
    refine ⟨_, rfl, ?_⟩
    rw [decide_eq_true_eq]
    constructor
    · intro h j hj hp
      have := hge j hj hp
      rw [if_neg (by omega), if_pos h1] at this
      rw [hsz.1, if_pos h]
      exact this
    · intro h
      have := small 76 (w76 h1).2 h
      rw [(w76 h1).1, hsz.1] at this
      by_contra hc
      rw [if_neg hc] at this
      split at this <;> omega
  · rw [if_neg h1]
    by_cases h2 : val.length ≤ 65535
    · rw [if_pos h2]
      refine ⟨_, rfl, ?_⟩
      rw [decide_eq_true_eq]
      constructor
      · intro h j hj hp
        have := hge j hj hp
        rw [if_neg (by omega), if_neg h1, if_pos h2] at this
        rw [hsz.1, if_neg (by omega), if_pos h]
        exact this
      · intro h
        have := small 77 (w77 h2).2 h
        rw [(w77 h2).1, hsz.1] at this
        by_contra hc
        rw [if_neg (by omega), if_neg hc] at this
        omega
    · rw [if_neg h2]
      refine ⟨_, rfl, ?_⟩
      simp only [true_iff]
      intro j hj hp
      have := hge j hj hp
      rw [if_neg (by omega), if_neg h1, if_neg h2] at this
      rw [hsz.1, if_neg (by omega), if_neg (by omega)]
      exact this

example : Wf (Instruction.wire ⟨.num 77, some ⟨.str, List.replicate 300 7⟩⟩) ∧
    Instruction.isMinimalPush ⟨.num 77, some ⟨.str, List.replicate 300 7⟩⟩ = .ok true ∧
    Instruction.isMinimalPush ⟨.num 78, some ⟨.str, List.replicate 300 7⟩⟩ = .ok false := by decide +kernel

/-- C72. For an instruction that carries no data the answer is True, and right. -/
theorem C72_none (i : Instruction) (hw : Wf i.wire) (hd : i.data = none) :
    i.isMinimalPush = .ok true ∧ MinimalPush i.wire := by
  refine ⟨by unfold Instruction.isMinimalPush; rw [hd], ?_⟩
  intro j _ _
  have : wireSize i.wire = 1 := by simp [Instruction.wire, hd, wireSize]
  rw [this]
  obtain ⟨op, e⟩ := j
  cases e <;> simp only [wireSize]
  · exact le_refl _
  · split <;> omega

theorem number_pushes : ∀ b : Byte, (1 ≤ b.val ∧ b.val ≤ 16 ∨ b.val = 0x81) →
    ∃ o : Byte, pushKind o = .plain ∧ pushed (o, none) = some [b] := by decide +kernel

/-- C72. One byte, given as a `str`, that an opcode could have pushed: False, and rightly. -/
theorem C72_number (i : Instruction) (hw : Wf i.wire) (b : Byte) (hd : i.data = some ⟨.str, [b]⟩)
    (hb : 1 ≤ b.val ∧ b.val ≤ 16 ∨ b.val = 0x81) : i.isMinimalPush = .ok false ∧ ¬ MinimalPush i.wire := by
  obtain ⟨⟨op⟩, _⟩ := i
  simp only at hd
  subst hd
  simp only [Instruction.wire, Option.map_some] at hw ⊢
  have hop : op.val = 1 ∨ 76 ≤ op.val ∧ op.val ≤ 78 := by
    simp only [Wf] at hw
    rcases pushKind_cases op with hk | hk | ⟨h1, hk⟩ | ⟨h1, hk⟩ | ⟨h1, hk⟩ <;> rw [hk] at hw
    · exact hw.elim
    · simp at hw; omega
    all_goals rw [h1]; decide
  constructor
  · unfold Instruction.isMinimalPush
    simp only [Instruction.firstValue, true_and]
    rcases hb with hb | hb
    · rw [if_pos hb]
      congr 1
      rw [beq_eq_false_iff_ne]
      omega
    · rw [if_neg (by omega), if_pos hb]
      congr 1
      rw [beq_eq_false_iff_ne]
      intro h
      have := congrArg (fun o : Opcode => o.number.val) h
      simp [Opcode.num] at this
      omega
  · intro hm
    obtain ⟨o, ho, hp⟩ := number_pushes b hb
    have := hm (o, none) ho hp
    have h2 : 2 ≤ wireSize (op, some [b]) := by
      simp only [Wf, wireSize] at hw ⊢
      rcases pushKind_cases op with hk | hk | ⟨h1, hk⟩ | ⟨h1, hk⟩ | ⟨h1, hk⟩ <;> rw [hk] at hw ⊢ <;> simp at hw ⊢
    simp only [wireSize] at this h2
    omega

/-- C72 is false of the code: one to 75 bytes, other than those, raise AttributeError, also where the push is the
smallest. -/
theorem C72_short_refuted (i : Instruction) (d : Data) (hd : i.data = some d) (hl : 1 ≤ d.val.length)
    (hl' : d.val.length ≤ 75) (hn : d.kind = .bytearray ∨ ∀ b, d.val = [b] → ¬ (1 ≤ b.val ∧ b.val ≤ 16 ∨ b.val = 0x81)) :
    i.isMinimalPush = .error .attributeError := by
  unfold Instruction.isMinimalPush
  rw [hd]
  obtain ⟨k, val⟩ := d
  cases val with
  | nil => simp at hl
  | cons b rest =>
    simp only [Instruction.firstValue] at hn hl' ⊢
    have key : ¬ (rest = [] ∧ 1 ≤ Instruction.firstValue ⟨k, b :: rest⟩ b ∧ Instruction.firstValue ⟨k, b :: rest⟩ b ≤ 16) ∧
        ¬ (rest = [] ∧ Instruction.firstValue ⟨k, b :: rest⟩ b = 0x81) := by
      rcases hn with rfl | hn
      · simp [Instruction.firstValue]
      · cases k with
        | bytearray => simp [Instruction.firstValue]
        | str =>
          simp only [Instruction.firstValue]
          constructor
          · rintro ⟨rfl, h⟩
            exact hn b rfl (.inl h)
          · rintro ⟨rfl, h⟩
            exact hn b rfl (.inr h)
    simp only [Instruction.firstValue] at key
    rw [if_neg key.1, if_neg key.2, if_pos hl']

/-- C72 is false of the code: an empty push with PUSHDATA is called minimal although OP_0 is smaller. -/
theorem C72_empty_refuted : ∃ i : Instruction, Wf i.wire ∧ i.isMinimalPush = .ok true ∧ ¬ MinimalPush i.wire := by
  refine ⟨⟨.num 76, some ⟨.str, []⟩⟩, by decide, by decide, fun h => ?_⟩
  have := h (0, none) (by decide) (by decide)
  exact absurd this (by decide)

/-! ## C73 -/

/-- C73. Data that cannot be pushed is refused with the error of `Opcode.push_for`; all other data gives AttributeError.
Missing: that they do what they say, see `C73_refuted`. -/
theorem C73_errors_partial (s : Script) (d : Data) :
    (1 ≤ d.val.length ∧ d.val.length < 2 ^ 32 → s.pushData d = .error .attributeError ∧
      s.removeOpcodeByData d = .error .attributeError) ∧
    (d.val.length = 0 → s.pushData d = .error .opInvalidConstPushLength ∧
      s.removeOpcodeByData d = .error .opInvalidConstPushLength) ∧
    (2 ^ 32 ≤ d.val.length → s.pushData d = .error .opInvalidPushLength ∧
      s.removeOpcodeByData d = .error .opInvalidPushLength) := by
  unfold Script.pushData Script.removeOpcodeByData
  refine ⟨fun h => ?_, fun h => ?_, fun h => ?_⟩
  · obtain ⟨o, _, e⟩ := C27_push_for d h.1 h.2
    rw [e]
    exact ⟨rfl, rfl⟩
  · have e : Instruction.pushFor d = .error .opInvalidConstPushLength := by
      unfold Instruction.pushFor
      rw [(C26_rejects _).1 (by omega)]
    rw [e]
    exact ⟨rfl, rfl⟩
  · have e : Instruction.pushFor d = .error .opInvalidPushLength := by
      unfold Instruction.pushFor
      rw [(C26_rejects _).2 (by omega)]
    rw [e]
    exact ⟨rfl, rfl⟩

example : (Script.mk .generic []).pushData ⟨.str, [1, 2]⟩ = .error .attributeError := by decide +kernel

/-- C73 is false of the code: `push_data` and `remove_opcode_by_data` never return. -/
theorem C73_refuted (s : Script) (d : Data) : (∃ e, s.pushData d = .error e) ∧ ∃ e, s.removeOpcodeByData d = .error e := by
  unfold Script.pushData Script.removeOpcodeByData
  split <;> exact ⟨⟨_, rfl⟩, ⟨_, rfl⟩⟩

end Bitforge
