import Verif.Proofs.InterpFlow

/-! # C45–C48, C52–C54: script evaluation -/

namespace Bitforge
namespace Interpreter
open Spec

/-- A script pushes with OP_PUSHDATA1, 2 or 4. -/
def PushesLong (s : Script) : Prop := ∃ i ∈ s.instructions, 76 ≤ opOf i ∧ opOf i ≤ 78

/-- What it takes for `verify` to return True. -/
theorem verify_runs {H : Hashes} {b u : State} {sig pub : Script} {flags : Nat}
    (h : verify H b sig pub flags = (.ok true, u)) : ∃ bs bp t tr tr', sig.toBytes = .ok bs ∧ bs.length ≤ 10000 ∧
      pub.toBytes = .ok bp ∧ bp.length ≤ 10000 ∧
      Runs H (start sig [] flags) tr t ∧ tr.map Prod.snd = sig.instructions ∧
      Runs H (start pub t.stack flags) tr' u ∧ tr'.map Prod.snd = pub.instructions ∧
      t.stack.length + t.altstack.length ≤ 1000 ∧ u.stack.length + u.altstack.length ≤ 1000 ∧
      t.vfExec = [] ∧ u.vfExec = [] := by
  obtain ⟨_, _, t, h1, h2, _⟩ := verify_true.1 h
  obtain ⟨⟨bs, a1, a2⟩, a3, a4, a5⟩ := evaluate_ok.1 h1
  obtain ⟨⟨bp, b1, b2⟩, b3, b4, b5⟩ := evaluate_ok.1 h2
  obtain ⟨tr, r1, n1⟩ := loop_runs a3 t rfl
  obtain ⟨tr', r2, n2⟩ := loop_runs b3 u rfl
  have full : ∀ {s t : State} {tr : List (State × Instruction)}, Runs H s tr t → ¬ t.pc < t.script.length → s.pc = 0 →
      tr.map Prod.snd = s.script := by
    intro s t tr r n h0
    obtain ⟨f1, _, _, f4, f5, _⟩ := runs_facts r
    rw [f5, h0, List.drop_zero, List.take_of_length_le]
    rw [f1, f4, h0] at n
    omega
  exact ⟨bs, bp, t, tr, tr', a1, a2, b1, b2, r1, full r1 n1 rfl, r2, full r2 n2 rfl, a4, b4, a5, b5⟩

theorem evaluate_runs {H : Hashes} {s t : State} (h : evaluate H s = (.ok true, t)) : ∃ tr, Runs H s tr t ∧
    tr.map Prod.snd = s.script.drop s.pc ∧ t.vfExec = [] := by
  obtain ⟨_, h1, _, h2⟩ := evaluate_ok.1 h
  obtain ⟨tr, r1, n1⟩ := loop_runs h1 t rfl
  obtain ⟨f1, _, _, f4, f5, _⟩ := runs_facts r1
  refine ⟨tr, r1, ?_, h2⟩
  rw [f5, List.take_of_length_le]
  rw [f1, f4] at n1
  rw [List.length_drop]
  omega

/-! ## C45 -/

/-- C45. From every state the loop of `evaluate` ends, in exactly one way. -/
theorem C45_terminates (H : Hashes) (s : State) : ∃! r, Loop H s r :=
  ⟨_, loop_spec H _ s rfl, fun _ h => loop_det h (loop_spec H _ s rfl)⟩

/-- C45. `evaluate` is the loop: True if it ends without failure, with at most 1000 elements and no open conditional. -/
theorem C45_evaluate (H : Hashes) (s t : State) : evaluate H s = (.ok true, t) ↔
    (∃ b, Script.bytesOf s.script = .ok b ∧ b.length ≤ 10000) ∧ Loop H s (.next t) ∧
      t.stack.length + t.altstack.length ≤ 1000 ∧ t.vfExec = [] := evaluate_ok

theorem evaluate_error {H : Hashes} {s t : State} {e : Err} (h : evaluate H s = (.error e, t)) :
    Script.bytesOf s.script = .error e := by
  unfold evaluate at h
  cases hb : Script.bytesOf s.script with
  | error e' => simp only [hb] at h; cases h; rfl
  | ok b =>
    simp only [hb] at h
    split at h
    · cases h
    · split at h
      · cases h
      · cases h
      · split at h
        · cases h
        · split at h <;> cases h

/-- C45. The only exceptions: TypeError, from a script with a PUSHDATA opcode; AttributeError, with SCRIPT_VERIFY_P2SH. -/
theorem C45_raises {H : Hashes} {b t : State} {sig pub : Script} {flags : Nat} {e : Err} (h1 : sig.WellFormed)
    (h2 : pub.WellFormed) (h : verify H b sig pub flags = (.error e, t)) :
    (e = .typeError ∧ (PushesLong sig ∨ PushesLong pub)) ∨ (e = .attributeError ∧ flags.testBit 0 = true) := by
  have long : ∀ {s : Script} {st : List Data} {t : State} {e : Err}, s.WellFormed →
      evaluate H (start s st flags) = (.error e, t) → e = .typeError ∧ PushesLong s := by
    intro s st t e hw he
    have he := evaluate_error he
    rcases bytesOf_spec s.instructions hw with ⟨⟨w, hw1, hw2⟩, h⟩ | ⟨_, b, hb, _⟩
    · have : Script.bytesOf s.instructions = .error e := he
      rw [h] at this
      cases this
      obtain ⟨i, hi, rfl⟩ := List.mem_map.1 hw1
      exact ⟨rfl, i, hi, hw2⟩
    · have : Script.bytesOf s.instructions = .error e := he
      rw [hb] at this
      cases this
  rw [verify_eq] at h
  split at h
  · cases h
  · split at h
    · next he => cases h; exact .inl ⟨(long h1 he).1, .inl (long h1 he).2⟩
    · cases h
    · split at h
      · next he => cases h; exact .inl ⟨(long h2 he).1, .inr (long h2 he).2⟩
      · cases h
      · next he =>
        split at h
        · cases h
        · split at h
          · cases h
          · split at h
            · next hf =>
              cases h
              refine .inr ⟨rfl, ?_⟩
              obtain ⟨tr, hr, _⟩ := evaluate_runs he
              unfold flag at hf
              rw [(runs_facts hr).2.1] at hf
              exact hf
            · cases h

/-- C45, part that holds: without SCRIPT_VERIFY_P2SH, on well-formed scripts without PUSHDATA opcodes, `verify` returns
True or False.  Missing: the flag and those opcodes (see the refutations). -/
theorem C45_outcome_partial (H : Hashes) (b : State) (sig pub : Script) (flags : Nat) (h1 : sig.WellFormed)
    (h2 : pub.WellFormed) (n1 : ¬ PushesLong sig) (n2 : ¬ PushesLong pub) (hf : flags.testBit 0 = false) :
    ∃ v, (verify H b sig pub flags).1 = .ok v := by
  rcases hv : verify H b sig pub flags with ⟨r, t⟩
  cases r with
  | ok v => exact ⟨v, rfl⟩
  | error e =>
    rcases C45_raises h1 h2 hv with ⟨_, h | h⟩ | ⟨_, h⟩
    · exact absurd h n1
    · exact absurd h n2
    · rw [hf] at h; cases h

/-- C45 is false of the code: whatever script_sig has a PUSHDATA opcode, `verify` raises TypeError. -/
theorem C45_pushdata_refuted (H : Hashes) (b : State) (sig pub : Script) (flags : Nat) (h1 : sig.WellFormed)
    (hl : PushesLong sig) (hp : flags.testBit 5 = true → sig.isPushOnly = true) :
    (verify H b sig pub flags).1 = .error .typeError := by
  have he : evaluate H (start sig [] flags) = (.error .typeError, start sig [] flags) := by
    have : Script.bytesOf sig.instructions = .error .typeError := C28_pushdata_refuted sig h1 hl
    unfold evaluate
    show (match Script.bytesOf sig.instructions with | .error e => _ | .ok b => _) = _
    rw [this]
  rw [verify_eq, if_neg (fun hh => hh.2 (hp hh.1)), he]

/-- C45 is false of the code: with SCRIPT_VERIFY_P2SH, whatever would otherwise be accepted raises AttributeError. -/
theorem C45_p2sh_refuted (H : Hashes) (b t u : State) (sig pub : Script) (flags : Nat) (x : Data) (r : List Data)
    (hf : flags.testBit 0 = true) (hp : flags.testBit 5 = true → sig.isPushOnly = true)
    (h1 : evaluate H (start sig [] flags) = (.ok true, t)) (h2 : evaluate H (start pub t.stack flags) = (.ok true, u))
    (hs : u.stack = x :: r) (hx : castToBool x.val = true) : verify H b sig pub flags = (.error .attributeError, u) := by
  obtain ⟨tr, hr, _⟩ := evaluate_runs h2
  have hfl : flag u P2SH = true := by
    unfold flag
    rw [(runs_facts hr).2.1]
    exact hf
  rw [verify_eq, if_neg (fun hh => hh.2 (hp hh.1)), h1]
  simp only [h2, hs, hx, hfl, not_true_eq_false, if_false, if_true]

/-- OP_1 against the empty script: accepted without flags. -/
def one : Script := ⟨.generic, [⟨.num 81, none⟩]⟩

example : (verify Hashes.toy {} one ⟨.generic, []⟩).1 = .ok true := by decide +kernel
example : (verify Hashes.toy {} one ⟨.generic, []⟩ 1).1 = .error .attributeError := by decide +kernel
example : (verify Hashes.toy {} ⟨.generic, [⟨.num 76, some ⟨.str, [1, 2]⟩⟩]⟩ one).1 = .error .typeError := by decide +kernel
example : one.WellFormed ∧ ¬ PushesLong one := by
  constructor
  · unfold Script.WellFormed; decide
  · unfold PushesLong; decide

/-! ## C46 -/

/-- C46. The limits on an accepted pair of scripts. -/
theorem C46_limits {H : Hashes} {b u : State} {sig pub : Script} {flags : Nat}
    (h : verify H b sig pub flags = (.ok true, u)) : ∃ bs bp t tr tr', sig.toBytes = .ok bs ∧ bs.length ≤ 10000 ∧
      pub.toBytes = .ok bp ∧ bp.length ≤ 10000 ∧
      (∀ i ∈ sig.instructions ++ pub.instructions, dataLen i ≤ 520) ∧
      Runs H (start sig [] flags) tr t ∧ tr.map Prod.snd = sig.instructions ∧
      Runs H (start pub t.stack flags) tr' u ∧ tr'.map Prod.snd = pub.instructions ∧
      (tr.map fun p => cost p.1 p.2).sum ≤ 201 ∧ (tr'.map fun p => cost p.1 p.2).sum ≤ 201 ∧
      t.stack.length + t.altstack.length ≤ 1000 ∧ u.stack.length + u.altstack.length ≤ 1000 := by
  obtain ⟨bs, bp, t, tr, tr', a1, a2, a3, a4, r1, m1, r2, m2, l1, l2, _⟩ := verify_runs h
  have f1 := runs_facts r1
  have f2 := runs_facts r2
  refine ⟨bs, bp, t, tr, tr', a1, a2, a3, a4, ?_, r1, m1, r2, m2, ?_, ?_, l1, l2⟩
  · intro i hi
    rcases List.mem_append.1 hi with hi | hi
    · rw [← m1] at hi
      obtain ⟨p, hp, rfl⟩ := List.mem_map.1 hi
      obtain ⟨v, st, _⟩ := f1.2.2.2.2.2.2.2 p hp
      exact st.size
    · rw [← m2] at hi
      obtain ⟨p, hp, rfl⟩ := List.mem_map.1 hi
      obtain ⟨v, st, _⟩ := f2.2.2.2.2.2.2.2 p hp
      exact st.size
  · have := f1.2.2.2.2.2.2.1 (by show (0 : Int) ≤ 201; decide)
    have e := f1.2.2.2.2.2.1
    have z : (start sig [] flags).nopCount = 0 := rfl
    rw [z] at e
    omega
  · have := f2.2.2.2.2.2.2.1 (by show (0 : Int) ≤ 201; decide)
    have e := f2.2.2.2.2.2.1
    have z : (start pub t.stack flags).nopCount = 0 := rfl
    rw [z] at e
    omega

/-- C46. Every non-push instruction of an accepted script counts, executed or not. -/
theorem C46_operations {H : Hashes} {b u : State} {sig pub : Script} {flags : Nat}
    (h : verify H b sig pub flags = (.ok true, u)) :
    (sig.instructions.filter fun i => 96 < opOf i).length ≤ 201 ∧ (pub.instructions.filter fun i => 96 < opOf i).length ≤ 201 := by
  obtain ⟨_, _, t, tr, tr', _, _, _, _, _, r1, m1, r2, m2, l1, l2, _⟩ := C46_limits h
  have key : ∀ {s t : State} {tr : List (State × Instruction)}, Runs H s tr t →
      (((tr.map Prod.snd).filter fun i => 96 < opOf i).length : Int) ≤ (tr.map fun p => cost p.1 p.2).sum := by
    intro s t tr hr
    induction hr with
    | nil => simp
    | @cons s t u i tr hi hs hr ih =>
      rw [List.map_cons, List.map_cons, List.sum_cons, List.filter_cons]
      obtain ⟨i', st⟩ := step_next hs
      have : i' = i := by have := st.fetched; rw [hi] at this; cases this; rfl
      subst this
      have hk : opOf i' > 96 → 1 ≤ cost s i' := by
        intro ho
        unfold cost
        rw [if_neg (by omega)]
        split
        · next hm =>
          have hx := st.run hm.1 (by omega)
          have hfl : flag s MINIMALDATA = flag (enter s i') MINIMALDATA := (flag_congr (enter_eq s i').2.2.1 _).symm
          have hke : keysOf (enter s i') = keysOf s := by
            unfold keysOf; rw [(enter_eq s i').2.2.2.2.2.1, ← hfl]
          have : 0 ≤ keysOf (enter s i') := by
            rcases hm.2 with ho | ho
            · have hx : checkMultisig (enter s i') (flag (enter s i') MINIMALDATA) false = .next t := by
                rw [ho] at hx; exact hx
              exact (checkMultisig_next hx).2.2.2.2.2.1
            · have hx : checkMultisig (enter s i') (flag (enter s i') MINIMALDATA) true = .next t := by
                rw [ho] at hx; exact hx
              exact (checkMultisig_next hx).2.2.2.2.2.1
          omega
        · omega
      have h0 : ¬ opOf i' > 96 → cost s i' = 0 := fun ho => by unfold cost; rw [if_pos (by omega)]
      by_cases ho : 96 < opOf i'
      · rw [if_pos (by simpa using ho), List.length_cons]
        have := hk ho
        push_cast
        omega
      · rw [if_neg (by simpa using ho), h0 ho]
        omega
  have k1 := key r1
  have k2 := key r2
  rw [m1] at k1
  rw [m2] at k2
  omega

/-- C46. A script of more than 10000 bytes is rejected, and the reason is recorded. -/
theorem C46_script_size (H : Hashes) (s : State) (b : Bytes) (hb : Script.bytesOf s.script = .ok b) (hl : 10000 < b.length) :
    evaluate H s = (.ok false, { s with errstr := some .scriptSize }) := by
  unfold evaluate
  rw [hb]
  simp only [gt_iff_lt, hl, if_true]

/-- C46. A push of more than 520 bytes is rejected, executed or not. -/
theorem C46_push_size (H : Hashes) (s : State) (i : Instruction) (hi : s.script[s.pc]? = some i) (hl : 520 < dataLen i) :
    step H s = .stop { s with pc := s.pc + 1, errstr := some .pushSize } := by
  rw [step_eq, hi]
  simp only [gt_iff_lt, hl, if_true]
  rfl

/-- C46. The operation number 202 is rejected, executed or not. -/
theorem C46_op_count (H : Hashes) (s : State) (i : Instruction) (hi : s.script[s.pc]? = some i) (hl : dataLen i ≤ 520)
    (ho : 96 < opOf i) (hn : 201 ≤ s.nopCount) :
    step H s = .stop { s with pc := s.pc + 1, nopCount := s.nopCount + 1, errstr := some .opCount } := by
  rw [step_eq, hi]
  simp only []
  rw [if_neg (by omega), if_pos ⟨ho, by omega⟩, enter, if_pos (by omega)]
  rfl

example : (verify Hashes.toy {} one ⟨.generic, List.replicate 201 ⟨.num 97, none⟩⟩).1 = .ok true := by decide +kernel
example : (verify Hashes.toy {} one ⟨.generic, List.replicate 202 ⟨.num 97, none⟩⟩).1 = .ok false := by decide +kernel

/-! ## C47 -/

/-- C47. A script with a disabled opcode still ahead, executed or not, does not evaluate to True. -/
theorem C47_disabled (H : Hashes) (s : State) (h : ∃ i ∈ s.script.drop s.pc, IsDisabled (opOf i)) :
    (evaluate H s).1 ≠ .ok true := by
  intro he
  obtain ⟨i, hi, hd⟩ := h
  obtain ⟨tr, hr, hm, _⟩ := evaluate_runs (t := (evaluate H s).2) (by rw [← he])
  rw [← hm] at hi
  obtain ⟨p, hp, rfl⟩ := List.mem_map.1 hi
  obtain ⟨v, st, _⟩ := (runs_facts hr).2.2.2.2.2.2.2 p hp
  exact st.enabled ((disabled_iff _).2 hd)

/-- C47. Neither script of an accepted pair contains a disabled opcode. -/
theorem C47_verify {H : Hashes} {b u : State} {sig pub : Script} {flags : Nat}
    (h : verify H b sig pub flags = (.ok true, u)) : ∀ i ∈ sig.instructions ++ pub.instructions, ¬ IsDisabled (opOf i) := by
  obtain ⟨_, _, t, h1, h2, _⟩ := verify_true.1 h
  intro i hi hd
  rcases List.mem_append.1 hi with hi | hi
  · exact C47_disabled H (start sig [] flags) ⟨i, hi, hd⟩ (by rw [h1])
  · exact C47_disabled H (start pub t.stack flags) ⟨i, hi, hd⟩ (by rw [h2])

/-- C47. A disabled opcode, executed or not, stops the evaluation with its own error. -/
theorem C47_errstr (H : Hashes) (s : State) (i : Instruction) (hi : s.script[s.pc]? = some i) (hl : dataLen i ≤ 520)
    (hn : s.nopCount < 201) (hd : IsDisabled (opOf i)) :
    step H s = .stop { s with pc := s.pc + 1, nopCount := s.nopCount + 1, errstr := some .disabledOpcode } := by
  rw [step_eq, hi]
  simp only []
  have ho : opOf i > 96 := by unfold IsDisabled at hd; omega
  rw [if_neg (by omega), if_neg (by omega)]
  unfold dispatch
  extract_lets op _ _
  rw [if_pos ((disabled_iff _).2 hd), enter, if_pos ho]
  rfl

/-- C47. No run executes OP_RETURN, a reserved or an undefined opcode. -/
theorem C47_executed {H : Hashes} {s t : State} {tr : List (State × Instruction)} (h : Runs H s tr t)
    (p : State × Instruction) (hp : p ∈ tr) (hx : Executing p.1) : ¬ Forbidden (opOf p.2) := by
  intro hf
  obtain ⟨v, st, _⟩ := (runs_facts h).2.2.2.2.2.2.2 p hp
  have hr := st.run hx (by unfold Forbidden at hf; omega)
  obtain ⟨e, he⟩ := exec_forbidden (H := H) (s := enter p.1 p.2) hf true p.2.opcode.number.isLt
  rw [he] at hr
  exact fail_ne hr

/-- C47. OP_VERIF and OP_VERNOTIF make a script fail even in a branch not taken. -/
theorem C47_verif (H : Hashes) (s : State) (h : ∃ i ∈ s.script.drop s.pc, opOf i = 101 ∨ opOf i = 102) :
    (evaluate H s).1 ≠ .ok true := by
  intro he
  obtain ⟨i, hi, hd⟩ := h
  obtain ⟨tr, hr, hm, _⟩ := evaluate_runs (t := (evaluate H s).2) (by rw [← he])
  rw [← hm] at hi
  obtain ⟨p, hp, rfl⟩ := List.mem_map.1 hi
  by_cases hx : Executing p.1
  · exact C47_executed hr p hp hx (by unfold Forbidden; omega)
  · obtain ⟨v, st, _⟩ := (runs_facts hr).2.2.2.2.2.2.2 p hp
    obtain ⟨_, _, n1, n2⟩ := st.skipped hx
    omega

/-- C47. A script that starts with OP_RETURN (as OpReturnOut does) is never accepted. -/
theorem C47_return (H : Hashes) (s : State) (i : Instruction) (is : List Instruction) (hs : s.script.drop s.pc = i :: is)
    (hi : opOf i = 106) (hv : s.vfExec = []) : (evaluate H s).1 ≠ .ok true := by
  intro he
  obtain ⟨tr, hr, hm, _⟩ := evaluate_runs (t := (evaluate H s).2) (by rw [← he])
  rw [hs] at hm
  generalize (evaluate H s).2 = fin at hr
  cases hr with
  | nil => cases hm
  | @cons _ t _ j tr' h1 h2 h3 =>
    have hij : j = i := by rw [List.map_cons] at hm; exact (List.cons.inj hm).1
    subst hij
    exact C47_executed (.cons h1 h2 h3) (s, j) List.mem_cons_self (by unfold Executing; rw [hv]; simp)
      (.inl hi)

example : IsDisabled 126 ∧ IsDisabled 153 ∧ ¬ IsDisabled 130 ∧ Forbidden 106 ∧ Forbidden 80 ∧ ¬ Forbidden 118 := by decide
/-- OP_1 OP_0 OP_IF OP_CAT OP_ENDIF: the disabled opcode is not executed. -/
example : (verify Hashes.toy {} one ⟨.generic,
    [⟨.num 0, none⟩, ⟨.num 99, none⟩, ⟨.num 126, none⟩, ⟨.num 104, none⟩]⟩).1 = .ok false := by decide +kernel
/-- OP_1 OP_0 OP_IF OP_RETURN OP_ENDIF: OP_RETURN is not executed. -/
example : (verify Hashes.toy {} one ⟨.generic,
    [⟨.num 0, none⟩, ⟨.num 99, none⟩, ⟨.num 106, none⟩, ⟨.num 104, none⟩]⟩).1 = .ok true := by decide +kernel

/-! ## C48 -/

/-- C48. A script that evaluates to True has balanced conditionals. -/
theorem C48_balanced {H : Hashes} {s t : State} (h : evaluate H s = (.ok true, t)) (hv : s.vfExec = []) :
    Balanced false ((s.script.drop s.pc).map opOf) := by
  obtain ⟨tr, hr, hm, ht⟩ := evaluate_runs h
  have := runs_nest hr ht
  rw [hv] at this
  rw [← hm, List.map_map]
  exact this

/-- C48. So have the scripts of an accepted pair. -/
theorem C48_verify {H : Hashes} {b u : State} {sig pub : Script} {flags : Nat}
    (h : verify H b sig pub flags = (.ok true, u)) :
    Balanced false (sig.instructions.map opOf) ∧ Balanced false (pub.instructions.map opOf) := by
  obtain ⟨_, _, t, h1, h2, _⟩ := verify_true.1 h
  exact ⟨C48_balanced h1 rfl, C48_balanced h2 rfl⟩

/-- C48. An instruction in a branch not taken leaves both stacks alone. -/
theorem C48_untouched {H : Hashes} {s t : State} (h : step H s = .next t) (hx : ¬ Executing s) :
    t.stack = s.stack ∧ t.altstack = s.altstack := by
  obtain ⟨i, st⟩ := step_next h
  exact ⟨(st.skipped hx).1, (st.skipped hx).2.1⟩

/-- C48. A balanced sequence of instructions in a branch not taken leaves the stacks and the conditionals alone. -/
theorem C48_skip {H : Hashes} {s t : State} {tr : List (State × Instruction)} (h : Runs H s tr t)
    (hb : Balanced false (tr.map fun p => opOf p.2)) (hx : ¬ Executing s) :
    t.stack = s.stack ∧ t.altstack = s.altstack ∧ t.vfExec = s.vfExec := by
  have hm : false ∈ s.vfExec := by unfold Executing at hx; rwa [not_not] at hx
  obtain ⟨a, b⟩ := runs_skip hb h rfl (fun _ => hm) (by simp)
  exact ⟨a, b, (runs_balanced hb h rfl).1 rfl⟩

theorem exec_if {H : Hashes} {s t : State} {i : Instruction} (st : Stepped H s i t) (hx : Executing s)
    (ho : opOf i = 99 ∨ opOf i = 100) : ∃ x r, s.stack = x :: r ∧ t.stack = r ∧ t.altstack = s.altstack ∧
      t.vfExec = (if opOf i = 99 then castToBool x.val else !castToBool x.val) :: s.vfExec := by
  have hr := st.run hx (by omega)
  obtain ⟨_, _, _, _, e5, e6, e7, _⟩ := enter_eq s i
  have key : ∀ neg, opIf (enter s i) true neg = .next t → ∃ x r, s.stack = x :: r ∧ t.stack = r ∧
      t.altstack = s.altstack ∧ t.vfExec = (if neg then !castToBool x.val else castToBool x.val) :: s.vfExec := by
    intro neg h
    simp only [opIf, if_true, e6, e5] at h
    split at h
    · exact absurd h fail_ne
    · next x r hs => cases h; exact ⟨x, r, hs, rfl, e7, rfl⟩
  rcases ho with ho | ho
  · obtain ⟨x, r, h1, h2, h3, h4⟩ := key false (by rw [ho] at hr; exact hr)
    exact ⟨x, r, h1, h2, h3, by rw [h4, if_pos ho]; rfl⟩
  · obtain ⟨x, r, h1, h2, h3, h4⟩ := key true (by rw [ho] at hr; exact hr)
    exact ⟨x, r, h1, h2, h3, by rw [h4, ho]; rfl⟩

/-- C48. Only the branch taken runs: executing OP_IF a OP_ELSE b OP_ENDIF (or with OP_NOTIF) pops the condition, and then
has the effect of `a` alone or of `b` alone. -/
theorem C48_branch {H : Hashes} {s t : State} {tr : List (State × Instruction)} {op : Nat} {a b : List Nat}
    (h : Runs H s tr t) (he : tr.map (fun p => opOf p.2) = op :: a ++ 103 :: b ++ [104]) (ho : op = 99 ∨ op = 100)
    (ha : Balanced false a) (hb : Balanced false b) (hx : Executing s) :
    ∃ x r s1 s2 tr', s.stack = x :: r ∧ s1.stack = r ∧ s1.altstack = s.altstack ∧ Executing s1 ∧ Runs H s1 tr' s2 ∧
      tr'.map (fun p => opOf p.2) = (if (castToBool x.val = true) = (op = 99) then a else b) ∧
      t.stack = s2.stack ∧ t.altstack = s2.altstack ∧ t.vfExec = s.vfExec := by
  rw [List.append_assoc, List.cons_append] at he
  obtain ⟨i, s1, tr1, rfl, hop, st, hr, he1⟩ := runs_one h he
  obtain ⟨x, r, k1, k2, k3, k4⟩ := exec_if st hx (by omega)
  obtain ⟨s2, ta, t2, rfl, ra, r2, ma, m2⟩ := runs_split hr he1
  obtain ⟨j, s3, t3, rfl, hj, st2, r3, m3⟩ := runs_one r2 m2
  obtain ⟨s4, tb, t4, rfl, rb, r4, mb, m4⟩ := runs_split r3 m3
  obtain ⟨k, s5, t5, rfl, hk, st3, r5, m5⟩ := runs_one r4 m4
  have hnil : t5 = [] := by simpa using m5
  subst hnil
  cases r5
  have v2 : s2.vfExec = s1.vfExec := (runs_balanced ha ra ma).1 rfl
  have v4 : s4.vfExec = s3.vfExec := (runs_balanced hb rb mb).1 rfl
  have hv := st2.vf
  unfold VfStep at hv
  rw [if_neg (by omega), if_pos hj, v2, k4] at hv
  obtain ⟨c, cs, e1, e2⟩ := hv
  obtain ⟨rfl, rfl⟩ := List.cons.inj e1
  have hv := st3.vf
  unfold VfStep at hv
  rw [if_neg (by omega), if_neg (by omega), if_pos hk, v4, e2] at hv
  obtain ⟨d, e3⟩ := hv
  have hv5 : t.vfExec = s.vfExec := (List.cons.inj e3).2.symm
  have elseSame : s3.stack = s2.stack ∧ s3.altstack = s2.altstack := by
    by_cases hx2 : Executing s2
    · have hr := st2.run hx2 (by omega)
      rw [hj] at hr
      have hr : opElse (enter s2 j) = .next s3 := hr
      obtain ⟨_, _, _, _, e5, e6, e7, _⟩ := enter_eq s2 j
      unfold opElse at hr
      split at hr
      · exact absurd hr fail_ne
      · cases hr; exact ⟨e6, e7⟩
    · exact ⟨(st2.skipped hx2).1, (st2.skipped hx2).2.1⟩
  have endSame : t.stack = s4.stack ∧ t.altstack = s4.altstack := by
    by_cases hx2 : Executing s4
    · have hr := st3.run hx2 (by omega)
      rw [hk] at hr
      have hr : opEndif (enter s4 k) = .next t := hr
      obtain ⟨_, _, _, _, e5, e6, e7, _⟩ := enter_eq s4 k
      unfold opEndif at hr
      split at hr
      · exact absurd hr fail_ne
      · cases hr; exact ⟨e6, e7⟩
    · exact ⟨(st3.skipped hx2).1, (st3.skipped hx2).2.1⟩
  have hcond : (if opOf i = 99 then castToBool x.val else !castToBool x.val) = true ↔
      (castToBool x.val = true) = (op = 99) := by
    rw [hop, eq_iff_iff]
    rcases ho with rfl | rfl <;> simp
  by_cases hc : (castToBool x.val = true) = (op = 99)
  · have hct := hcond.2 hc
    rw [hct] at k4 e2
    have hx3 : ¬ Executing s3 := by unfold Executing; rw [e2]; simp
    obtain ⟨b1, b2, _⟩ := C48_skip rb (by rw [mb]; exact hb) hx3
    refine ⟨x, r, s1, s2, ta, k1, k2, k3, ?_, ra, by rw [if_pos hc]; exact ma, ?_, ?_, hv5⟩
    · unfold Executing at hx ⊢; rw [k4]; simpa using hx
    · rw [endSame.1, b1, elseSame.1]
    · rw [endSame.2, b2, elseSame.2]
  · have hct : (if opOf i = 99 then castToBool x.val else !castToBool x.val) = false := by
      rw [← Bool.not_eq_true, hcond]; exact hc
    rw [hct] at k4 e2
    have hx1 : ¬ Executing s1 := by unfold Executing; rw [k4]; simp
    obtain ⟨b1, b2, _⟩ := C48_skip ra (by rw [ma]; exact ha) hx1
    refine ⟨x, r, s3, s4, tb, k1, ?_, ?_, ?_, rb, by rw [if_neg hc]; exact mb, endSame.1, endSame.2, hv5⟩
    · rw [elseSame.1, b1, k2]
    · rw [elseSame.2, b2, k3]
    · unfold Executing at hx ⊢; rw [e2]; simpa using hx

/-- OP_1 OP_IF OP_2 OP_ELSE OP_3 OP_ENDIF OP_2 OP_EQUAL. -/
example : (verify Hashes.toy {} one ⟨.generic, [⟨.num 99, none⟩, ⟨.num 82, none⟩, ⟨.num 103, none⟩, ⟨.num 83, none⟩,
    ⟨.num 104, none⟩, ⟨.num 82, none⟩, ⟨.num 135, none⟩]⟩).1 = .ok true := by decide +kernel
example : Balanced false [99, 82, 100, 103, 104, 103, 83, 104] :=
  .block (body := [82, 100, 103, 104, 103, 83]) (.inl rfl) (.plain (by decide)
    (.block (body := [103]) (.inr rfl) (.els (.nil _)) (.els (.plain (by decide) (.nil _))))) (.nil _)

/-! ## C53 -/

/-- C53. No run without failure executes OP_CHECKSIG or OP_CHECKSIGVERIFY: they always fail. -/
theorem C53_checksig {H : Hashes} {s t : State} {tr : List (State × Instruction)} (h : Runs H s tr t)
    (p : State × Instruction) (hp : p ∈ tr) (hx : Executing p.1) : opOf p.2 ≠ 172 ∧ opOf p.2 ≠ 173 := by
  obtain ⟨v, st, _⟩ := (runs_facts h).2.2.2.2.2.2.2 p hp
  constructor
  · intro ho
    have hr := st.run hx (by omega)
    rw [ho] at hr
    exact checkSig_ne _ _ hr
  · intro ho
    have hr := st.run hx (by omega)
    rw [ho] at hr
    exact checkSig_ne _ _ hr

/-- C53. If a run without failure executes OP_CHECKMULTISIG(VERIFY), at most 20 keys and no signatures were asked for. -/
theorem C53_multisig {H : Hashes} {s t : State} {tr : List (State × Instruction)} (h : Runs H s tr t)
    (p : State × Instruction) (hp : p ∈ tr) (hx : Executing p.1) (ho : opOf p.2 = 174 ∨ opOf p.2 = 175) :
    0 ≤ keysOf p.1 ∧ keysOf p.1 ≤ 20 ∧ ∃ y, p.1.stack[(keysOf p.1).toNat + 1]? = some y ∧
      decodeScriptNumber y (flag p.1 MINIMALDATA) = .ok 0 := by
  obtain ⟨v, st, _⟩ := (runs_facts h).2.2.2.2.2.2.2 p hp
  obtain ⟨s', i⟩ := p
  have hr := st.run hx (by omega)
  obtain ⟨_, _, e3, _, _, e6, _⟩ := enter_eq s' i
  have hfl : flag (enter s' i) MINIMALDATA = flag s' MINIMALDATA := flag_congr e3 _
  have hke : keysOf (enter s' i) = keysOf s' := by unfold keysOf; rw [e6, hfl]
  have key : ∀ vf, checkMultisig (enter s' i) (flag (enter s' i) MINIMALDATA) vf = .next v → _ := fun vf h =>
    checkMultisig_next h
  rcases ho with ho | ho
  · obtain ⟨_, _, _, _, _, a, b, y, _, _, c, d, _⟩ := key false (by have ho : opOf i = _ := ho; rw [ho] at hr; exact hr)
    rw [hke, e6] at c; rw [hfl] at d; rw [hke] at a b
    exact ⟨a, b, y, c, d⟩
  · obtain ⟨_, _, _, _, _, a, b, y, _, _, c, d, _⟩ := key true (by have ho : opOf i = _ := ho; rw [ho] at hr; exact hr)
    rw [hke, e6] at c; rw [hfl] at d; rw [hke] at a b
    exact ⟨a, b, y, c, d⟩

/-- C53. In an accepted pair of scripts, every signature check is in a branch not taken or is a multisig that asks for no
signatures. -/
theorem C53_verify {H : Hashes} {b u : State} {sig pub : Script} {flags : Nat}
    (h : verify H b sig pub flags = (.ok true, u)) : ∃ t tr tr', Runs H (start sig [] flags) tr t ∧
      tr.map Prod.snd = sig.instructions ∧ Runs H (start pub t.stack flags) tr' u ∧ tr'.map Prod.snd = pub.instructions ∧
      ∀ p ∈ tr ++ tr', 172 ≤ opOf p.2 → opOf p.2 ≤ 175 → ¬ Executing p.1 ∨
        ∃ y, p.1.stack[(keysOf p.1).toNat + 1]? = some y ∧ decodeScriptNumber y (flag p.1 MINIMALDATA) = .ok 0 := by
  obtain ⟨_, _, t, tr, tr', _, _, _, _, r1, m1, r2, m2, _⟩ := verify_runs h
  refine ⟨t, tr, tr', r1, m1, r2, m2, ?_⟩
  intro p hp h1 h2
  by_cases hx : Executing p.1
  · right
    rcases List.mem_append.1 hp with hp | hp
    · have := C53_checksig r1 p hp hx
      obtain ⟨_, _, h⟩ := C53_multisig r1 p hp hx (by omega)
      exact h
    · have := C53_checksig r2 p hp hx
      obtain ⟨_, _, h⟩ := C53_multisig r2 p hp hx (by omega)
      exact h
  · exact .inl hx

/-- OP_0 OP_0 OP_0 OP_CHECKMULTISIG: no signatures of no keys. -/
example : (verify Hashes.toy {} ⟨.generic, []⟩ ⟨.generic,
    [⟨.num 0, none⟩, ⟨.num 0, none⟩, ⟨.num 0, none⟩, ⟨.num 174, none⟩]⟩).1 = .ok true := by decide +kernel

/-! ## C52 -/

/-- C52. OP_HASH160 is never executed without failure. -/
theorem C52_hash160_refuted {H : Hashes} {s t : State} {tr : List (State × Instruction)} (h : Runs H s tr t)
    (p : State × Instruction) (hp : p ∈ tr) (hx : Executing p.1) : opOf p.2 ≠ 169 := by
  intro ho
  obtain ⟨v, st, _⟩ := (runs_facts h).2.2.2.2.2.2.2 p hp
  have hr := st.run hx (by omega)
  rw [ho] at hr
  have hr : opHash H (enter p.1 p.2) 169 = .next v := hr
  unfold opHash at hr
  split at hr
  · exact absurd hr fail_ne
  · cases hr

/-- C52 is false of the code: no script_sig, whatever it signs, is accepted against a script of the form
OP_DUP OP_HASH160 push OP_EQUALVERIFY OP_CHECKSIG. -/
theorem C52_p2pkh_refuted (H : Hashes) (b : State) (sig pub : Script) (flags : Nat)
    (hm : Matches .p2pkhOut (shape (pub.instructions.map Instruction.wire))) :
    (verify H b sig pub flags).1 ≠ .ok true := by
  intro hv
  obtain ⟨_, _, t, tr, tr', _, _, _, _, _, _, r2, m2, _⟩ := verify_runs (u := (verify H b sig pub flags).2) (by rw [← hv])
  have hops : ∃ l, tr'.map (fun p => opOf p.2) = 118 :: 169 :: l := by
    have e : tr'.map (fun p => opOf p.2) = pub.instructions.map opOf := by rw [← m2, List.map_map]; rfl
    rw [e]
    have hm : shape (pub.instructions.map Instruction.wire) = _ := hm
    unfold shape at hm
    rw [List.map_map] at hm
    match hp : pub.instructions with
    | [] => rw [hp] at hm; cases hm
    | [i] => rw [hp] at hm; simp at hm
    | i :: j :: is =>
      rw [hp] at hm
      simp only [List.map_cons, List.cons.injEq, Function.comp] at hm
      obtain ⟨h1, h2, _⟩ := hm
      refine ⟨is.map opOf, ?_⟩
      split at h1
      · split at h2
        · have a1 : i.wire.1 = 118 := Option.some.inj h1
          have a2 : j.wire.1 = 169 := Option.some.inj h2
          have b1 : opOf i = 118 := by show i.wire.1.val = 118; rw [a1]; rfl
          have b2 : opOf j = 169 := by show j.wire.1.val = 169; rw [a2]; rfl
          rw [List.map_cons, List.map_cons, b1, b2]
        · cases h2
      · cases h1
  obtain ⟨l, he⟩ := hops
  obtain ⟨i, s1, t1, rfl, hi, st, r3, e3⟩ := runs_one r2 he
  obtain ⟨j, s2, t2, rfl, hj, st2, r4, e4⟩ := runs_one r3 e3
  have hvf := st.vf
  unfold VfStep at hvf
  rw [if_neg (by omega), if_neg (by omega), if_neg (by omega)] at hvf
  exact C52_hash160_refuted r3 (s1, j) List.mem_cons_self
    (by unfold Executing; rw [hvf]; show false ∉ []; simp) hj

/-- C52 is false of the code: no script_sig is accepted against a script of the form OP_HASH160 push OP_EQUAL, with or
without SCRIPT_VERIFY_P2SH. -/
theorem C52_p2sh_refuted (H : Hashes) (b : State) (sig pub : Script) (flags : Nat)
    (hm : Matches .p2shOut (shape (pub.instructions.map Instruction.wire))) :
    (verify H b sig pub flags).1 ≠ .ok true := by
  intro hv
  obtain ⟨_, _, t, tr, tr', _, _, _, _, _, _, r2, m2, _⟩ := verify_runs (u := (verify H b sig pub flags).2) (by rw [← hv])
  have hops : ∃ l, tr'.map (fun p => opOf p.2) = 169 :: l := by
    have e : tr'.map (fun p => opOf p.2) = pub.instructions.map opOf := by rw [← m2, List.map_map]; rfl
    rw [e]
    have hm : shape (pub.instructions.map Instruction.wire) = _ := hm
    unfold shape at hm
    rw [List.map_map] at hm
    match hp : pub.instructions with
    | [] => rw [hp] at hm; cases hm
    | i :: is =>
      rw [hp] at hm
      simp only [List.map_cons, List.cons.injEq, Function.comp] at hm
      obtain ⟨h1, _⟩ := hm
      refine ⟨is.map opOf, ?_⟩
      split at h1
      · have a1 : i.wire.1 = 169 := Option.some.inj h1
        have b1 : opOf i = 169 := by show i.wire.1.val = 169; rw [a1]; rfl
        rw [List.map_cons, b1]
      · cases h1
  obtain ⟨l, he⟩ := hops
  obtain ⟨i, s1, t1, rfl, hi, st, r3, e3⟩ := runs_one r2 he
  exact C52_hash160_refuted r2 (start pub t.stack flags, i) List.mem_cons_self
    (by unfold Executing; show false ∉ []; simp) hi

/-- C52 is false of the code: in particular nothing spends a PayToPubkeyOut … -/
theorem C52_pay_to_pubkey_refuted (H : Hashes) (b : State) (sig pub : Script) (flags : Nat) (a : Address)
    (ha : a.phash.length = 20) (h : PayToPubkeyOut.create a = .ok pub) : (verify H b sig pub flags).1 ≠ .ok true := by
  obtain ⟨s, h1, _, h3, _⟩ := C32_pubkey_out a ha
  rw [h] at h1
  cases h1
  apply C52_p2pkh_refuted
  rcases classify_spec pub.instructions with ⟨_, hc⟩ | ⟨_, c, hc, hm⟩
  · rw [h3] at hc; cases hc
  · rw [h3] at hc; cases hc; exact (hm .p2pkhOut).1 rfl

/-- C52 is false of the code: … or a PayToScriptOut. -/
theorem C52_pay_to_script_refuted (H : Hashes) (b : State) (sig pub r : Script) (flags : Nat) (rb : Bytes)
    (hr : r.toBytes = .ok rb) (h : PayToScriptOut.create H r = .ok pub) : (verify H b sig pub flags).1 ≠ .ok true := by
  obtain ⟨s, h1, _, h3, _⟩ := C32_script_out H r rb hr
  rw [h] at h1
  cases h1
  apply C52_p2sh_refuted
  rcases classify_spec pub.instructions with ⟨_, hc⟩ | ⟨_, c, hc, hm⟩
  · rw [h3] at hc; cases hc
  · rw [h3] at hc; cases hc; exact (hm .p2shOut).1 rfl

/-- C52 is false of the code: with SCRIPT_VERIFY_P2SH nothing at all is accepted. -/
theorem C52_flag_refuted (H : Hashes) (b : State) (sig pub : Script) (flags : Nat) (hf : flags.testBit 0 = true) :
    (verify H b sig pub flags).1 ≠ .ok true := by
  intro hv
  obtain ⟨_, h, _⟩ := verify_true.1 (show verify H b sig pub flags = (.ok true, (verify H b sig pub flags).2) by rw [← hv])
  rw [hf] at h
  cases h

/-! ## C54 -/

/-- C54. What `verify` returns, and the attributes afterwards, do not depend on the Interpreter it is called on. -/
theorem C54_reuse (H : Hashes) (b b' : State) (sig pub : Script) (flags : Nat) :
    verify H b sig pub flags = verify H b' sig pub flags := rfl

/-- C54. A sequence of calls on one Interpreter gives what each call gives on a new one. -/
theorem C54_history (H : Hashes) (calls : List (Script × Script × Nat)) (b : State) :
    (calls.foldl (fun (acc : List (Except Err Bool) × State) c =>
      let r := verify H acc.2 c.1 c.2.1 c.2.2
      (acc.1 ++ [r.1], r.2)) ([], b)).1 = calls.map fun c => (verify H {} c.1 c.2.1 c.2.2).1 := by
  suffices h : ∀ (l : List (Except Err Bool)) (b : State), (calls.foldl (fun (acc : List (Except Err Bool) × State) c =>
      let r := verify H acc.2 c.1 c.2.1 c.2.2
      (acc.1 ++ [r.1], r.2)) (l, b)).1 = l ++ calls.map fun c => (verify H {} c.1 c.2.1 c.2.2).1 by
    simpa using h [] b
  induction calls with
  | nil => intro l b; simp
  | cons c cs ih =>
    intro l b
    rw [List.foldl_cons, ih, List.map_cons, List.append_assoc]
    rfl

/-- C54. No step changes the script, so that after `verify` the script is one of the two it was given. -/
theorem C54_unchanged {H : Hashes} {b u : State} {sig pub : Script} {flags : Nat}
    (h : verify H b sig pub flags = (.ok true, u)) : u.script = pub.instructions := by
  obtain ⟨_, _, t, tr, tr', _, _, _, _, _, _, r2, _⟩ := verify_runs h
  exact (runs_facts r2).1

example : (verify Hashes.toy { stack := [num 5], vfExec := [false], nopCount := 300 } one ⟨.generic, []⟩).1 = .ok true := by
  decide +kernel

end Interpreter
end Bitforge
