import Verif.RealHashes
import Verif.Proofs.RefGrow
import Verif.Proofs.RefMinimal
import Verif.Props.Push
import Verif.Props.Interp

/-! # C80: `Interpreter.verify` and the reference client -/

namespace Bitforge
open Spec
namespace Interpreter

theorem isPushOnly_wires (s : Script) : s.isPushOnly = s.wires.all fun i => decide (i.1.val ≤ 96) := by
  unfold Script.isPushOnly Script.wires
  rw [List.all_map]
  rfl

/-- A checker that accepts nothing, and one that accepts everything. -/
def refuse : Ref.Checker := ⟨fun _ _ _ _ => some false, fun _ => false⟩
def accept : Ref.Checker := ⟨fun _ _ _ _ => some true, fun _ => true⟩

/-- A script: opcodes without data, and pushes. -/
def prog (is : List (Nat ⊕ Bytes)) : Script := ⟨.generic, is.map fun
  | .inl n => ⟨.num n, none⟩
  | .inr b => ⟨.num b.length, some ⟨.bytearray, b⟩⟩⟩

/-! The conditions on runs can be checked for given scripts. -/

instance headDec (l : List Data) (Q : Data → Prop) [DecidablePred Q] : Decidable (∀ x r, l = x :: r → Q x) :=
  match l with
  | [] => isTrue (by simp)
  | x :: r => decidable_of_iff (Q x) ⟨fun h y r' e => by cases e; exact h, fun h => h x r rfl⟩

instance (d : Data) : Decidable (Fits d) := by unfold Fits; infer_instance
instance (s : State) (op : Nat) : Decidable (Faithful s op) := by unfold Faithful; infer_instance
instance (s : State) (i : Instruction) : Decidable (Sound s i) := by unfold Sound FaithfulAt; infer_instance
instance (d : Data) : Decidable (Readable d) := by unfold Readable; infer_instance
instance (s : State) (i : Instruction) : Decidable (Regular s i) :=
  decidable_of_iff (Sound s i ∧ (Executing s → opOf i ∉ [169, 172, 173, 174, 175, 177]) ∧
    (Executing s → opOf i = 105 → ∀ x r, s.stack = x :: r → x.val.head? = some 0 → Ref.truth x.val = false) ∧
    (Executing s → ∀ d ∈ s.stack.take (operands (opOf i)), Readable d) ∧
    (Executing s → s.flags.testBit 6 = true → i.data = none))
    ⟨fun ⟨a, b, c, d, e⟩ => ⟨a, b, c, d, e⟩, fun h => ⟨h.sound, h.supported, h.verify, h.numbers, h.push⟩⟩

/-- Follow the run. -/
def follow (H : Hashes) (P : State → Instruction → Bool) : Nat → State → Bool
  | 0, s => decide (s.script.length ≤ s.pc)
  | n + 1, s =>
    match s.script[s.pc]? with
    | none => true
    | some i => P s i && match step H s with
      | .next t => follow H P n t
      | _ => true

theorem follow_always {H : Hashes} {P : State → Instruction → Prop} [∀ s i, Decidable (P s i)] (n : Nat) (s : State)
    (h : follow H (fun s i => decide (P s i)) n s = true) : Always H s P := by
  induction n generalizing s with
  | zero =>
    intro tr t i hr hi
    cases hr with
    | nil =>
      have hlt : s.pc < s.script.length := (List.getElem?_eq_some_iff.1 hi).1
      simp only [follow, decide_eq_true_eq] at h
      omega
    | cons hj _ _ =>
      have hlt : s.pc < s.script.length := (List.getElem?_eq_some_iff.1 hj).1
      simp only [follow, decide_eq_true_eq] at h
      omega
  | succ n ih =>
    intro tr t i hr hi
    unfold follow at h
    cases hr with
    | nil =>
      rw [hi] at h
      simp only [Bool.and_eq_true, decide_eq_true_eq] at h
      exact h.1
    | cons hj hs hr =>
      rw [hj] at h
      simp only [hs, Bool.and_eq_true, decide_eq_true_eq] at h
      exact ih _ h.2 _ t i hr hi

/-- C80, one direction, with a condition on the run: if every instruction of the two runs is `Sound` (at most 1000 elements
on the stacks, OP_DROP leaves nothing below, OP_ABS only of 1 and -1, OP_IF, OP_NOTIF and OP_IFDUP not on a nonzero number
that starts with a zero byte, OP_WITHIN only of minimal numbers when they have to be), what `verify` accepts the reference client
accepts, whatever it is told of signatures and lock times.  Missing: see the refutations. -/
theorem C80_sound_trace_partial (H : Hashes) (C : Ref.Checker) (b u : State) (sig pub : Script) (flags : Nat)
    (hs : sig.WellFormed) (hp : pub.WellFormed) (h : verify H b sig pub flags = (.ok true, u))
    (h1 : Always H (start sig [] flags) Sound)
    (h2 : ∀ t, evaluate H (start sig [] flags) = (.ok true, t) → Always H (start pub t.stack flags) Sound) :
    Ref.verify H C flags sig.wires pub.wires = true := by
  obtain ⟨hpo, _, t, e1, e2, x, r, hx, hc⟩ := verify_true.1 h
  unfold Ref.verify
  rw [if_neg (by rintro ⟨a, b⟩; rw [← isPushOnly_wires] at b; exact b (hpo a))]
  rw [show Ref.eval H C flags sig.wires [] = _ from eval_sound hs h1 e1]
  simp only []
  rw [eval_sound hp (h2 t e1) e2, hx]
  exact truth_of_cast hc

/-- `1 | IF 2 ELSE RETURN ENDIF 2 NUMEQUAL`. -/
example : (prog [.inl 81]).WellFormed ∧ (prog [.inl 99, .inl 82, .inl 103, .inl 106, .inl 104, .inl 82, .inl 156]).WellFormed ∧
    (verify Hashes.toy {} (prog [.inl 81]) (prog [.inl 99, .inl 82, .inl 103, .inl 106, .inl 104, .inl 82, .inl 156]) 64).1 = .ok true ∧
    Always Hashes.toy (start (prog [.inl 81]) [] 64) Sound ∧
    ∀ t, evaluate Hashes.toy (start (prog [.inl 81]) [] 64) = (.ok true, t) →
      Always Hashes.toy (start (prog [.inl 99, .inl 82, .inl 103, .inl 106, .inl 104, .inl 82, .inl 156]) t.stack 64) Sound := by
  refine ⟨by unfold Script.WellFormed; decide, by unfold Script.WellFormed; decide, by decide +kernel,
    follow_always 1 _ (by decide +kernel), ?_⟩
  intro t ht
  have : t.stack = (evaluate Hashes.toy (start (prog [.inl 81]) [] 64)).2.stack := by rw [ht]
  rw [this]
  exact follow_always 7 _ (by decide +kernel)

/-- Not OP_IF, OP_NOTIF, OP_IFDUP, OP_DROP, OP_ABS. -/
def Plain (i : Instruction) : Prop := opOf i ∉ [99, 100, 115, 117, 144]

instance (i : Instruction) : Decidable (Plain i) := by unfold Plain; infer_instance

theorem plain_faithful {s : State} {i : Instruction} (h : Plain i)
    (hf : s.flags.testBit 6 = true → ∀ d ∈ s.stack ++ s.altstack, Fits d) : FaithfulAt s i := by
  unfold Plain at h
  simp only [List.mem_cons, List.not_mem_nil, or_false, not_or] at h
  exact fun _ => ⟨fun e => by omega, fun e => by omega, fun e => by omega,
    fun _ hm d hd => hf hm d (List.mem_append_left _ (List.mem_of_mem_take hd))⟩

/-- How many elements the instructions add to the stacks, at most. -/
def adds (is : List Instruction) : Nat := (is.map fun i => Ref.adds (opOf i)).sum

theorem runs_total {H : Hashes} {s t : State} {tr : List (State × Instruction)} (h : Runs H s tr t)
    (hw : ∀ i ∈ s.script, Wf i.wire ∧ ¬ (76 ≤ opOf i ∧ opOf i ≤ 78)) (hpl : ∀ i ∈ s.script, Plain i)
    (hfit : s.flags.testBit 6 = true → ∀ d ∈ s.stack ++ s.altstack, Fits d) (hn : 0 ≤ s.nopCount) :
    t.stack.length + t.altstack.length ≤ s.stack.length + s.altstack.length + adds (tr.map Prod.snd) := by
  induction h with
  | nil s => simp [adds]
  | @cons s t u i tr hi hs hr ih =>
    have him : i ∈ s.script := List.mem_of_getElem? hi
    obtain ⟨i', st⟩ := step_next hs
    have : i' = i := by have := st.fetched; rw [hi] at this; cases this; rfl
    subst this
    have hg := act_grows (step_sound (C := ⟨fun _ _ _ _ => none, fun _ => false⟩) hs hi (hw _ him).1 (hw _ him).2 hn
      (plain_faithful (hpl _ him) hfit))
    have hg : (vals t.stack).length + (vals t.altstack).length ≤
      (vals s.stack).length + (vals s.altstack).length + Ref.adds (opOf i') := hg
    simp only [vals_length] at hg
    have := ih (by rw [st.script]; exact hw) (by rw [st.script]; exact hpl)
      (by rw [st.flags]; exact fun hm => step_fits st hm (hfit hm)) (exec_count hn st)
    simp only [adds, List.map_cons, List.sum_cons] at this ⊢
    omega

theorem adds_sublist {l l' : List Instruction} (h : l.Sublist l') : adds l ≤ adds l' :=
  (h.map _).sum_le_sum fun _ _ => Nat.zero_le _

theorem plain_always {H : Hashes} {script : Script} {stack : List Data} {flags : Nat}
    (hw : ∀ i ∈ script.instructions, Wf i.wire ∧ ¬ (76 ≤ opOf i ∧ opOf i ≤ 78))
    (hpl : ∀ i ∈ script.instructions, Plain i) (hfit : flags.testBit 6 = true → ∀ d ∈ stack, Fits d)
    (hsz : stack.length + adds script.instructions ≤ 1000) : Always H (start script stack flags) Sound := by
  intro tr t i hr hi
  obtain ⟨f1, f2, _, _, f5, _⟩ := runs_facts hr
  have hfit' : (start script stack flags).flags.testBit 6 = true →
      ∀ d ∈ (start script stack flags).stack ++ (start script stack flags).altstack, Fits d := fun hm d hd =>
    hfit hm d (by rcases List.mem_append.1 hd with h | h; exacts [h, absurd h List.not_mem_nil])
  have := runs_total hr hw hpl hfit' (le_refl 0)
  rw [f5] at this
  have hle : adds ((script.instructions.drop 0).take tr.length) ≤ adds script.instructions :=
    adds_sublist ((List.take_sublist _ _).trans (List.drop_sublist _ _))
  have : t.stack.length + t.altstack.length ≤ stack.length + 0 + adds ((script.instructions.drop 0).take tr.length) := this
  refine ⟨by omega, plain_faithful ?_ fun hm => runs_fits hr (by rw [← f2]; exact hm) (hfit' (by rw [← f2]; exact hm))⟩
  refine hpl i ?_
  have := List.mem_of_getElem? hi
  rw [f1] at this
  exact this

/-- C80, one direction, with a condition that can be read off the scripts: what `verify` accepts the reference client
accepts, for scripts that do not use OP_IF, OP_NOTIF, OP_IFDUP, OP_DROP, OP_ABS, and cannot have pushed more than 1000
elements.  Missing: see the refutations, one for each of these conditions. -/
theorem C80_sound_partial (H : Hashes) (C : Ref.Checker) (b u : State) (sig pub : Script) (flags : Nat)
    (hs : sig.WellFormed) (hp : pub.WellFormed) (hplain : ∀ i ∈ sig.instructions ++ pub.instructions, Plain i)
    (hsz : adds (sig.instructions ++ pub.instructions) ≤ 1000) (h : verify H b sig pub flags = (.ok true, u)) :
    Ref.verify H C flags sig.wires pub.wires = true := by
  have hsz : adds sig.instructions + adds pub.instructions ≤ 1000 := by
    unfold adds at hsz ⊢
    rw [List.map_append, List.sum_append] at hsz
    exact hsz
  obtain ⟨_, _, t, e1, e2, _⟩ := verify_true.1 h
  obtain ⟨⟨b1, hb1, _⟩, l1, _⟩ := evaluate_ok.1 e1
  obtain ⟨⟨b2, hb2, _⟩, _⟩ := evaluate_ok.1 e2
  have w1 := (no_pushData hs hb1).1
  have w2 := (no_pushData hp hb2).1
  have p1 : ∀ i ∈ sig.instructions, Plain i := fun i hi => hplain i (List.mem_append_left _ hi)
  refine C80_sound_trace_partial H C b u sig pub flags hs hp h (plain_always w1 p1 (fun _ d hd => absurd hd List.not_mem_nil) (by simp; omega)) ?_
  intro t' e
  rw [e1] at e
  cases e
  obtain ⟨tr, hr, _⟩ := loop_runs l1 t rfl
  have hnone : ∀ d ∈ (start sig [] flags).stack ++ (start sig [] flags).altstack, Fits d :=
    fun d hd => absurd hd List.not_mem_nil
  refine plain_always w2 (fun i hi => hplain i (List.mem_append_right _ hi))
    (fun hm d hd => runs_fits hr hm hnone d (List.mem_append_left _ hd)) ?_
  have := runs_total hr w1 p1 (fun _ => hnone) (le_refl 0)
  obtain ⟨_, _, _, _, f5, _⟩ := runs_facts hr
  rw [f5] at this
  have hle : adds ((sig.instructions.drop 0).take tr.length) ≤ adds sig.instructions :=
    adds_sublist ((List.take_sublist _ _).trans (List.drop_sublist _ _))
  have : t.stack.length + t.altstack.length ≤ 0 + 0 + adds ((sig.instructions.drop 0).take tr.length) := this
  omega

/-- `2 3 | ADD 5 NUMEQUAL`. -/
example : (prog [.inl 82, .inl 83]).WellFormed ∧ (prog [.inl 147, .inl 85, .inl 156]).WellFormed ∧
    (∀ i ∈ (prog [.inl 82, .inl 83]).instructions ++ (prog [.inl 147, .inl 85, .inl 156]).instructions, Plain i) ∧
    adds ((prog [.inl 82, .inl 83]).instructions ++ (prog [.inl 147, .inl 85, .inl 156]).instructions) ≤ 1000 ∧
    (verify Hashes.toy {} (prog [.inl 82, .inl 83]) (prog [.inl 147, .inl 85, .inl 156]) 64).1 = .ok true ∧
    Ref.verify Hashes.toy refuse 64 (prog [.inl 82, .inl 83]).wires (prog [.inl 147, .inl 85, .inl 156]).wires = true := by
  refine ⟨by unfold Script.WellFormed; decide, by unfold Script.WellFormed; decide, ?_, ?_, ?_, ?_⟩ <;> decide +kernel

/-- C80, both directions, with a condition on the run of the interpreter: if every instruction it meets is `Regular`, there
is no PUSHDATA, SCRIPT_VERIFY_P2SH is off, and the last element is not a nonzero number that starts with a zero byte,
`verify` accepts exactly what the reference client accepts.  Missing: see the refutations. -/
theorem C80_agree_partial (H : Hashes) (C : Ref.Checker) (b : State) (sig pub : Script) (flags : Nat)
    (hs : sig.WellFormed) (hp : pub.WellFormed) (ns : ¬ sig.HasPushData) (np : ¬ pub.HasPushData)
    (hf : flags.testBit 0 = false) (h1 : Always H (start sig [] flags) Regular)
    (h2 : ∀ t, evaluate H (start sig [] flags) = (.ok true, t) → Always H (start pub t.stack flags) Regular ∧
      ∀ u x r, evaluate H (start pub t.stack flags) = (.ok true, u) → u.stack = x :: r → x.val.head? = some 0 →
        Ref.truth x.val = false) :
    (verify H b sig pub flags).1 = .ok true ↔ Ref.verify H C flags sig.wires pub.wires = true := by
  have weaken : ∀ {s : State}, Always H s Regular → Always H s Sound := fun h tr t i hr hi => (h tr t i hr hi).sound
  constructor
  · intro h
    exact C80_sound_trace_partial H C b (verify H b sig pub flags).2 sig pub flags hs hp (Prod.ext h rfl) (weaken h1)
      fun t ht => weaken (h2 t ht).1
  · intro h
    unfold Ref.verify at h
    split at h
    · cases h
    next hpo =>
    cases he : Ref.eval H C flags sig.wires [] with
    | none => rw [he] at h; cases h
    | some l =>
      rw [he] at h
      simp only [] at h
      obtain ⟨t, e1, rfl⟩ := eval_complete (stack := []) hs ns h1 (by simp) he
      have ht : t.stack.length ≤ 1000 := by
        have := (evaluate_ok.1 e1).2.2.1
        omega
      cases he2 : Ref.eval H C flags pub.wires (vals t.stack) with
      | none => rw [he2] at h; cases h
      | some l =>
        rw [he2] at h
        obtain ⟨u, e2, rfl⟩ := eval_complete hp np (h2 t e1).1 ht he2
        cases hu : u.stack with
        | nil => rw [hu] at h; cases h
        | cons x r =>
          rw [hu] at h
          have hx : Ref.truth x.val = true := h
          have : verify H b sig pub flags = (.ok true, u) := by
            refine verify_true.2 ⟨fun h5 => ?_, hf, t, e1, e2, x, r, hu, ?_⟩
            · by_contra hc
              exact hpo ⟨h5, by rw [← isPushOnly_wires]; exact hc⟩
            · rw [cast_eq_truth ((h2 t e1).2 u x r e2 hu)]
              exact hx
          rw [this]

/-- `<0a 0b> 3 | VERIFY SIZE 2 SUB`, which both refuse, and `… 1 SUB`, which both accept. -/
example : ∀ n ∈ [81, 82], (prog [.inr [10, 11], .inl 83]).WellFormed ∧ (prog [.inl 105, .inl 130, .inl n, .inl 148]).WellFormed ∧
    ¬ (prog [.inr [10, 11], .inl 83]).HasPushData ∧ ¬ (prog [.inl 105, .inl 130, .inl n, .inl 148]).HasPushData ∧
    Always Hashes.toy (start (prog [.inr [10, 11], .inl 83]) [] 0) Regular ∧
    (∀ t, evaluate Hashes.toy (start (prog [.inr [10, 11], .inl 83]) [] 0) = (.ok true, t) →
      Always Hashes.toy (start (prog [.inl 105, .inl 130, .inl n, .inl 148]) t.stack 0) Regular ∧
      ∀ u x r, evaluate Hashes.toy (start (prog [.inl 105, .inl 130, .inl n, .inl 148]) t.stack 0) = (.ok true, u) →
        u.stack = x :: r → x.val.head? = some 0 → Ref.truth x.val = false) ∧
    (verify Hashes.toy {} (prog [.inr [10, 11], .inl 83]) (prog [.inl 105, .inl 130, .inl n, .inl 148])).1 =
      .ok (decide (n = 81)) := by
  intro n hn
  have hh : n = 81 ∨ n = 82 := by simpa using hn
  rcases hh with rfl | rfl
  all_goals
    refine ⟨by unfold Script.WellFormed; decide, by unfold Script.WellFormed; decide, by unfold Script.HasPushData; decide,
      by unfold Script.HasPushData; decide, follow_always 2 _ (by decide +kernel), ?_, by decide +kernel⟩
    intro t ht
    have : t.stack = (evaluate Hashes.toy (start (prog [.inr [10, 11], .inl 83]) [] 0)).2.stack := by rw [ht]
    rw [this]
    refine ⟨follow_always 4 _ (by decide +kernel), ?_⟩
    intro u x r hu
    have e : _ = u.stack := congrArg (fun p : Except Err Bool × State => p.2.stack) hu
    rw [← e]
    revert x r
    decide +kernel

/-- Not an opcode that reads a number or a truth value, not OP_DROP, OP_HASH160, a signature check or
OP_CHECKLOCKTIMEVERIFY; no push with data when pushes have to be minimal. -/
def Simple (flags : Nat) (i : Instruction) : Prop :=
  opOf i ∉ [99, 100, 105, 115, 117, 121, 122, 139, 140, 143, 144, 145, 146, 147, 148, 165, 169, 172, 173, 174, 175, 177] ∧
  ¬ (154 ≤ opOf i ∧ opOf i ≤ 164) ∧ (flags.testBit 6 = true → i.data = none)

instance (flags : Nat) (i : Instruction) : Decidable (Simple flags i) := by unfold Simple; infer_instance

theorem simple_plain {flags : Nat} {i : Instruction} (h : Simple flags i) : Plain i := by
  obtain ⟨h, _, _⟩ := h
  simp only [List.mem_cons, List.not_mem_nil, or_false, not_or] at h
  unfold Plain
  simp only [List.mem_cons, List.not_mem_nil, or_false, not_or]
  omega

theorem simple_always {H : Hashes} {script : Script} {stack : List Data} {flags : Nat}
    (hw : ∀ i ∈ script.instructions, Wf i.wire ∧ ¬ (76 ≤ opOf i ∧ opOf i ≤ 78))
    (hpl : ∀ i ∈ script.instructions, Simple flags i) (hfit : flags.testBit 6 = true → ∀ d ∈ stack, Fits d)
    (hsz : stack.length + adds script.instructions ≤ 1000) : Always H (start script stack flags) Regular := by
  intro tr t i hr hi
  obtain ⟨f1, f2, _⟩ := runs_facts hr
  have hm := List.mem_of_getElem? hi
  rw [f1] at hm
  have hsim := hpl i hm
  obtain ⟨a, b, c⟩ := hsim
  simp only [List.mem_cons, List.not_mem_nil, or_false, not_or] at a
  refine ⟨plain_always hw (fun i hi => simple_plain (hpl i hi)) hfit hsz tr t i hr hi, fun _ => ?_, fun _ e => ?_, fun _ => ?_,
    fun _ => ?_⟩
  · simp only [List.mem_cons, List.not_mem_nil, or_false, not_or]; omega
  · omega
  · have : operands (opOf i) = 0 := by
      unfold operands
      simp only [List.mem_cons, List.not_mem_nil, or_false]
      rw [if_neg (by omega), if_neg (by omega), if_neg (by omega)]
    rw [this]
    simp
  · rw [f2]; exact c

theorem runs_last {H : Hashes} {s t : State} {tr : List (State × Instruction)} {p : State × Instruction}
    (h : Runs H s (tr ++ [p]) t) : p.1.script[p.1.pc]? = some p.2 ∧ step H p.1 = .next t := by
  induction tr generalizing s with
  | nil =>
    cases h with
    | cons hi hs hr => cases hr; exact ⟨hi, hs⟩
  | cons q tr ih =>
    cases h with
    | cons _ _ hr => exact ih hr

/-- A script that ends with OP_EQUAL leaves a truth value. -/
theorem equal_last {H : Hashes} {s t : State} {is : List Instruction} {i : Instruction}
    (hsc : s.script = is ++ [i]) (hpc : s.pc = 0) (hop : opOf i = 135) (h : evaluate H s = (.ok true, t)) :
    ∃ b r, t.stack = boolBytes b :: r := by
  obtain ⟨tr, hr, hmap, hv⟩ := evaluate_runs h
  rw [hpc, List.drop_zero, hsc] at hmap
  obtain ⟨tr', q, rfl, -, hq⟩ := List.map_eq_append_iff.1 hmap
  obtain ⟨p, rfl, hp⟩ := List.map_eq_singleton_iff.1 hq
  obtain ⟨hi, hs⟩ := runs_last hr
  obtain ⟨j, st⟩ := step_next hs
  have hj : j = i := by have := st.fetched; rw [hi, hp] at this; cases this; rfl
  subst hj
  have hvf := st.vf
  have hvf : t.vfExec = p.1.vfExec := by
    unfold VfStep at hvf
    rw [hop] at hvf
    exact hvf
  have hex : Executing p.1 := by
    unfold Executing
    rw [← hvf, hv]
    simp
  have hrun := st.run hex (by omega)
  rw [hop] at hrun
  have hrun : opEqual (enter p.1 j) false = .next t := hrun
  unfold opEqual at hrun
  split at hrun
  · simp only [Bool.false_eq_true, if_false] at hrun
    cases hrun
    exact ⟨_, _, rfl⟩
  · exact absurd hrun fail_ne

/-- C80, both directions, with a condition that can be read off the scripts: for scripts of `Simple` instructions (pushes,
hashes but for OP_HASH160, OP_EQUAL, OP_EQUALVERIFY, the stack operations but for OP_DROP, OP_IFDUP, OP_PICK and OP_ROLL,
OP_RETURN and what is invalid), without PUSHDATA, of which the second ends with OP_EQUAL. -/
theorem C80_agree_simple_partial (H : Hashes) (C : Ref.Checker) (b : State) (sig pub : Script) (flags : Nat)
    (hs : sig.WellFormed) (hp : pub.WellFormed) (ns : ¬ sig.HasPushData) (np : ¬ pub.HasPushData)
    (hf : flags.testBit 0 = false) (hsim : ∀ i ∈ sig.instructions ++ pub.instructions, Simple flags i)
    (hsz : adds (sig.instructions ++ pub.instructions) ≤ 1000)
    (hlast : ∃ is i, pub.instructions = is ++ [i] ∧ opOf i = 135) :
    (verify H b sig pub flags).1 = .ok true ↔ Ref.verify H C flags sig.wires pub.wires = true := by
  have hsz : adds sig.instructions + adds pub.instructions ≤ 1000 := by
    unfold adds at hsz ⊢
    rw [List.map_append, List.sum_append] at hsz
    exact hsz
  have w1 : ∀ i ∈ sig.instructions, Wf i.wire ∧ ¬ (76 ≤ opOf i ∧ opOf i ≤ 78) :=
    fun i hi => ⟨hs i hi, fun hc => ns ⟨i.wire, List.mem_map_of_mem hi, hc⟩⟩
  have w2 : ∀ i ∈ pub.instructions, Wf i.wire ∧ ¬ (76 ≤ opOf i ∧ opOf i ≤ 78) :=
    fun i hi => ⟨hp i hi, fun hc => np ⟨i.wire, List.mem_map_of_mem hi, hc⟩⟩
  have p1 : ∀ i ∈ sig.instructions, Simple flags i := fun i hi => hsim i (List.mem_append_left _ hi)
  refine C80_agree_partial H C b sig pub flags hs hp ns np hf
    (simple_always w1 p1 (fun _ d hd => absurd hd List.not_mem_nil) (by simp; omega)) ?_
  intro t e1
  constructor
  · obtain ⟨tr, hr, _⟩ := loop_runs (evaluate_ok.1 e1).2.1 t rfl
    have hnone : ∀ d ∈ (start sig [] flags).stack ++ (start sig [] flags).altstack, Fits d :=
      fun d hd => absurd hd List.not_mem_nil
    refine simple_always w2 (fun i hi => hsim i (List.mem_append_right _ hi))
      (fun hm d hd => runs_fits hr hm hnone d (List.mem_append_left _ hd)) ?_
    have := runs_total hr w1 (fun i hi => simple_plain (p1 i hi)) (fun _ => hnone) (le_refl 0)
    obtain ⟨_, _, _, _, f5, _⟩ := runs_facts hr
    rw [f5] at this
    have hle : adds ((sig.instructions.drop 0).take tr.length) ≤ adds sig.instructions :=
      adds_sublist ((List.take_sublist _ _).trans (List.drop_sublist _ _))
    have : t.stack.length + t.altstack.length ≤ 0 + 0 + adds ((sig.instructions.drop 0).take tr.length) := this
    omega
  · intro u x r e2 hu
    obtain ⟨is, i, hpub, hop⟩ := hlast
    obtain ⟨v, r', hv⟩ := equal_last (s := start pub t.stack flags) hpub rfl hop e2
    rw [hu] at hv
    cases hv
    cases v <;> decide

/-- A hash lock: `<01 02 03> | SHA256 <digest> EQUAL`, and with another preimage. -/
example : ∀ b ∈ [([1, 2, 3] : Bytes), [1, 2, 4]],
    (prog [.inr b]).WellFormed ∧ (prog [.inl 168, .inr (Hashes.toy.sha256 [1, 2, 3]), .inl 135]).WellFormed ∧
    ¬ (prog [.inr b]).HasPushData ∧ ¬ (prog [.inl 168, .inr (Hashes.toy.sha256 [1, 2, 3]), .inl 135]).HasPushData ∧
    (∀ i ∈ (prog [.inr b]).instructions ++ (prog [.inl 168, .inr (Hashes.toy.sha256 [1, 2, 3]), .inl 135]).instructions,
      Simple 0 i) ∧
    (verify Hashes.toy {} (prog [.inr b]) (prog [.inl 168, .inr (Hashes.toy.sha256 [1, 2, 3]), .inl 135])).1 =
      .ok (Hashes.toy.sha256 b == Hashes.toy.sha256 [1, 2, 3]) := by
  unfold Script.WellFormed Script.HasPushData
  decide +kernel

/-- `verify` accepts, and the reference client does not even if every signature is valid. -/
def WrongAccept (flags : Nat) (sig pub : List (Nat ⊕ Bytes)) : Prop :=
  (prog sig).WellFormed ∧ (prog pub).WellFormed ∧ (verify Hashes.real {} (prog sig) (prog pub) flags).1 = .ok true ∧
  Ref.verify Hashes.real accept flags (prog sig).wires (prog pub).wires = false

/-- The reference client accepts even if no signature is valid, and `verify` does not. -/
def WrongReject (flags : Nat) (sig pub : List (Nat ⊕ Bytes)) : Prop :=
  (prog sig).WellFormed ∧ (prog pub).WellFormed ∧ (verify Hashes.real {} (prog sig) (prog pub) flags).1 ≠ .ok true ∧
  Ref.verify Hashes.real refuse flags (prog sig).wires (prog pub).wires = true

instance (flags : Nat) (sig pub : List (Nat ⊕ Bytes)) : Decidable (WrongAccept flags sig pub) := by
  unfold WrongAccept Script.WellFormed; infer_instance
instance (flags : Nat) (sig pub : List (Nat ⊕ Bytes)) : Decidable (WrongReject flags sig pub) := by
  unfold WrongReject Script.WellFormed; infer_instance

/-- C80 is false of the code: it accepts `1 0 | 1 DROP` (OP_DROP drops two), `1 <00 01> | NOTIF ELSE RETURN ENDIF` (the
number 256 counts as false), `1 <00 01> | IF RETURN ENDIF` (the same), `<00 01> | IFDUP DEPTH 1 NUMEQUAL` (the same),
`1 0 | ABS VERIFY` (the absolute value of anything is 1), and 1001 times `1` before
`2DROP` (the limit on the stack holds only at the end of a script); the reference client accepts none of these. -/
theorem C80_false_accept_refuted :
    WrongAccept 0 [.inl 81, .inl 0] [.inl 81, .inl 117] ∧
    WrongAccept 0 [.inl 81, .inr [0, 1]] [.inl 100, .inl 103, .inl 106, .inl 104] ∧
    WrongAccept 0 [.inl 81, .inr [0, 1]] [.inl 99, .inl 106, .inl 104] ∧
    WrongAccept 0 [.inr [0, 1]] [.inl 115, .inl 116, .inl 81, .inl 156] ∧
    WrongAccept 0 [.inl 81, .inl 0] [.inl 144, .inl 105] ∧
    WrongAccept 0 [] (List.replicate 1001 (.inl 81) ++ [.inl 109]) := by
  refine ⟨?_, ?_, ?_, ?_, ?_, ?_⟩ <;> decide +kernel

/-- C80 is false of the code: it refuses 256 as the result, a number of four bytes as an operand, OP_CHECKLOCKTIMEVERIFY
without its flag (when it is OP_NOP2), OP_HASH160, OP_CHECKSIG followed by OP_NOT, a push of two bytes when pushes have to
be minimal, OP_PUSHDATA1, and OP_DROP of the second of two elements. -/
theorem C80_false_reject_refuted :
    WrongReject 0 [.inr [0, 1]] [] ∧
    WrongReject 0 [.inr [0, 0, 0, 1]] [.inl 139] ∧
    WrongReject 0 [.inl 81] [.inl 177] ∧
    WrongReject 0 [.inl 81] [.inl 169] ∧
    WrongReject 0 [.inl 0, .inl 0] [.inl 172, .inl 145] ∧
    WrongReject 64 [.inr [1, 1]] [] ∧
    WrongReject 0 [.inr (List.replicate 76 1)] [] ∧
    WrongReject 0 [.inl 81, .inl 82] [.inl 117] := by
  refine ⟨?_, ?_, ?_, ?_, ?_, ?_, ?_, ?_⟩ <;> decide +kernel

end Interpreter
end Bitforge
