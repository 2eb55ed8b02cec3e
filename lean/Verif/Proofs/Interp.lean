import Verif.Spec.Interp
import Verif.Props.Template

/-! # Lemmas about the script interpreter -/

namespace Bitforge
namespace Interpreter
open Spec

/-- What no opcode changes. -/
def Same (s t : State) : Prop := t.script = s.script ∧ t.pc = s.pc ∧ t.flags = s.flags ∧ t.errstr = s.errstr

theorem executing_iff (s : State) : (!s.vfExec.contains false) = true ↔ Executing s := by
  unfold Executing
  simp

theorem fail_ne {s t : State} {e : ErrStr} : fail s e ≠ .next t := by simp [fail]

theorem flag_congr {s t : State} (h : t.flags = s.flags) (n : Nat) : flag t n = flag s n := by unfold flag; rw [h]

/-- Opcodes that are neither conditionals nor multisig keep the conditionals and the count. -/
def Keeps (s t : State) : Prop := Same s t ∧ t.vfExec = s.vfExec ∧ t.nopCount = s.nopCount

theorem keeps_stack (s : State) (st al : List Data) : Keeps s { s with stack := st, altstack := al } :=
  ⟨⟨rfl, rfl, rfl, rfl⟩, rfl, rfl⟩

theorem checkLockTimeVerify_ne (s t : State) (m : Bool) : checkLockTimeVerify s m ≠ .next t := by
  unfold checkLockTimeVerify
  split
  · exact fail_ne
  · split
    · exact fail_ne
    · split
      · simp
      · split <;> exact fail_ne

theorem removeOpcodeByData_error (sc : Script) (d : Data) : ∃ e, sc.removeOpcodeByData d = .error e := by
  unfold Script.removeOpcodeByData
  split <;> exact ⟨_, rfl⟩

theorem checkSig_ne (s t : State) : checkSig s ≠ .next t := by
  unfold checkSig
  split
  · split <;> simp
  · exact fail_ne

theorem opVerify_keeps {s t : State} (h : opVerify s = .next t) : Keeps s t := by
  unfold opVerify at h
  split at h
  · exact absurd h fail_ne
  · split at h
    · cases h; exact keeps_stack s _ _
    · exact absurd h fail_ne

theorem toAltStack_keeps {s t : State} (h : toAltStack s = .next t) : Keeps s t := by
  unfold toAltStack at h
  split at h
  · exact absurd h fail_ne
  · cases h; exact keeps_stack s _ _

theorem fromAltStack_keeps {s t : State} (h : fromAltStack s = .next t) : Keeps s t := by
  unfold fromAltStack at h
  split at h
  · exact absurd h fail_ne
  · cases h; exact keeps_stack s _ _

theorem pickRoll_keeps {s t : State} {m r : Bool} (h : pickRoll s m r = .next t) : Keeps s t := by
  unfold pickRoll at h
  split at h
  · simp only [] at h
    split at h
    · cases h
    · split at h
      · exact absurd h fail_ne
      · split at h
        · cases h
        · cases h; exact keeps_stack s _ _
  · exact absurd h fail_ne

theorem opEqual_keeps {s t : State} {v : Bool} (h : opEqual s v = .next t) : Keeps s t := by
  unfold opEqual at h
  split at h
  · simp only [] at h
    split at h
    · split at h
      · cases h; exact keeps_stack s _ _
      · exact absurd h fail_ne
    · cases h; exact keeps_stack s _ _
  · exact absurd h fail_ne

theorem opUnary_keeps {s t : State} {m : Bool} {op : Nat} (h : opUnary s m op = .next t) : Keeps s t := by
  unfold opUnary at h
  split at h
  · exact absurd h fail_ne
  · split at h
    · cases h
    · cases h; exact keeps_stack s _ _

theorem opBinary_keeps {s t : State} {m : Bool} {op : Nat} (h : opBinary s m op = .next t) : Keeps s t := by
  unfold opBinary at h
  split at h
  · split at h
    · cases h
    · split at h
      · cases h
      · simp only [] at h
        split at h
        · split at h
          · cases h; exact keeps_stack s _ _
          · exact absurd h fail_ne
        · cases h; exact keeps_stack s _ _
  · exact absurd h fail_ne

theorem opWithin_keeps {s t : State} (h : opWithin s = .next t) : Keeps s t := by
  unfold opWithin at h
  split at h
  · split at h
    · cases h
    · split at h
      · cases h
      · split at h
        · cases h
        · cases h; exact keeps_stack s _ _
  · exact absurd h fail_ne

theorem opHash_keeps {H : Hashes} {s t : State} {op : Nat} (h : opHash H s op = .next t) : Keeps s t := by
  unfold opHash at h
  split at h
  · exact absurd h fail_ne
  · split at h
    · cases h
    · cases h; exact keeps_stack s _ _

theorem removeAll_ok {sc : Script} {l : List Data} {u : Unit} (h : removeAll sc l = .ok u) : l = [] := by
  cases l with
  | nil => rfl
  | cons d ds =>
    obtain ⟨e, he⟩ := removeOpcodeByData_error sc d
    simp only [removeAll, he] at h
    cases h

/-- A multisig opcode that does not fail asks for no signatures. -/
theorem checkMultisig_next {s t : State} {v : Bool} (h : checkMultisig s (flag s MINIMALDATA) v = .next t) :
    Same s t ∧ t.vfExec = s.vfExec ∧ t.altstack = s.altstack ∧ t.nopCount = s.nopCount + keysOf s ∧ t.nopCount ≤ 201 ∧
      0 ≤ keysOf s ∧ keysOf s ≤ 20 ∧
      ∃ y r dummy, s.stack[(keysOf s).toNat + 1]? = some y ∧ decodeScriptNumber y (flag s MINIMALDATA) = .ok 0 ∧
        s.stack.drop ((keysOf s).toNat + 2) = dummy :: r ∧ (flag s NULLDUMMY = true → dummy.val = []) ∧
        t.stack = (if v then r else boolBytes true :: r) := by
  unfold checkMultisig at h
  split at h
  · exact absurd h fail_ne
  · next x rest hst =>
    split at h
    · cases h
    · next keys hk =>
      have hko : keysOf s = keys := by unfold keysOf; simp only [hst, hk]
      split at h
      · exact absurd h fail_ne
      · next hr =>
        simp only [] at h
        split at h
        · exact absurd h fail_ne
        · next hn =>
          split at h
          · exact absurd h fail_ne
          · split at h
            · cases h
            · next y hy =>
              split at h
              · cases h
              · next sigs hsigs =>
                split at h
                · exact absurd h fail_ne
                · next hs =>
                  split at h
                  · exact absurd h fail_ne
                  · split at h
                    · cases h
                    · split at h
                      · cases h
                      · next hpos =>
                        have h0 : sigs = 0 := by omega
                        subst h0
                        split at h
                        · exact absurd h fail_ne
                        · next dummy r hd =>
                          have e : (0 + keys + 2).toNat = keys.toNat + 2 := by omega
                          rw [e] at hd
                          split at h
                          · exact absurd h fail_ne
                          · next hnd =>
                            have hfl : flag s NULLDUMMY = true → dummy.val = [] := by
                              intro hf
                              by_contra hne
                              exact hnd ⟨hf, hne⟩
                            rw [hko]
                            split at h
                            · next hv =>
                              cases h
                              exact ⟨⟨rfl, rfl, rfl, rfl⟩, rfl, rfl, rfl, by simpa using hn, by omega, by omega,
                                y, r, dummy, hy, hsigs, hd, hfl, by simp [hv]⟩
                            · next hv =>
                              cases h
                              exact ⟨⟨rfl, rfl, rfl, rfl⟩, rfl, rfl, rfl, by simpa using hn, by omega, by omega,
                                y, r, dummy, hy, hsigs, hd, hfl, by simp [hv]⟩

theorem ite_next {c : Prop} [Decidable c] {a b : Res} {t : State} (h : (if c then a else b) = .next t) :
    (c ∧ a = .next t) ∨ (¬ c ∧ b = .next t) := by
  by_cases hc : c
  · rw [if_pos hc] at h; exact .inl ⟨hc, h⟩
  · rw [if_neg hc] at h; exact .inr ⟨hc, h⟩

/-- Effect on the conditionals of an opcode that does not fail. -/
def VfStep (op : Nat) (v w : List Bool) : Prop :=
  if op = 99 ∨ op = 100 then ∃ b, w = b :: v ∧ (false ∈ v → b = false)
  else if op = 103 then ∃ b bs, v = b :: bs ∧ w = (!b) :: bs
  else if op = 104 then ∃ b, v = b :: w
  else w = v

theorem exec_next {H : Hashes} {s t : State} {op : Nat} {f : Bool} (hf : f = true ↔ Executing s)
    (h : exec H s op f = .next t) : Same s t ∧ VfStep op s.vfExec t.vfExec ∧
      (op ≠ 174 ∧ op ≠ 175 → t.nopCount = s.nopCount) ∧
      (op = 174 ∨ op = 175 → t.nopCount = s.nopCount + keysOf s ∧ t.nopCount ≤ 201) := by
  have plain : ¬ (op = 99 ∨ op = 100) → op ≠ 103 → op ≠ 104 → op ≠ 174 → op ≠ 175 → Keeps s t →
      Same s t ∧ VfStep op s.vfExec t.vfExec ∧ (op ≠ 174 ∧ op ≠ 175 → t.nopCount = s.nopCount) ∧
      (op = 174 ∨ op = 175 → t.nopCount = s.nopCount + keysOf s ∧ t.nopCount ≤ 201) := by
    intro h1 h2 h3 h4 h5 hk
    refine ⟨hk.1, ?_, fun _ => hk.2.2, fun h => by omega⟩
    unfold VfStep
    rw [if_neg h1, if_neg h2, if_neg h3]
    exact hk.2.1
  have hif : ∀ b, opIf s f b = .next t → Same s t ∧ (∃ b, t.vfExec = b :: s.vfExec ∧ (false ∈ s.vfExec → b = false)) ∧
      t.nopCount = s.nopCount := by
    intro b h
    unfold opIf at h
    split at h
    · next hft =>
      have he := hf.1 hft
      split at h
      · exact absurd h fail_ne
      · cases h; exact ⟨⟨rfl, rfl, rfl, rfl⟩, ⟨_, rfl, fun hh => absurd hh he⟩, rfl⟩
    · cases h; exact ⟨⟨rfl, rfl, rfl, rfl⟩, ⟨_, rfl, fun _ => rfl⟩, rfl⟩
  unfold exec at h
  extract_lets at h
  rcases ite_next h with ⟨ho, h⟩ | ⟨ho, h⟩
  · cases h; exact plain (by omega) (by omega) (by omega) (by omega) (by omega) (keeps_stack s _ _)
  rcases ite_next h with ⟨ho, h⟩ | ⟨ho, h⟩
  · cases h; exact plain (by omega) (by omega) (by omega) (by omega) (by omega) (keeps_stack s s.stack s.altstack)
  rcases ite_next h with ⟨ho, h⟩ | ⟨ho, h⟩
  · exact absurd h (checkLockTimeVerify_ne _ _ _)
  rcases ite_next h with ⟨ho, h⟩ | ⟨ho, h⟩
  · split at h
    · exact absurd h fail_ne
    · cases h; exact plain (by omega) (by omega) (by omega) (by omega) (by omega) (keeps_stack s s.stack s.altstack)
  rcases ite_next h with ⟨ho, h⟩ | ⟨ho, h⟩
  · obtain ⟨a, b, c⟩ := hif _ h
    exact ⟨a, by unfold VfStep; rw [if_pos (.inl ho)]; exact b, fun _ => c, by omega⟩
  rcases ite_next h with ⟨ho, h⟩ | ⟨ho, h⟩
  · obtain ⟨a, b, c⟩ := hif _ h
    exact ⟨a, by unfold VfStep; rw [if_pos (.inr ho)]; exact b, fun _ => c, by omega⟩
  rcases ite_next h with ⟨ho, h⟩ | ⟨ho, h⟩
  · unfold opElse at h
    split at h
    · exact absurd h fail_ne
    · next b bs hv =>
      cases h
      refine ⟨⟨rfl, rfl, rfl, rfl⟩, ?_, fun _ => rfl, by omega⟩
      unfold VfStep
      rw [if_neg (by omega), if_pos ho]
      exact ⟨b, bs, hv, rfl⟩
  rcases ite_next h with ⟨ho, h⟩ | ⟨ho, h⟩
  · unfold opEndif at h
    split at h
    · exact absurd h fail_ne
    · next b bs hv =>
      cases h
      refine ⟨⟨rfl, rfl, rfl, rfl⟩, ?_, fun _ => rfl, by omega⟩
      unfold VfStep
      rw [if_neg (by omega), if_neg (by omega), if_pos ho]
      exact ⟨b, hv⟩
  rcases ite_next h with ⟨ho, h⟩ | ⟨ho, h⟩
  · exact plain (by omega) (by omega) (by omega) (by omega) (by omega) (opVerify_keeps h)
  rcases ite_next h with ⟨ho, h⟩ | ⟨ho, h⟩
  · exact absurd h fail_ne
  rcases ite_next h with ⟨ho, h⟩ | ⟨ho, h⟩
  · exact plain (by omega) (by omega) (by omega) (by omega) (by omega) (toAltStack_keeps h)
  rcases ite_next h with ⟨ho, h⟩ | ⟨ho, h⟩
  · exact plain (by omega) (by omega) (by omega) (by omega) (by omega) (fromAltStack_keeps h)
  rcases ite_next h with ⟨ho, h⟩ | ⟨ho, h⟩
  · split at h
    · exact absurd h fail_ne
    · cases h; exact plain (by omega) (by omega) (by omega) (by omega) (by omega) (keeps_stack s _ _)
  rcases ite_next h with ⟨ho, h⟩ | ⟨ho, h⟩
  · exact plain (by omega) (by omega) (by omega) (by omega) (by omega) (pickRoll_keeps h)
  rcases ite_next h with ⟨ho, h⟩ | ⟨ho, h⟩
  · exact plain (by omega) (by omega) (by omega) (by omega) (by omega) (pickRoll_keeps h)
  rcases ite_next h with ⟨ho, h⟩ | ⟨ho, h⟩
  · exact plain (by omega) (by omega) (by omega) (by omega) (by omega) (opEqual_keeps h)
  rcases ite_next h with ⟨ho, h⟩ | ⟨ho, h⟩
  · exact plain (by omega) (by omega) (by omega) (by omega) (by omega) (opEqual_keeps h)
  rcases ite_next h with ⟨ho, h⟩ | ⟨ho, h⟩
  · simp only [List.mem_cons, List.not_mem_nil, or_false] at ho
    exact plain (by omega) (by omega) (by omega) (by omega) (by omega) (opUnary_keeps h)
  rcases ite_next h with ⟨ho, h⟩ | ⟨ho, h⟩
  · simp only [List.mem_cons, List.not_mem_nil, or_false] at ho
    exact plain (by omega) (by omega) (by omega) (by omega) (by omega) (opBinary_keeps h)
  rcases ite_next h with ⟨ho, h⟩ | ⟨ho, h⟩
  · exact plain (by omega) (by omega) (by omega) (by omega) (by omega) (opWithin_keeps h)
  rcases ite_next h with ⟨ho, h⟩ | ⟨ho, h⟩
  · exact plain (by omega) (by omega) (by omega) (by omega) (by omega) (opHash_keeps h)
  rcases ite_next h with ⟨ho, h⟩ | ⟨ho, h⟩
  · cases h
    exact plain (by omega) (by omega) (by omega) (by omega) (by omega) ⟨⟨rfl, rfl, rfl, rfl⟩, rfl, rfl⟩
  rcases ite_next h with ⟨ho, h⟩ | ⟨ho, h⟩
  · exact absurd h (checkSig_ne _ _)
  rcases ite_next h with ⟨ho, h⟩ | ⟨ho, h⟩
  · obtain ⟨a, b, _, c, d, _⟩ := checkMultisig_next h
    refine ⟨a, ?_, by omega, fun _ => ⟨c, d⟩⟩
    unfold VfStep
    rw [if_neg (by omega), if_neg (by omega), if_neg (by omega)]
    exact b
  rcases ite_next h with ⟨ho, h⟩ | ⟨ho, h⟩
  · obtain ⟨a, b, _, c, d, _⟩ := checkMultisig_next h
    refine ⟨a, ?_, by omega, fun _ => ⟨c, d⟩⟩
    unfold VfStep
    rw [if_neg (by omega), if_neg (by omega), if_neg (by omega)]
    exact b
  · exact absurd h fail_ne

/-- The element a push instruction pushes. -/
def pushed (i : Instruction) : Data := match i.data with
  | none => boolBytes false
  | some d => if d.val = [] then boolBytes false else d

/-- The state in which the opcode is executed: the program counter and the number of operations are advanced. -/
def enter (s : State) (i : Instruction) : State :=
  if opOf i > 96 then { s with pc := s.pc + 1, nopCount := s.nopCount + 1 } else { s with pc := s.pc + 1 }

theorem enter_eq (s : State) (i : Instruction) : (enter s i).script = s.script ∧ (enter s i).pc = s.pc + 1 ∧
    (enter s i).flags = s.flags ∧ (enter s i).errstr = s.errstr ∧ (enter s i).vfExec = s.vfExec ∧
    (enter s i).stack = s.stack ∧ (enter s i).altstack = s.altstack ∧ (enter s i).pbegincodehash = s.pbegincodehash ∧
    (enter s i).nopCount = s.nopCount + (if opOf i > 96 then 1 else 0) := by
  unfold enter
  split <;> simp

theorem step_eq (H : Hashes) (s : State) : step H s = match s.script[s.pc]? with
    | none => .raised s .indexError
    | some i =>
      if dataLen i > 520 then fail { s with pc := s.pc + 1 } .pushSize
      else if opOf i > 96 ∧ s.nopCount + 1 > 201 then fail (enter s i) .opCount
      else dispatch H (enter s i) i := by
  unfold step
  cases s.script[s.pc]? with
  | none => rfl
  | some i =>
    simp only [dataLen, enter, opOf]
    by_cases h : i.opcode.number.val > 96
    · simp only [h, if_true, true_and]; rfl
    · simp only [h, if_false, false_and]; rfl

/-- Opcodes that are not executed and do not fail leave the stacks alone. -/
theorem exec_skip {H : Hashes} {s t : State} {op : Nat} (h1 : 99 ≤ op) (h2 : op ≤ 104)
    (h : exec H s op false = .next t) : t.stack = s.stack ∧ t.altstack = s.altstack ∧ op ≠ 101 ∧ op ≠ 102 := by
  have hi : ∀ b, opIf s false b = .next t → t.stack = s.stack ∧ t.altstack = s.altstack := by
    intro b h; simp only [opIf, Bool.false_eq_true, if_false] at h; cases h; exact ⟨rfl, rfl⟩
  interval_cases op
  · obtain ⟨a, b⟩ := hi false h; exact ⟨a, b, by decide, by decide⟩
  · obtain ⟨a, b⟩ := hi true h; exact ⟨a, b, by decide, by decide⟩
  · exact absurd (show fail s .badOpcode = .next t from h) fail_ne
  · exact absurd (show fail s .badOpcode = .next t from h) fail_ne
  · have h : opElse s = .next t := h
    unfold opElse at h
    split at h
    · exact absurd h fail_ne
    · cases h; exact ⟨rfl, rfl, by decide, by decide⟩
  · have h : opEndif s = .next t := h
    unfold opEndif at h
    split at h
    · exact absurd h fail_ne
    · cases h; exact ⟨rfl, rfl, by decide, by decide⟩

/-- Everything about a step that returns True. -/
structure Stepped (H : Hashes) (s : State) (i : Instruction) (t : State) : Prop where
  fetched : s.script[s.pc]? = some i
  size : dataLen i ≤ 520
  enabled : opOf i ∉ disabled
  script : t.script = s.script
  pc : t.pc = s.pc + 1
  flags : t.flags = s.flags
  errstr : t.errstr = s.errstr
  vf : VfStep (opOf i) s.vfExec t.vfExec
  count : t.nopCount = s.nopCount + cost s i
  limit : opOf i > 96 → t.nopCount ≤ 201
  skipped : ¬ Executing s → t.stack = s.stack ∧ t.altstack = s.altstack ∧ opOf i ≠ 101 ∧ opOf i ≠ 102
  push : Executing s → opOf i ≤ 78 → t.stack = pushed i :: s.stack ∧ t.altstack = s.altstack ∧
    (flag s MINIMALDATA = true → i.isMinimalPush = .ok true)
  run : Executing s → opOf i > 78 → exec H (enter s i) (opOf i) true = .next t

theorem step_next {H : Hashes} {s t : State} (h : step H s = .next t) : ∃ i, Stepped H s i t := by
  rw [step_eq] at h
  cases hi : s.script[s.pc]? with
  | none => rw [hi] at h; cases h
  | some i =>
    rw [hi] at h
    simp only [] at h
    rcases ite_next h with ⟨_, h⟩ | ⟨hsz, h⟩
    · exact absurd h fail_ne
    rcases ite_next h with ⟨_, h⟩ | ⟨hlim, h⟩
    · exact absurd h fail_ne
    refine ⟨i, ?_⟩
    obtain ⟨e1, e2, e3, e4, e5, e6, e7, e8, e9⟩ := enter_eq s i
    have hexe : Executing (enter s i) ↔ Executing s := by unfold Executing; rw [e5]
    have hkeys : keysOf (enter s i) = keysOf s := by unfold keysOf flag; rw [e6, e3]
    have hfx := executing_iff (enter s i)
    unfold dispatch at h
    extract_lets op fExec pu at h
    have hop : op = opOf i := rfl
    have hfe : fExec = true ↔ Executing s := hfx.trans hexe
    have hpu : pu = .next ((enter s i).push (pushed i)) := rfl
    clear_value op fExec pu
    subst hpu
    subst hop
    rcases ite_next h with ⟨_, h⟩ | ⟨hdis, h⟩
    · exact absurd h fail_ne
    rcases ite_next h with ⟨⟨hf, hle⟩, h⟩ | ⟨hnp, h⟩
    · have hx := hfe.1 hf
      have key : (flag s MINIMALDATA = true → i.isMinimalPush = .ok true) ∧
          t = (enter s i).push (pushed i) := by
        rw [flag_congr e3] at h
        by_cases hm : flag s MINIMALDATA = true
        · simp only [hm, if_true] at h
          split at h
          · cases h
          · cases h
          · next hmin => exact ⟨fun _ => hmin, by cases h; rfl⟩
        · simp only [hm] at h
          exact ⟨fun hh => absurd hh hm, by cases h; rfl⟩
      obtain ⟨hmin, ht⟩ := key
      subst ht
      refine ⟨hi, by omega, hdis, e1, e2, e3, e4, ?_, ?_, by omega, fun hh => absurd hx hh, ?_, by omega⟩
      · unfold VfStep
        rw [if_neg (by omega), if_neg (by omega), if_neg (by omega)]
        exact e5
      · show (enter s i).nopCount = _
        rw [e9, cost, if_neg (show ¬ opOf i > 96 by omega), if_pos (show opOf i ≤ 96 by omega)]
      · intro _ _
        exact ⟨by show _ :: (enter s i).stack = _; rw [e6], e7, hmin⟩
    rcases ite_next h with ⟨hc, h⟩ | ⟨hc, h⟩
    · obtain ⟨⟨f1, f2, f3, f4⟩, g, c1, c2⟩ := exec_next (hfe.trans hexe.symm) h
      rw [e5] at g
      refine ⟨hi, by omega, hdis, f1.trans e1, f2.trans e2, f3.trans e3, f4.trans e4, g, ?_, ?_, ?_, ?_, ?_⟩
      · unfold cost
        by_cases hms : opOf i = 174 ∨ opOf i = 175
        · have hx : Executing s := hfe.1 (by rcases hc with hc | hc; exact hc; omega)
          rw [if_neg (by omega), if_pos ⟨hx, hms⟩, (c2 hms).1, e9, hkeys, if_pos (by omega)]
          ring
        · rw [c1 (by omega), e9]
          by_cases hb : opOf i > 96
          · rw [if_pos hb, if_neg (by omega), if_neg (fun hh => hms hh.2)]
          · rw [if_neg hb, if_pos (by omega)]
      · intro hb
        by_cases hms : opOf i = 174 ∨ opOf i = 175
        · exact (c2 hms).2
        · rw [c1 (by omega), e9, if_pos hb]
          omega
      · intro hx
        have hf : fExec = false := by
          cases hfv : fExec with
          | false => rfl
          | true => exact absurd (hfe.1 hfv) hx
        rw [hf] at h hc
        have hr : 99 ≤ opOf i ∧ opOf i ≤ 104 := by simpa using hc
        obtain ⟨a, b, c, d⟩ := exec_skip hr.1 hr.2 h
        exact ⟨a.trans e6, b.trans e7, c, d⟩
      · intro hx hle
        exact absurd ⟨hfe.2 hx, hle⟩ hnp
      · intro hx _
        rw [← hfe.2 hx]
        exact h
    · have hx : ¬ Executing s := fun hx => hc (.inl (hfe.2 hx))
      cases h
      refine ⟨hi, by omega, hdis, e1, e2, e3, e4, ?_, ?_, ?_, fun _ => ⟨e6, e7, by omega, by omega⟩,
        fun hh => absurd hh hx, fun hh => absurd hh hx⟩
      · unfold VfStep
        rw [if_neg (by omega), if_neg (by omega), if_neg (by omega)]
        exact e5
      · rw [e9, cost]
        by_cases hb : opOf i > 96
        · rw [if_pos hb, if_neg (by omega), if_neg (fun hh => hx hh.1)]
        · rw [if_neg hb, if_pos (by omega)]
      · intro hb
        rw [e9, if_pos hb]
        omega

theorem step_none {H : Hashes} {s : State} (h : ¬ s.pc < s.script.length) : step H s = .raised s .indexError := by
  rw [step_eq, List.getElem?_eq_none (by omega)]

theorem step_lt {H : Hashes} {s t : State} (h : step H s = .next t) : s.pc < s.script.length := by
  by_contra hn
  rw [step_none hn] at h
  cases h

theorem loop_spec (H : Hashes) (n : Nat) (s : State) (hn : s.script.length - s.pc = n) : Loop H s (loop H n s) := by
  induction n generalizing s with
  | zero => exact .done (by omega)
  | succ n ih =>
    have hlt : s.pc < s.script.length := by omega
    simp only [loop, hlt, if_true]
    cases hs : step H s with
    | next t =>
      obtain ⟨i, hi⟩ := step_next hs
      exact .more hlt hs (ih t (by rw [hi.script, hi.pc]; omega))
    | stop t => exact .stop hlt hs
    | raised t e => exact .raised hlt hs

theorem loop_det {H : Hashes} {s : State} {r r' : Res} (h : Loop H s r) (h' : Loop H s r') : r = r' := by
  induction h generalizing r' with
  | done hn => cases h' with
    | done _ => rfl
    | more hl _ _ => exact absurd hl hn
    | stop hl _ => exact absurd hl hn
    | raised hl _ => exact absurd hl hn
  | more hl hs _ ih => cases h' with
    | done hn => exact absurd hl hn
    | more _ hs' h' => rw [hs] at hs'; cases hs'; exact ih h'
    | stop _ hs' => rw [hs] at hs'; cases hs'
    | raised _ hs' => rw [hs] at hs'; cases hs'
  | stop hl hs => cases h' with
    | done hn => exact absurd hl hn
    | more _ hs' h' => rw [hs] at hs'; cases hs'
    | stop _ hs' => rw [hs] at hs'; cases hs'; rfl
    | raised _ hs' => rw [hs] at hs'; cases hs'
  | raised hl hs => cases h' with
    | done hn => exact absurd hl hn
    | more _ hs' h' => rw [hs] at hs'; cases hs'
    | stop _ hs' => rw [hs] at hs'; cases hs'
    | raised _ hs' => rw [hs] at hs'; cases hs'; rfl

theorem loop_runs {H : Hashes} {s : State} {r : Res} (h : Loop H s r) (t : State) (hr : r = .next t) :
    ∃ tr, Runs H s tr t ∧ ¬ t.pc < t.script.length := by
  induction h with
  | done hn => cases hr; exact ⟨[], .nil _, hn⟩
  | more hl hs _ ih =>
    obtain ⟨tr, h1, h2⟩ := ih hr
    exact ⟨_, .cons (List.getElem?_eq_getElem hl) hs h1, h2⟩
  | stop _ _ => cases hr
  | raised _ _ => cases hr

theorem runs_loop {H : Hashes} {s t : State} {tr : List (State × Instruction)} (h : Runs H s tr t)
    (hn : ¬ t.pc < t.script.length) : Loop H s (.next t) := by
  induction h with
  | nil _ => exact .done hn
  | cons _ hs _ ih => exact .more (step_lt hs) hs (ih hn)

/-- What a run without failure does. -/
theorem runs_facts {H : Hashes} {s t : State} {tr : List (State × Instruction)} (h : Runs H s tr t) :
    t.script = s.script ∧ t.flags = s.flags ∧ t.errstr = s.errstr ∧ t.pc = s.pc + tr.length ∧
    tr.map Prod.snd = (s.script.drop s.pc).take tr.length ∧
    t.nopCount = s.nopCount + (tr.map fun p => cost p.1 p.2).sum ∧
    (s.nopCount ≤ 201 → t.nopCount ≤ 201) ∧
    ∀ p ∈ tr, ∃ u, Stepped H p.1 p.2 u ∧ p.1.script = s.script ∧ p.1.flags = s.flags := by
  induction h with
  | nil s => simp
  | @cons s t u i tr hi hs hr ih =>
    obtain ⟨i', st⟩ := step_next hs
    have : i' = i := by have := st.fetched; rw [hi] at this; cases this; rfl
    subst this
    obtain ⟨a, b, c, d, e, f, g, hh⟩ := ih
    refine ⟨a.trans st.script, b.trans st.flags, c.trans st.errstr, ?_, ?_, ?_, ?_, ?_⟩
    · rw [d, st.pc, List.length_cons]; omega
    · have hlt := step_lt hs
      rw [List.map_cons, e, st.script, st.pc, List.drop_eq_getElem_cons hlt, List.length_cons, List.take_succ_cons]
      congr 1
      rw [List.getElem?_eq_getElem hlt] at hi
      cases hi; rfl
    · rw [f, st.count, List.map_cons, List.sum_cons]; ring
    · intro hs
      apply g
      by_cases hop : opOf i' > 96
      · exact st.limit hop
      · rw [st.count, cost, if_pos (by omega)]; omega
    · intro p hp
      rcases List.mem_cons.1 hp with rfl | hp
      · exact ⟨t, st, rfl, rfl⟩
      · obtain ⟨v, hv, h1, h2⟩ := hh p hp
        exact ⟨v, hv, h1.trans st.script, h2.trans st.flags⟩

theorem evaluate_ok {H : Hashes} {s t : State} : evaluate H s = (.ok true, t) ↔
    (∃ b, Script.bytesOf s.script = .ok b ∧ b.length ≤ 10000) ∧ Loop H s (.next t) ∧
      t.stack.length + t.altstack.length ≤ 1000 ∧ t.vfExec = [] := by
  have hl := loop_spec H _ s rfl
  unfold evaluate
  cases hb : Script.bytesOf s.script with
  | error e => simp
  | ok b =>
    simp only [Except.ok.injEq, exists_eq_left']
    by_cases hsz : b.length > 10000
    · simp [hsz]
    · simp only [hsz, if_false]
      cases hr : loop H (s.script.length - s.pc) s with
      | raised u e =>
        simp only [Prod.mk.injEq, Except.ok.injEq, Bool.false_eq_true, false_and, false_iff]
        rintro ⟨_, h, _⟩
        rw [hr] at hl
        cases loop_det hl h
      | stop u =>
        simp only [Prod.mk.injEq, Except.ok.injEq, Bool.false_eq_true, false_and, false_iff]
        rintro ⟨_, h, _⟩
        rw [hr] at hl
        cases loop_det hl h
      | next u =>
        rw [hr] at hl
        simp only []
        constructor
        · intro h
          split at h
          · cases h
          · split at h
            · cases h
            · cases h
              exact ⟨by omega, hl, by omega, List.eq_nil_iff_length_eq_zero.2 (by omega)⟩
        · rintro ⟨_, h, h2, h3⟩
          cases loop_det hl h
          rw [if_neg (by omega), if_neg (by rw [h3]; simp)]

theorem verify_eq (H : Hashes) (b : State) (sig pub : Script) (flags : Nat) : verify H b sig pub flags =
    if flags.testBit 5 = true ∧ ¬ sig.isPushOnly = true then
      (.ok false, { start sig [] flags with errstr := some .sigPushonly })
    else match evaluate H (start sig [] flags) with
      | (.error e, s) => (.error e, s)
      | (.ok false, s) => (.ok false, s)
      | (.ok true, s) =>
        match evaluate H (start pub s.stack flags) with
        | (.error e, s) => (.error e, s)
        | (.ok false, s) => (.ok false, s)
        | (.ok true, s) =>
          match s.stack with
          | [] => (.ok false, { s with errstr := some .evalFalseNoResult })
          | x :: _ =>
            if ¬ castToBool x.val then (.ok false, { s with errstr := some .evalFalseInStack })
            else if flag s P2SH then (.error .attributeError, s)
            else (.ok true, s) := rfl

theorem verify_true {H : Hashes} {b u : State} {sig pub : Script} {flags : Nat} :
    verify H b sig pub flags = (.ok true, u) ↔
    (flags.testBit 5 = true → sig.isPushOnly = true) ∧ flags.testBit 0 = false ∧
    ∃ t, evaluate H (start sig [] flags) = (.ok true, t) ∧
      evaluate H (start pub t.stack flags) = (.ok true, u) ∧
      ∃ x r, u.stack = x :: r ∧ castToBool x.val = true := by
  have hf : ∀ (s u : State), evaluate H s = (.ok true, u) → u.flags = s.flags := by
    intro s u h
    obtain ⟨_, h, _⟩ := evaluate_ok.1 h
    obtain ⟨tr, h, _⟩ := loop_runs h u rfl
    exact (runs_facts h).2.1
  rw [verify_eq]
  by_cases hp : flags.testBit 5 = true ∧ ¬ sig.isPushOnly = true
  · rw [if_pos hp]
    simp only [Prod.mk.injEq, Except.ok.injEq, Bool.false_eq_true, false_and, false_iff]
    rintro ⟨h, _⟩
    exact hp.2 (h hp.1)
  · rw [if_neg hp]
    have hp' : (flags.testBit 5 = true → sig.isPushOnly = true) := by
      intro h; by_contra hc; exact hp ⟨h, hc⟩
    rcases he : evaluate H (start sig [] flags) with ⟨r, t⟩
    rcases r with e | r
    · simp
    cases r
    · simp
    simp only []
    rcases he2 : evaluate H (start pub t.stack flags) with ⟨r, v⟩
    have hfl : flags.testBit 0 = flag v P2SH ∨ ∀ u, evaluate H (start pub t.stack flags) ≠ (.ok true, u) := by
      rcases r with e | r
      · right; rw [he2]; simp
      · cases r
        · right; rw [he2]; simp
        · left
          unfold flag
          rw [hf _ _ he2]; rfl
    rw [he2] at hfl
    constructor
    · intro h
      rcases r with e | r
      · cases h
      cases r
      · cases h
      simp only [] at h
      rcases hfl with hfl | hfl
      · split at h
        · cases h
        · next x r hst =>
          split at h
          · cases h
          · next hc =>
            split at h
            · cases h
            · next hp =>
              cases h
              exact ⟨hp', by rw [hfl]; simpa using hp, t, rfl, he2, x, r, hst, by simpa using hc⟩
      · exact absurd rfl (hfl v)
    · rintro ⟨_, h0, t', ht', h2, x, r', hst, hc⟩
      cases ht'
      rw [he2] at h2
      cases h2
      rcases hfl with hfl | hfl
      · simp only [hst, hc, not_true_eq_false, if_false, ← hfl, h0, Bool.false_eq_true]
      · exact absurd rfl (hfl _)

end Interpreter
end Bitforge
