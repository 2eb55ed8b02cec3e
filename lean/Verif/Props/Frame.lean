import Verif.Props.Flags

/-! # C100, C101: what lies below the stack, and scripts run one after the other -/

namespace Bitforge
namespace Interpreter
open Spec

/-- The second state is the first with `base` below its stack; where it stands in which script does not matter. -/
structure Above (base : List Data) (s s' : State) : Prop where
  stack : s'.stack = s.stack ++ base
  altstack : s'.altstack = s.altstack
  nopCount : s'.nopCount = s.nopCount
  vfExec : s'.vfExec = s.vfExec
  flags : s'.flags = s.flags

/-- If the first goes on so does the second, in the same way. -/
def Carries (base : List Data) (r r' : Res) : Prop := ∀ t, r = .next t → ∃ t', r' = .next t' ∧ Above base t t'

theorem Carries.of_ne {base : List Data} {r r' : Res} (h : ∀ t, r ≠ .next t) : Carries base r r' := fun t ht => absurd ht (h t)

theorem Carries.of_next {base : List Data} {t t' : State} (h : Above base t t') : Carries base (.next t) (.next t') := by
  intro u hu
  cases hu
  exact ⟨t', rfl, h⟩

theorem carries_ite {base : List Data} {c : Prop} [Decidable c] {a b a' b' : Res} (h1 : c → Carries base a a')
    (h2 : ¬ c → Carries base b b') : Carries base (if c then a else b) (if c then a' else b') := by
  by_cases hc : c
  · rw [if_pos hc, if_pos hc]; exact h1 hc
  · rw [if_neg hc, if_neg hc]; exact h2 hc

theorem above_cases {base : List Data} {s s' : State} (h : Above base s s') : ∃ st al nc vf fl pc pb er sc pc' pb' er' sc',
    s = ⟨st, al, pc, pb, nc, vf, er, fl, sc⟩ ∧ s' = ⟨st ++ base, al, pc', pb', nc, vf, er', fl, sc'⟩ := by
  obtain ⟨st, al, pc, pb, nc, vf, er, fl, sc⟩ := s
  obtain ⟨st', al', pc', pb', nc', vf', er', fl', sc'⟩ := s'
  obtain ⟨h1, h2, h3, h4, h5⟩ := h
  simp only at h1 h2 h3 h4 h5
  subst h1 h2 h3 h4 h5
  exact ⟨_, _, _, _, _, _, _, _, _, _, _, _, _, rfl, rfl⟩

theorem opIf_carries {base : List Data} {s s' : State} (ha : Above base s s') (x n : Bool) :
    Carries base (opIf s x n) (opIf s' x n) := by
  obtain ⟨st, al, nc, vf, fl, pc, pb, er, sc, pc', pb', er', sc', rfl, rfl⟩ := above_cases ha
  unfold opIf
  cases x
  · exact .of_next ⟨rfl, rfl, rfl, rfl, rfl⟩
  · cases st with
    | nil => exact .of_ne fun t => fail_ne
    | cons x r => exact .of_next ⟨rfl, rfl, rfl, rfl, rfl⟩

theorem opElse_carries {base : List Data} {s s' : State} (ha : Above base s s') : Carries base (opElse s) (opElse s') := by
  obtain ⟨st, al, nc, vf, fl, pc, pb, er, sc, pc', pb', er', sc', rfl, rfl⟩ := above_cases ha
  unfold opElse
  cases vf with
  | nil => exact .of_ne fun t => fail_ne
  | cons b bs => exact .of_next ⟨rfl, rfl, rfl, rfl, rfl⟩

theorem opEndif_carries {base : List Data} {s s' : State} (ha : Above base s s') : Carries base (opEndif s) (opEndif s') := by
  obtain ⟨st, al, nc, vf, fl, pc, pb, er, sc, pc', pb', er', sc', rfl, rfl⟩ := above_cases ha
  unfold opEndif
  cases vf with
  | nil => exact .of_ne fun t => fail_ne
  | cons b bs => exact .of_next ⟨rfl, rfl, rfl, rfl, rfl⟩

theorem opVerify_carries {base : List Data} {s s' : State} (ha : Above base s s') :
    Carries base (opVerify s) (opVerify s') := by
  obtain ⟨st, al, nc, vf, fl, pc, pb, er, sc, pc', pb', er', sc', rfl, rfl⟩ := above_cases ha
  unfold opVerify
  cases st with
  | nil => exact .of_ne fun t => fail_ne
  | cons x r => exact carries_ite (fun _ => .of_next ⟨rfl, rfl, rfl, rfl, rfl⟩) fun _ => .of_ne fun t => fail_ne

theorem toAltStack_carries {base : List Data} {s s' : State} (ha : Above base s s') :
    Carries base (toAltStack s) (toAltStack s') := by
  obtain ⟨st, al, nc, vf, fl, pc, pb, er, sc, pc', pb', er', sc', rfl, rfl⟩ := above_cases ha
  unfold toAltStack
  cases st with
  | nil => exact .of_ne fun t => fail_ne
  | cons x r => exact .of_next ⟨rfl, rfl, rfl, rfl, rfl⟩

theorem fromAltStack_carries {base : List Data} {s s' : State} (ha : Above base s s') :
    Carries base (fromAltStack s) (fromAltStack s') := by
  obtain ⟨st, al, nc, vf, fl, pc, pb, er, sc, pc', pb', er', sc', rfl, rfl⟩ := above_cases ha
  unfold fromAltStack
  cases al with
  | nil => exact .of_ne fun t => fail_ne
  | cons x r => exact .of_next ⟨rfl, rfl, rfl, rfl, rfl⟩

/-- The stack opcodes but OP_DEPTH and OP_DROP do not see what is below. -/
theorem stackOp_append {op : Nat} {st : List Data} (base : List Data) (h1 : op ≠ 116) (h2 : op ≠ 117) :
    ∀ st', stackOp op st = some st' → stackOp op (st ++ base) = some (st' ++ base) := by
  have ite : ∀ {c : Prop} [Decidable c] {a b a' b' : Option (List Data)}, (∀ st', a = some st' → a' = some (st' ++ base)) →
      (∀ st', b = some st' → b' = some (st' ++ base)) →
      ∀ st', (if c then a else b) = some st' → (if c then a' else b') = some (st' ++ base) := by
    intro c _ a b a' b' ha hb
    by_cases hc : c
    · rw [if_pos hc, if_pos hc]; exact ha
    · rw [if_neg hc, if_neg hc]; exact hb
  unfold stackOp
  rw [if_neg h1, if_neg h1, if_neg h2, if_neg h2]
  repeat' apply ite
  all_goals
    intro st' h
    rcases st with _ | ⟨a, _ | ⟨b, _ | ⟨c, _ | ⟨d, _ | ⟨e, _ | ⟨f, r⟩⟩⟩⟩⟩⟩ <;> first
      | (cases h; done)
      | (cases h; rfl)
      | (cases h; simp only [List.cons_append]; split <;> rfl)

/-- An instruction that may see what is below. -/
def Sees (base : List Data) (op : Nat) : Prop := base ≠ [] ∧ (op = 116 ∨ op = 117)

theorem pickRoll_carries {base : List Data} {s s' : State} (ha : Above base s s') (m r : Bool) :
    Carries base (pickRoll s m r) (pickRoll s' m r) := by
  obtain ⟨st, al, nc, vf, fl, pc, pb, er, sc, pc', pb', er', sc', rfl, rfl⟩ := above_cases ha
  intro t h
  unfold pickRoll at h ⊢
  rcases st with _ | ⟨x, _ | ⟨y, q⟩⟩
  · exact absurd h fail_ne
  · exact absurd h fail_ne
  · simp only [List.cons_append] at h ⊢
    cases hd : decodeScriptNumber x m with
    | error e => rw [hd] at h; cases h
    | ok n =>
      rw [hd] at h
      simp only [] at h ⊢
      rcases ite_next h with ⟨_, h⟩ | ⟨c, h⟩
      · exact absurd h fail_ne
      · simp only [List.length_cons, Nat.cast_add, Nat.cast_one, not_or, not_lt, not_le] at c
        have hlt : n.toNat < (y :: q).length := by simp only [List.length_cons]; omega
        rw [if_neg (by simp only [List.length_cons, List.length_append, Nat.cast_add, Nat.cast_one]; omega)]
        rw [← List.cons_append, List.getElem?_append_left hlt]
        rw [List.getElem?_eq_getElem hlt] at h ⊢
        simp only [] at h ⊢
        cases h
        refine ⟨_, rfl, ?_, rfl, rfl, rfl, rfl⟩
        cases r
        · rfl
        · simp only [if_true, List.cons_append]
          rw [← List.cons_append, List.eraseIdx_append_of_lt_length hlt]

theorem opEqual_carries {base : List Data} {s s' : State} (ha : Above base s s') (v : Bool) :
    Carries base (opEqual s v) (opEqual s' v) := by
  obtain ⟨st, al, nc, vf, fl, pc, pb, er, sc, pc', pb', er', sc', rfl, rfl⟩ := above_cases ha
  unfold opEqual
  rcases st with _ | ⟨x, _ | ⟨y, q⟩⟩
  · exact .of_ne fun t => fail_ne
  · exact .of_ne fun t => fail_ne
  · exact carries_ite (fun _ => carries_ite (fun _ => .of_next ⟨rfl, rfl, rfl, rfl, rfl⟩) fun _ => .of_ne fun t => fail_ne)
      fun _ => .of_next ⟨rfl, rfl, rfl, rfl, rfl⟩

theorem opUnary_carries {base : List Data} {s s' : State} (ha : Above base s s') (m : Bool) (op : Nat) :
    Carries base (opUnary s m op) (opUnary s' m op) := by
  obtain ⟨st, al, nc, vf, fl, pc, pb, er, sc, pc', pb', er', sc', rfl, rfl⟩ := above_cases ha
  unfold opUnary
  cases st with
  | nil => exact .of_ne fun t => fail_ne
  | cons x r =>
    simp only [List.cons_append]
    cases decodeScriptNumber x m with
    | error e => exact .of_ne fun t => by simp
    | ok n => exact .of_next ⟨rfl, rfl, rfl, rfl, rfl⟩

theorem opBinary_carries {base : List Data} {s s' : State} (ha : Above base s s') (m : Bool) (op : Nat) :
    Carries base (opBinary s m op) (opBinary s' m op) := by
  obtain ⟨st, al, nc, vf, fl, pc, pb, er, sc, pc', pb', er', sc', rfl, rfl⟩ := above_cases ha
  unfold opBinary
  rcases st with _ | ⟨x, _ | ⟨y, q⟩⟩
  · exact .of_ne fun t => fail_ne
  · exact .of_ne fun t => fail_ne
  · simp only [List.cons_append]
    cases decodeScriptNumber y m with
    | error e => exact .of_ne fun t => by simp
    | ok a =>
      simp only []
      cases decodeScriptNumber x m with
      | error e => exact .of_ne fun t => by simp
      | ok b =>
        exact carries_ite (fun _ => carries_ite (fun _ => .of_next ⟨rfl, rfl, rfl, rfl, rfl⟩) fun _ => .of_ne fun t => fail_ne)
          fun _ => .of_next ⟨rfl, rfl, rfl, rfl, rfl⟩

theorem opWithin_carries {base : List Data} {s s' : State} (ha : Above base s s') :
    Carries base (opWithin s) (opWithin s') := by
  obtain ⟨st, al, nc, vf, fl, pc, pb, er, sc, pc', pb', er', sc', rfl, rfl⟩ := above_cases ha
  unfold opWithin
  rcases st with _ | ⟨x, _ | ⟨y, _ | ⟨z, q⟩⟩⟩
  · exact .of_ne fun t => fail_ne
  · exact .of_ne fun t => fail_ne
  · exact .of_ne fun t => fail_ne
  · simp only [List.cons_append]
    cases decodeScriptNumber z with
    | error e => exact .of_ne fun t => by simp
    | ok a =>
      simp only []
      cases decodeScriptNumber y with
      | error e => exact .of_ne fun t => by simp
      | ok b =>
        simp only []
        cases decodeScriptNumber x with
        | error e => exact .of_ne fun t => by simp
        | ok c => exact .of_next ⟨rfl, rfl, rfl, rfl, rfl⟩

theorem opHash_carries {H : Hashes} {base : List Data} {s s' : State} (ha : Above base s s') (op : Nat) :
    Carries base (opHash H s op) (opHash H s' op) := by
  obtain ⟨st, al, nc, vf, fl, pc, pb, er, sc, pc', pb', er', sc', rfl, rfl⟩ := above_cases ha
  unfold opHash
  cases st with
  | nil => exact .of_ne fun t => fail_ne
  | cons x r =>
    simp only [List.cons_append]
    cases hashOp H op x.val with
    | error e => exact .of_ne fun t => by simp
    | ok n => exact .of_next ⟨rfl, rfl, rfl, rfl, rfl⟩

theorem checkMultisig_carries {base : List Data} {s s' : State} (ha : Above base s s') (m v : Bool) :
    Carries base (checkMultisig s m v) (checkMultisig s' m v) := by
  obtain ⟨st, al, nc, vf, fl, pc, pb, er, sc, pc', pb', er', sc', rfl, rfl⟩ := above_cases ha
  intro t h
  unfold checkMultisig at h ⊢
  cases st with
  | nil => exact absurd h fail_ne
  | cons x r =>
    simp only [List.cons_append] at h ⊢
    cases hx : decodeScriptNumber x m with
    | error e => rw [hx] at h; cases h
    | ok keys =>
      rw [hx] at h
      simp only [] at h ⊢
      rcases ite_next h with ⟨_, h⟩ | ⟨c1, h⟩
      · exact absurd h fail_ne
      rcases ite_next h with ⟨_, h⟩ | ⟨c2, h⟩
      · exact absurd h fail_ne
      rcases ite_next h with ⟨_, h⟩ | ⟨c3, h⟩
      · exact absurd h fail_ne
      rw [not_not] at c1
      have c3' : ¬ (((x :: (r ++ base)).length : Int) < keys + 2) := by
        simp only [List.length_cons, List.length_append, Nat.cast_add, Nat.cast_one] at c3 ⊢
        omega
      rw [if_neg (not_not.2 c1), if_neg c2, if_neg c3']
      cases hy : (x :: r)[keys.toNat + 1]? with
      | none => rw [hy] at h; cases h
      | some y =>
        rw [hy] at h
        rw [← List.cons_append, List.getElem?_append_left (List.getElem?_eq_some_iff.1 hy).1, hy]
        simp only [] at h ⊢
        cases hn : decodeScriptNumber y m with
        | error e => rw [hn] at h; cases h
        | ok sigs =>
          rw [hn] at h
          simp only [] at h ⊢
          rcases ite_next h with ⟨_, h⟩ | ⟨c4, h⟩
          · exact absurd h fail_ne
          rcases ite_next h with ⟨_, h⟩ | ⟨c5, h⟩
          · exact absurd h fail_ne
          rw [not_not] at c4
          have c5' : ¬ (((x :: r ++ base).length : Int) < keys + sigs + 3) := by
            simp only [List.length_cons, List.length_append, Nat.cast_add, Nat.cast_one] at c5 ⊢
            omega
          rw [if_neg (not_not.2 c4), if_neg c5']
          cases hr : removeAll ⟨.generic, sc.drop pb⟩ (((x :: r).drop (keys.toNat + 2)).take sigs.toNat) with
          | error e => rw [hr] at h; cases h
          | ok u =>
            rw [hr] at h
            simp only [] at h
            rcases ite_next h with ⟨_, h⟩ | ⟨c6, h⟩
            · cases h
            obtain rfl : sigs = 0 := by omega
            have hlen : (0 + keys + 2).toNat ≤ (x :: r).length := by
              simp only [List.length_cons, Nat.cast_add, Nat.cast_one] at c5 ⊢
              omega
            simp only [Int.toNat_zero, List.take_zero, removeAll]
            rw [if_neg c6, List.drop_append_of_le_length hlen]
            cases hk : (x :: r).drop (0 + keys + 2).toNat with
            | nil => rw [hk] at h; exact absurd h fail_ne
            | cons dm q =>
              rw [hk] at h
              simp only [List.cons_append] at h ⊢
              rcases ite_next h with ⟨_, h⟩ | ⟨c7, h⟩
              · exact absurd h fail_ne
              rw [if_neg (show ¬ (flag ⟨dm :: (q ++ base), al, pc', pb', nc + keys, vf, er', fl, sc'⟩ NULLDUMMY = true ∧
                dm.val ≠ []) from c7)]
              cases v <;> (cases h; exact ⟨_, rfl, rfl, rfl, rfl, rfl, rfl⟩)

theorem exec_carries {H : Hashes} {base : List Data} {s s' : State} (ha : Above base s s') {op : Nat} (x : Bool)
    (hn : ¬ Sees base op) : Carries base (exec H s op x) (exec H s' op x) := by
  have hfl : ∀ n, flag s' n = flag s n := fun n => flag_congr ha.flags n
  unfold exec
  simp only [hfl]
  refine carries_ite (fun _ => ?_) fun _ => ?_
  · exact .of_next ⟨by simp [State.push, ha.stack], ha.altstack, ha.nopCount, ha.vfExec, ha.flags⟩
  refine carries_ite (fun _ => .of_next ha) fun _ => ?_
  refine carries_ite (fun _ => .of_ne fun t => checkLockTimeVerify_ne _ _ _) fun _ => ?_
  refine carries_ite (fun _ => carries_ite (fun _ => .of_ne fun t => fail_ne) fun _ => .of_next ha) fun _ => ?_
  refine carries_ite (fun _ => opIf_carries ha _ _) fun _ => ?_
  refine carries_ite (fun _ => opIf_carries ha _ _) fun _ => ?_
  refine carries_ite (fun _ => opElse_carries ha) fun _ => ?_
  refine carries_ite (fun _ => opEndif_carries ha) fun _ => ?_
  refine carries_ite (fun _ => opVerify_carries ha) fun _ => ?_
  refine carries_ite (fun _ => .of_ne fun t => fail_ne) fun _ => ?_
  refine carries_ite (fun _ => toAltStack_carries ha) fun _ => ?_
  refine carries_ite (fun _ => fromAltStack_carries ha) fun _ => ?_
  refine carries_ite (fun _ => ?_) fun _ => ?_
  · cases hs : stackOp op s.stack with
    | none => exact .of_ne fun t => fail_ne
    | some st =>
      have : stackOp op s'.stack = some (st ++ base) := by
        rw [ha.stack]
        by_cases hb : base = []
        · rw [hb, List.append_nil, List.append_nil, hs]
        · exact stackOp_append base (fun h => hn ⟨hb, .inl h⟩) (fun h => hn ⟨hb, .inr h⟩) st hs
      rw [this]
      exact .of_next ⟨rfl, ha.altstack, ha.nopCount, ha.vfExec, ha.flags⟩
  refine carries_ite (fun _ => pickRoll_carries ha _ _) fun _ => ?_
  refine carries_ite (fun _ => pickRoll_carries ha _ _) fun _ => ?_
  refine carries_ite (fun _ => opEqual_carries ha _) fun _ => ?_
  refine carries_ite (fun _ => opEqual_carries ha _) fun _ => ?_
  refine carries_ite (fun _ => opUnary_carries ha _ _) fun _ => ?_
  refine carries_ite (fun _ => opBinary_carries ha _ _) fun _ => ?_
  refine carries_ite (fun _ => opWithin_carries ha) fun _ => ?_
  refine carries_ite (fun _ => opHash_carries ha _) fun _ => ?_
  refine carries_ite (fun _ => .of_next ⟨ha.stack, ha.altstack, ha.nopCount, ha.vfExec, ha.flags⟩) fun _ => ?_
  refine carries_ite (fun _ => .of_ne fun t => checkSig_ne _ _) fun _ => ?_
  refine carries_ite (fun _ => checkMultisig_carries ha _ _) fun _ => ?_
  exact carries_ite (fun _ => checkMultisig_carries ha _ _) fun _ => .of_ne fun t => fail_ne

theorem dispatch_carries {H : Hashes} {base : List Data} {s s' : State} (ha : Above base s s') {i : Instruction}
    (hn : ¬ Sees base (opOf i)) : Carries base (dispatch H s i) (dispatch H s' i) := by
  have hfl : ∀ n, flag s' n = flag s n := fun n => flag_congr ha.flags n
  unfold dispatch
  simp only [hfl, ha.vfExec]
  have hp : ∀ d, Above base (s.push d) (s'.push d) := fun d =>
    ⟨by simp [State.push, ha.stack], ha.altstack, ha.nopCount, ha.vfExec, ha.flags⟩
  refine carries_ite (fun _ => .of_ne fun t => fail_ne) fun _ => ?_
  refine carries_ite (fun _ => carries_ite (fun _ => ?_) fun _ => .of_next (hp _)) fun _ => ?_
  · cases i.isMinimalPush with
    | error e => exact .of_ne fun t => by simp
    | ok b =>
      cases b
      · exact .of_ne fun t => fail_ne
      · exact .of_next (hp _)
  · exact carries_ite (fun _ => exec_carries ha _ hn) fun _ => .of_next ha

/-- `step` of the instruction `i`, wherever it is. -/
def stepOf (H : Hashes) (i : Instruction) (s : State) : Res :=
  if dataLen i > 520 then fail { s with pc := s.pc + 1 } .pushSize
  else if opOf i > 96 ∧ s.nopCount + 1 > 201 then fail (enter s i) .opCount
  else dispatch H (enter s i) i

theorem step_stepOf {H : Hashes} {s : State} {i : Instruction} (h : s.script[s.pc]? = some i) : step H s = stepOf H i s := by
  rw [step_eq, h]
  rfl

theorem enter_above {base : List Data} {s s' : State} (ha : Above base s s') (i : Instruction) :
    Above base (enter s i) (enter s' i) := by
  unfold enter
  split
  · exact ⟨ha.stack, ha.altstack, by simp [ha.nopCount], ha.vfExec, ha.flags⟩
  · exact ⟨ha.stack, ha.altstack, ha.nopCount, ha.vfExec, ha.flags⟩

theorem stepOf_carries {H : Hashes} {base : List Data} {s s' : State} (ha : Above base s s') {i : Instruction}
    (hn : ¬ Sees base (opOf i)) : Carries base (stepOf H i s) (stepOf H i s') := by
  unfold stepOf
  rw [ha.nopCount]
  exact carries_ite (fun _ => .of_ne fun t => fail_ne) fun _ => carries_ite (fun _ => .of_ne fun t => fail_ne) fun _ =>
    dispatch_carries (enter_above ha i) hn

/-- The instructions one after the other. -/
def perform (H : Hashes) : List Instruction → State → Res
  | [], s => .next s
  | i :: is, s => match stepOf H i s with
    | .next t => perform H is t
    | r => r

theorem loop_perform {H : Hashes} : ∀ (l : List Instruction) (s : State), s.script.drop s.pc = l →
    loop H (s.script.length - s.pc) s = perform H l s
  | [], s, h => by
    have h := List.drop_eq_nil_iff.1 h
    rw [Nat.sub_eq_zero_of_le h]
    rfl
  | i :: l, s, h => by
    have hi : s.script[s.pc]? = some i := by
      have := List.getElem?_drop (xs := s.script) (i := s.pc) (j := 0)
      rw [h] at this
      simpa using this.symm
    have hlt := (List.getElem?_eq_some_iff.1 hi).1
    obtain ⟨n, hn⟩ : ∃ n, s.script.length - s.pc = n + 1 := ⟨s.script.length - s.pc - 1, by omega⟩
    rw [hn, loop, if_pos hlt, perform, ← step_stepOf hi]
    cases hs : step H s with
    | next t =>
      obtain ⟨_, st⟩ := step_next hs
      have e1 := st.script
      have e2 := st.pc
      have := loop_perform (H := H) l t (by rw [e1, e2, ← List.drop_drop, h]; rfl)
      rw [e1, e2] at this
      simp only []
      rw [← this]
      congr 1
      omega
    | stop t => rfl
    | raised t e => rfl

theorem perform_append {H : Hashes} (a b : List Instruction) (s : State) : perform H (a ++ b) s = match perform H a s with
    | .next t => perform H b t
    | r => r := by
  induction a generalizing s with
  | nil => rfl
  | cons i a ih =>
    simp only [List.cons_append, perform]
    cases stepOf H i s with
    | next t => exact ih t
    | stop t => rfl
    | raised t e => rfl

theorem perform_carries {H : Hashes} {base : List Data} {s s' : State} (ha : Above base s s') {l : List Instruction}
    (hn : ∀ i ∈ l, ¬ Sees base (opOf i)) : Carries base (perform H l s) (perform H l s') := by
  induction l generalizing s s' with
  | nil => exact .of_next ha
  | cons i l ih =>
    intro t h
    simp only [perform] at h ⊢
    cases hs : stepOf H i s with
    | next u =>
      rw [hs] at h
      obtain ⟨u', hu', hau⟩ := stepOf_carries ha (hn i (by simp)) u hs
      rw [hu']
      exact ih hau (fun j hj => hn j (by simp [hj])) t h
    | stop u => rw [hs] at h; cases h
    | raised u e => rw [hs] at h; cases h

theorem evaluate_perform {H : Hashes} {s t : State} : evaluate H s = (.ok true, t) ↔
    (∃ b, Script.bytesOf s.script = .ok b ∧ b.length ≤ 10000) ∧ perform H (s.script.drop s.pc) s = .next t ∧
      t.stack.length + t.altstack.length ≤ 1000 ∧ t.vfExec = [] := by
  rw [evaluate_ok, ← loop_perform _ s rfl]
  constructor
  · rintro ⟨h1, h2, h3⟩
    exact ⟨h1, loop_det (loop_spec H _ s rfl) h2, h3⟩
  · rintro ⟨h1, h2, h3⟩
    exact ⟨h1, h2 ▸ loop_spec H _ s rfl, h3⟩

/-! ## C100 -/

/-- C100. What a script does to the stack does not depend on what lies below: it does the same on top of anything, if there
is room for it, unless it asks for the depth or has OP_DROP. -/
theorem C100_evaluate_partial {H : Hashes} {s t : State} (h : evaluate H s = (.ok true, t)) (base : List Data)
    (hn : ∀ i ∈ s.script.drop s.pc, opOf i ≠ 116 ∧ opOf i ≠ 117)
    (hl : t.stack.length + base.length + t.altstack.length ≤ 1000) :
    ∃ u, evaluate H { s with stack := s.stack ++ base } = (.ok true, u) ∧ u.stack = t.stack ++ base ∧
      u.altstack = t.altstack := by
  obtain ⟨h1, h2, _, h4⟩ := evaluate_perform.1 h
  obtain ⟨u, hu, ha⟩ := perform_carries (s' := { s with stack := s.stack ++ base }) ⟨rfl, rfl, rfl, rfl, rfl⟩
    (fun i hi hs => by obtain ⟨_, hs⟩ := hs; have := hn i hi; omega) t h2
  refine ⟨u, evaluate_perform.2 ⟨h1, hu, ?_, ha.vfExec.trans h4⟩, ha.stack, ha.altstack⟩
  rw [ha.stack, ha.altstack, List.length_append]
  exact hl

example : (evaluate Hashes.toy (start ⟨.generic, [plain 147, plain 120]⟩ [num 1, num 2, num 5] 0)).1 = .ok true ∧
    (∀ i ∈ (start ⟨.generic, [plain 147, plain 120]⟩ [num 1, num 2, num 5] 0).script, opOf i ≠ 116 ∧ opOf i ≠ 117) := by
  decide +kernel

/-- C100 is false for OP_DROP, which takes a second element if there is one. -/
theorem C100_drop_refuted (H : Hashes) (x y : Data) (base : List Data) (hl : base.length ≤ 1000) :
    (evaluate H (start ⟨.generic, [plain 117]⟩ [x] 0)).1 = .ok true ∧
    (evaluate H (start ⟨.generic, [plain 117]⟩ [x] 0)).2.stack = [] ∧
    (evaluate H (start ⟨.generic, [plain 117]⟩ ([x] ++ y :: base) 0)).1 = .ok true ∧
    (evaluate H (start ⟨.generic, [plain 117]⟩ ([x] ++ y :: base) 0)).2.stack = base := by
  have key : ∀ st : List Data, st.length ≤ 1001 → ∃ t, evaluate H (start ⟨.generic, [plain 117]⟩ (x :: st) 0) = (.ok true, t) ∧
      t.stack = st.drop 1 := by
    intro st hs
    refine ⟨_, evaluate_perform.2 ⟨⟨[117], rfl, by simp⟩, rfl, ?_, rfl⟩, rfl⟩
    show (st.drop 1).length + 0 ≤ 1000
    rw [List.length_drop]
    omega
  obtain ⟨t, h1, h2⟩ := key [] (by simp)
  obtain ⟨u, h3, h4⟩ := key (y :: base) (by simp; omega)
  rw [h1, List.singleton_append, h3]
  exact ⟨rfl, h2, rfl, h4⟩

/-- The instruction pushes a small number: OP_1NEGATE, OP_1 to OP_16. -/
def SmallPush (i : Instruction) : Prop := i.data = none ∧ (opOf i = 79 ∨ 81 ≤ opOf i ∧ opOf i ≤ 96)

theorem small_step {H : Hashes} {s : State} {i : Instruction} (hi : SmallPush i) (hv : s.vfExec = []) :
    stepOf H i s = .next { s with pc := s.pc + 1, stack := num ((opOf i : Int) - 80) :: s.stack } := by
  obtain ⟨hd, ho⟩ := hi
  have hl : dataLen i = 0 := by unfold dataLen; rw [hd]
  unfold stepOf
  rw [if_neg (by omega), if_neg (by omega)]
  have he : enter s i = { s with pc := s.pc + 1 } := by unfold enter; rw [if_neg (by omega)]
  rw [he]
  unfold dispatch
  have hop : i.opcode.number.val = opOf i := rfl
  simp only [hv, hop]
  rw [if_neg (by unfold disabled; simp only [List.mem_cons, List.not_mem_nil, or_false]; omega), if_neg (by omega),
    if_pos (.inl rfl)]
  unfold exec
  rw [if_pos (by omega)]
  simp [State.push]

/-- C100. So a third party can put pushes in front of an input script that is accepted: the pair stays accepted. -/
theorem C100_prepend_partial {H : Hashes} {b u : State} {sig pub : Script} {flags : Nat}
    (h : verify H b sig pub flags = (.ok true, u)) (p : Instruction) (hp : SmallPush p)
    (hn : ∀ i ∈ sig.instructions ++ pub.instructions, opOf i ≠ 116 ∧ opOf i ≠ 117)
    (hb : ∃ b, Script.bytesOf (p :: sig.instructions) = .ok b ∧ b.length ≤ 10000)
    (h1 : ∀ t, evaluate H (start sig [] flags) = (.ok true, t) → t.stack.length + t.altstack.length < 1000)
    (h2 : u.stack.length + u.altstack.length < 1000) :
    ∃ u', verify H b ⟨sig.cls, p :: sig.instructions⟩ pub flags = (.ok true, u') ∧
      u'.stack = u.stack ++ [num ((opOf p : Int) - 80)] := by
  obtain ⟨hpo, h0, t, e1, e2, x, r, hx, hc⟩ := verify_true.1 h
  have hl := h1 t e1
  obtain ⟨_, p1, p2, p3⟩ := evaluate_perform.1 e1
  have hst := small_step (H := H) (s := start ⟨sig.cls, p :: sig.instructions⟩ [] flags) hp rfl
  obtain ⟨t', ht', ha⟩ := perform_carries (s := start sig [] flags) (base := [num ((opOf p : Int) - 80)])
    (s' := { start ⟨sig.cls, p :: sig.instructions⟩ [] flags with pc := 1, stack := [num ((opOf p : Int) - 80)] })
    ⟨rfl, rfl, rfl, rfl, rfl⟩ (l := sig.instructions)
    (fun i hi hs => by have := hn i (by simp [hi]); obtain ⟨_, hs⟩ := hs; omega) t p1
  have g1 : evaluate H (start ⟨sig.cls, p :: sig.instructions⟩ [] flags) = (.ok true, t') := by
    refine evaluate_perform.2 ⟨hb, ?_, ?_, ha.vfExec.trans p3⟩
    · show perform H (p :: sig.instructions) _ = _
      rw [perform, hst]
      exact ht'
    · rw [ha.stack, ha.altstack, List.length_append]
      simp only [List.length_singleton]
      omega
  obtain ⟨u', g2, g3, g4⟩ := C100_evaluate_partial e2 [num ((opOf p : Int) - 80)] (fun i hi => hn i (by
    rw [List.mem_append]
    exact .inr hi)) (by simp only [List.length_singleton]; omega)
  refine ⟨u', verify_true.2 ⟨?_, h0, t', g1, ?_, x, r ++ [num ((opOf p : Int) - 80)], ?_, hc⟩, g3⟩
  · intro hf
    have := hpo hf
    unfold Script.isPushOnly at this ⊢
    rw [List.all_cons, this, Bool.and_true]
    have : opOf p ≤ 96 := by have := hp.2; omega
    exact decide_eq_true this
  · rw [ha.stack]
    exact g2
  · rw [g3, hx]
    rfl

example : (verify Hashes.toy {} ⟨.generic, [plain 81]⟩ ⟨.generic, [plain 82, plain 147, plain 83, plain 135]⟩ 0).1 = .ok true ∧
    (∀ i ∈ [plain 81] ++ [plain 82, plain 147, plain 83, plain 135], opOf i ≠ 116 ∧ opOf i ≠ 117) ∧ SmallPush (plain 85) ∧
    Script.bytesOf (plain 85 :: [plain 81]) = .ok [85, 81] ∧
    (evaluate Hashes.toy (start ⟨.generic, [plain 81]⟩ [] 0)).2.stack.length = 1 := by
  unfold SmallPush
  decide +kernel

/-! ## C101 -/

theorem Above.symm {s s' : State} (h : Above [] s s') : Above [] s' s :=
  ⟨by rw [h.stack, List.append_nil, List.append_nil], h.altstack.symm, h.nopCount.symm, h.vfExec.symm, h.flags.symm⟩

theorem not_sees (op : Nat) : ¬ Sees [] op := fun h => h.1 rfl

theorem loop_iff {H : Hashes} {s t : State} : Loop H s (.next t) ↔ perform H (s.script.drop s.pc) s = .next t := by
  rw [← loop_perform _ s rfl]
  exact ⟨fun h => loop_det (loop_spec H _ s rfl) h, fun h => h ▸ loop_spec H _ s rfl⟩

/-- C101. To evaluate one script after another is to evaluate the first and go on with the second, with the stacks, the
conditionals and the number of operations that the first left behind. -/
theorem C101_sequence (H : Hashes) (s : State) (a b : List Instruction) (st al : List Data) :
    (∃ t, evaluate H { s with script := a ++ b, pc := 0 } = (.ok true, t) ∧ t.stack = st ∧ t.altstack = al) ↔
    (∃ c, Script.bytesOf (a ++ b) = .ok c ∧ c.length ≤ 10000) ∧ st.length + al.length ≤ 1000 ∧
      ∃ t1 t2, Loop H { s with script := a, pc := 0 } (.next t1) ∧ Loop H { t1 with script := b, pc := 0 } (.next t2) ∧
        t2.stack = st ∧ t2.altstack = al ∧ t2.vfExec = [] := by
  simp only [evaluate_perform, loop_iff, List.drop_zero, perform_append]
  constructor
  · rintro ⟨t, ⟨h1, h2, h3, h4⟩, rfl, rfl⟩
    refine ⟨h1, h3, ?_⟩
    cases hp : perform H a { s with script := a ++ b, pc := 0 } with
    | next t1 =>
      rw [hp] at h2
      obtain ⟨t1', g1, g2⟩ := perform_carries (s := { s with script := a ++ b, pc := 0 }) (s' := { s with script := a, pc := 0 })
        (base := []) ⟨(List.append_nil _).symm, rfl, rfl, rfl, rfl⟩ (l := a) (fun i _ => not_sees _) t1 hp
      obtain ⟨t2, g3, g4⟩ := perform_carries (s := t1) (s' := { t1' with script := b, pc := 0 }) (base := [])
        ⟨g2.stack, g2.altstack, g2.nopCount, g2.vfExec, g2.flags⟩ (l := b) (fun i _ => not_sees _) t h2
      exact ⟨t1', t2, g1, g3, by rw [g4.stack, List.append_nil], g4.altstack, g4.vfExec.trans h4⟩
    | stop u => rw [hp] at h2; cases h2
    | raised u e => rw [hp] at h2; cases h2
  · rintro ⟨h1, h3, t1, t2, e1, e2, rfl, rfl, h4⟩
    obtain ⟨t1', g1, g2⟩ := perform_carries (s := { s with script := a, pc := 0 }) (s' := { s with script := a ++ b, pc := 0 })
      (base := []) ⟨(List.append_nil _).symm, rfl, rfl, rfl, rfl⟩ (l := a) (fun i _ => not_sees _) t1 e1
    obtain ⟨t, g3, g4⟩ := perform_carries (s := { t1 with script := b, pc := 0 }) (s' := t1') (base := [])
      ⟨g2.stack, g2.altstack, g2.nopCount, g2.vfExec, g2.flags⟩ (l := b) (fun i _ => not_sees _) t2 e2
    refine ⟨t, ⟨h1, ?_, ?_, g4.vfExec.trans h4⟩, by rw [g4.stack, List.append_nil], g4.altstack⟩
    · rw [g1]; exact g3
    · rw [g4.stack, g4.altstack, List.append_nil]; exact h3

theorem push_step {H : Hashes} {s t : State} {i : Instruction} (hi : opOf i ≤ 96) (hv : s.vfExec = [])
    (h : stepOf H i s = .next t) : ∃ d, t.stack = d :: s.stack ∧ t.altstack = s.altstack ∧ t.nopCount = s.nopCount ∧
      t.vfExec = [] ∧ t.flags = s.flags := by
  obtain ⟨st, al, pc, pb, nc, vf, er, fl, sc⟩ := s
  simp only at hv
  subst hv
  unfold stepOf at h
  rcases ite_next h with ⟨_, h⟩ | ⟨_, h⟩
  · exact absurd h fail_ne
  rw [if_neg (by omega), show enter ⟨st, al, pc, pb, nc, [], er, fl, sc⟩ i = ⟨st, al, pc + 1, pb, nc, [], er, fl, sc⟩ by
    unfold enter; rw [if_neg (by omega)]] at h
  unfold dispatch at h
  have hop : i.opcode.number.val = opOf i := rfl
  simp only [hop] at h
  rcases ite_next h with ⟨_, h⟩ | ⟨_, h⟩
  · exact absurd h fail_ne
  have hpush : ∀ d, Res.next (State.push ⟨st, al, pc + 1, pb, nc, [], er, fl, sc⟩ d) = .next t → ∃ d, t.stack = d :: st ∧
      t.altstack = al ∧ t.nopCount = nc ∧ t.vfExec = [] ∧ t.flags = fl := by
    intro d h
    cases h
    exact ⟨d, rfl, rfl, rfl, rfl, rfl⟩
  rcases ite_next h with ⟨_, h⟩ | ⟨c, h⟩
  · rcases ite_next h with ⟨_, h⟩ | ⟨_, h⟩
    · cases hm : i.isMinimalPush with
      | error e => rw [hm] at h; cases h
      | ok m =>
        rw [hm] at h
        cases m
        · exact absurd h fail_ne
        · exact hpush _ h
    · exact hpush _ h
  · rcases ite_next h with ⟨_, h⟩ | ⟨c', _⟩
    · unfold exec at h
      rcases ite_next h with ⟨_, h⟩ | ⟨c2, h⟩
      · exact hpush _ h
      · have hc : ¬ opOf i ≤ 78 := fun hh => c ⟨rfl, hh⟩
        have h80 : opOf i = 80 := by omega
        rw [h80] at h
        cases h
    · exact absurd (.inl rfl) c'

theorem push_perform {H : Hashes} : ∀ (l : List Instruction) {s t : State}, (∀ i ∈ l, opOf i ≤ 96) → s.vfExec = [] →
    perform H l s = .next t → t.stack.length = s.stack.length + l.length ∧ t.altstack = s.altstack ∧
      t.nopCount = s.nopCount ∧ t.vfExec = [] ∧ t.flags = s.flags
  | [], s, t, _, hv, h => by cases h; exact ⟨rfl, rfl, rfl, hv, rfl⟩
  | i :: l, s, t, hl, hv, h => by
    rw [perform] at h
    cases hs : stepOf H i s with
    | next u =>
      rw [hs] at h
      obtain ⟨d, h1, h2, h3, h4, h5⟩ := push_step (hl i (by simp)) hv hs
      obtain ⟨g1, g2, g3, g4, g5⟩ := push_perform l (fun j hj => hl j (by simp [hj])) h4 h
      refine ⟨?_, g2.trans h2, g3.trans h3, g4, g5.trans h5⟩
      rw [g1, h1, List.length_cons, List.length_cons]
      omega
    | stop u => rw [hs] at h; cases h
    | raised u e => rw [hs] at h; cases h

theorem bytesOf_split : ∀ {a b : List Instruction} {c : Bytes}, Script.bytesOf (a ++ b) = .ok c →
    ∃ ca cb, Script.bytesOf a = .ok ca ∧ Script.bytesOf b = .ok cb ∧ c = ca ++ cb
  | [], b, c, h => ⟨[], c, rfl, h, rfl⟩
  | i :: a, b, c, h => by
    rw [List.cons_append, Script.bytesOf] at h
    cases hi : i.toBytes with
    | error e => rw [hi] at h; cases h
    | ok ci =>
      rw [hi] at h
      cases ha : Script.bytesOf (a ++ b) with
      | error e => rw [ha] at h; cases h
      | ok c' =>
        rw [ha] at h
        cases h
        obtain ⟨ca, cb, h1, h2, rfl⟩ := bytesOf_split ha
        exact ⟨ci ++ ca, cb, by simp only [Script.bytesOf, hi, h1], h2, (List.append_assoc _ _ _).symm⟩

/-- C101. `verify` runs the two scripts apart.  For an input script that only pushes it is the same as running them
together, as one script that has to end with true on top. -/
theorem C101_push_only (H : Hashes) (b : State) (sig pub : Script) (flags : Nat) (hp : sig.isPushOnly = true)
    (hn : sig.instructions.length ≤ 1000)
    (hb : ∃ c, Script.bytesOf (sig.instructions ++ pub.instructions) = .ok c ∧ c.length ≤ 10000)
    (hf : flags.testBit 0 = false) :
    (verify H b sig pub flags).1 = .ok true ↔
      ∃ t x r, evaluate H (start ⟨.generic, sig.instructions ++ pub.instructions⟩ [] flags) = (.ok true, t) ∧
        t.stack = x :: r ∧ castToBool x.val = true := by
  obtain ⟨c, hc, hcl⟩ := hb
  obtain ⟨ca, cb, hca, hcb, rfl⟩ := bytesOf_split hc
  rw [List.length_append] at hcl
  have hpo : ∀ i ∈ sig.instructions, opOf i ≤ 96 := by
    unfold Script.isPushOnly at hp
    rw [List.all_eq_true] at hp
    exact fun i hi => of_decide_eq_true (hp i hi)
  constructor
  · intro h
    obtain ⟨_, _, t, e1, e2, x, r, hx, hxc⟩ := verify_true.1
      (show verify H b sig pub flags = (.ok true, (verify H b sig pub flags).2) by rw [← h])
    obtain ⟨_, p1, _, p3⟩ := evaluate_perform.1 e1
    obtain ⟨_, q1, q2, q3⟩ := evaluate_perform.1 e2
    obtain ⟨t', g1, g2⟩ := perform_carries (s := start sig [] flags)
      (s' := start ⟨.generic, sig.instructions ++ pub.instructions⟩ [] flags) (base := []) ⟨rfl, rfl, rfl, rfl, rfl⟩
      (l := sig.instructions) (fun i _ => not_sees _) t p1
    obtain ⟨_, f2, f3, f4, f5⟩ := push_perform _ hpo rfl g1
    obtain ⟨u, g3, g4⟩ := perform_carries (s := start pub t.stack flags) (s' := t') (base := [])
      ⟨g2.stack, f2, f3, f4, f5⟩ (l := pub.instructions) (fun i _ => not_sees _) _ q1
    refine ⟨u, x, r, evaluate_perform.2 ⟨⟨_, hc, by rw [List.length_append]; exact hcl⟩, ?_, ?_, g4.vfExec.trans q3⟩,
      by rw [g4.stack, List.append_nil, hx], hxc⟩
    · show perform H (sig.instructions ++ pub.instructions) _ = _
      rw [perform_append, g1]
      exact g3
    · rw [g4.stack, g4.altstack, List.append_nil]; exact q2
  · rintro ⟨t, x, r, e, hx, hxc⟩
    obtain ⟨_, p1, p2, p3⟩ := evaluate_perform.1 e
    change perform H (sig.instructions ++ pub.instructions) _ = _ at p1
    rw [perform_append] at p1
    cases hq : perform H sig.instructions (start ⟨.generic, sig.instructions ++ pub.instructions⟩ [] flags) with
    | next t1 =>
      rw [hq] at p1
      obtain ⟨f1, f2, f3, f4, f5⟩ := push_perform _ hpo rfl hq
      obtain ⟨t1', g1, g2⟩ := perform_carries (s := start ⟨.generic, sig.instructions ++ pub.instructions⟩ [] flags)
        (s' := start sig [] flags) (base := []) ⟨rfl, rfl, rfl, rfl, rfl⟩
        (l := sig.instructions) (fun i _ => not_sees _) t1 hq
      obtain ⟨u, g3, g4⟩ := perform_carries (s := t1) (s' := start pub t1'.stack flags) (base := [])
        ⟨g2.stack, f2.symm, f3.symm, f4.symm, f5.symm⟩ (l := pub.instructions) (fun i _ => not_sees _) _ p1
      have : verify H b sig pub flags = (.ok true, u) := by
        refine verify_true.2 ⟨fun _ => hp, hf, t1', evaluate_perform.2 ⟨⟨ca, hca, by omega⟩, g1, ?_, g2.vfExec.trans f4⟩,
          evaluate_perform.2 ⟨⟨cb, hcb, by omega⟩, g3, ?_, g4.vfExec.trans p3⟩, x, r,
          by rw [g4.stack, List.append_nil, hx], hxc⟩
        · rw [g2.stack, g2.altstack, f2, List.append_nil, f1]
          show 0 + sig.instructions.length + 0 ≤ 1000
          omega
        · rw [g4.stack, g4.altstack, List.append_nil]; exact p2
      rw [this]
    | stop u => rw [hq] at p1; cases p1
    | raised u e => rw [hq] at p1; cases p1

example : (⟨.generic, [plain 81, plain 82]⟩ : Script).isPushOnly = true ∧
    Script.bytesOf ([plain 81, plain 82] ++ [plain 147, plain 83, plain 135]) = .ok [81, 82, 147, 83, 135] ∧
    (verify Hashes.toy {} ⟨.generic, [plain 81, plain 82]⟩ ⟨.generic, [plain 147, plain 83, plain 135]⟩ 0).1 = .ok true := by
  decide +kernel

/-- C101. For others it is not the same: neither the alternative stack nor an open conditional passes from the input script
to the output script. -/
theorem C101_apart (H : Hashes) (b : State) :
    (∃ sig pub : Script, (evaluate H (start ⟨.generic, sig.instructions ++ pub.instructions⟩ [] 0)).1 = .ok true ∧
      (verify H b sig pub 0).1 = .ok false ∧ ∃ i ∈ sig.instructions, opOf i = 107) ∧
    (∃ sig pub : Script, (evaluate H (start ⟨.generic, sig.instructions ++ pub.instructions⟩ [] 0)).1 = .ok true ∧
      (verify H b sig pub 0).1 = .ok false ∧ ∃ i ∈ sig.instructions, opOf i = 99) := by
  have key : ∀ (sig pub : Script), Hashless sig.instructions → Hashless pub.instructions →
      (evaluate Hashes.toy (start ⟨.generic, sig.instructions ++ pub.instructions⟩ [] 0)).1 = .ok true ∧
      (verify Hashes.toy {} sig pub 0).1 = .ok false →
      (evaluate H (start ⟨.generic, sig.instructions ++ pub.instructions⟩ [] 0)).1 = .ok true ∧
      (verify H b sig pub 0).1 = .ok false := by
    intro sig pub h1 h2 h
    rw [verify_hashless (H' := Hashes.toy) h1 h2 (f := 0), evaluate_hashless (H' := Hashes.toy)]
    · exact h
    · intro i hi
      rcases List.mem_append.1 hi with hi | hi
      · exact h1 i hi
      · exact h2 i hi
  constructor
  · obtain ⟨h1, h2⟩ := key ⟨.generic, [plain 81, plain 107]⟩ ⟨.generic, [plain 108]⟩ (by unfold Hashless; decide)
      (by unfold Hashless; decide) (by decide +kernel)
    exact ⟨_, _, h1, h2, plain 107, by decide, rfl⟩
  · obtain ⟨h1, h2⟩ := key ⟨.generic, [plain 81, plain 0, plain 99]⟩ ⟨.generic, [plain 106, plain 104]⟩
      (by unfold Hashless; decide) (by unfold Hashless; decide) (by decide +kernel)
    exact ⟨_, _, h1, h2, plain 99, by decide, rfl⟩

end Interpreter
end Bitforge
