import Verif.Proofs.RefSound

/-! # C80: when what does not fail in the reference client does not fail in the interpreter -/

namespace Bitforge
open Spec
namespace Interpreter

/-- How many numbers an opcode takes from the stack. -/
def operands (op : Nat) : Nat :=
  if op = 121 ∨ op = 122 ∨ op ∈ [139, 140, 143, 144, 145, 146] then 1
  else if op ∈ [147, 148] ∨ 154 ≤ op ∧ op ≤ 164 then 2
  else if op = 165 then 3
  else 0

/-- A number that the interpreter can read: not of four bytes, and not a short `str`. -/
def Readable (d : Data) : Prop := d.val.length ≠ 4 ∧ (d.kind = .str → d.val = [] ∨ 4 < d.val.length)

/-- The instruction is handled like by the reference client.  Besides the conditions for soundness: not OP_HASH160,
not a signature check, not OP_CHECKLOCKTIMEVERIFY, not OP_VERIFY on a number that starts with a zero byte, and numbers that
the interpreter can read; and no push of data when pushes have to be minimal. -/
structure Regular (s : State) (i : Instruction) : Prop where
  sound : Sound s i
  supported : Executing s → opOf i ∉ [169, 172, 173, 174, 175, 177]
  verify : Executing s → opOf i = 105 → ∀ x r, s.stack = x :: r → x.val.head? = some 0 → Ref.truth x.val = false
  numbers : Executing s → ∀ d ∈ s.stack.take (operands (opOf i)), Readable d
  push : Executing s → s.flags.testBit 6 = true → i.data = none

theorem ite_some {α : Type} {c : Prop} [Decidable c] {a b : Option α} {r : α} (h : (if c then a else b) = some r) :
    c ∧ a = some r ∨ ¬ c ∧ b = some r := by
  split at h
  · next hc => exact .inl ⟨hc, h⟩
  · next hc => exact .inr ⟨hc, h⟩

theorem readable {d : Data} {m : Bool} {n : Int} (hd : Readable d) (h : Ref.number m d.val = some n) :
    decodeScriptNumber d m = .ok n := decode_of_number h hd.1 hd.2

theorem exec_unary {H : Hashes} {s : State} {op : Nat} (ho : op ∈ [139, 140, 143, 144, 145, 146]) :
    exec H s op true = opUnary s (s.flags.testBit 6) op := by
  simp only [List.mem_cons, List.not_mem_nil, or_false] at ho
  rcases ho with rfl | rfl | rfl | rfl | rfl | rfl <;> rfl

theorem exec_binary {H : Hashes} {s : State} {op : Nat} (ho : op ∈ [147, 148] ∨ 154 ≤ op ∧ op ≤ 164) :
    exec H s op true = opBinary s (s.flags.testBit 6) op := by
  have ho : op = 147 ∨ op = 148 ∨ op = 154 ∨ op = 155 ∨ op = 156 ∨ op = 157 ∨ op = 158 ∨ op = 159 ∨ op = 160 ∨ op = 161 ∨
      op = 162 ∨ op = 163 ∨ op = 164 := by
    simp only [List.mem_cons, List.not_mem_nil, or_false] at ho; omega
  rcases ho with rfl | rfl | rfl | rfl | rfl | rfl | rfl | rfl | rfl | rfl | rfl | rfl | rfl <;> rfl

theorem rearrange_some {op : Nat} {stack : List Data} {r : List Bytes} (h : Ref.rearrange op (vals stack) = some r) :
    (109 ≤ op ∧ op ≤ 120 ∨ 123 ≤ op ∧ op ≤ 125 ∨ op = 130) ∧ ∃ st, stackOp op stack = some st := by
  unfold Ref.rearrange at h
  split at h
  case h_17 => cases h
  all_goals rename_i hv
  all_goals refine ⟨by omega, ?_⟩
  all_goals try exact ⟨_, rfl⟩
  · match stack, hv with
    | _ :: _ :: _, _ => exact ⟨_, rfl⟩
  · match stack, hv with
    | _ :: _ :: _, _ => exact ⟨_, rfl⟩
  · match stack, hv with
    | _ :: _ :: _ :: _, _ => exact ⟨_, rfl⟩
  · match stack, hv with
    | _ :: _ :: _ :: _ :: _, _ => exact ⟨_, rfl⟩
  · match stack, hv with
    | _ :: _ :: _ :: _ :: _ :: _ :: _, _ => exact ⟨_, rfl⟩
  · match stack, hv with
    | _ :: _ :: _ :: _ :: _, _ => exact ⟨_, rfl⟩
  · match stack, hv with
    | _ :: _, _ => exact ⟨_, rfl⟩
  · match stack, hv with
    | _ :: _, _ => exact ⟨_, rfl⟩
  · match stack, hv with
    | _ :: _, _ => exact ⟨_, rfl⟩
  · match stack, hv with
    | _ :: _ :: _, _ => exact ⟨_, rfl⟩
  · match stack, hv with
    | _ :: _ :: _, _ => exact ⟨_, rfl⟩
  · match stack, hv with
    | _ :: _ :: _ :: _, _ => exact ⟨_, rfl⟩
  · match stack, hv with
    | _ :: _ :: _, _ => exact ⟨_, rfl⟩
  · match stack, hv with
    | _ :: _ :: _, _ => exact ⟨_, rfl⟩
  · match stack, hv with
    | _ :: _, _ => exact ⟨_, rfl⟩

/-- An executed opcode. -/
theorem exec_complete {H : Hashes} {C : Ref.Checker} {s : State} {op : Nat} {after : List WireInstr} {r : Ref.St}
    (hsup : op ∉ [169, 172, 173, 174, 175, 177])
    (hver : op = 105 → ∀ x r, s.stack = x :: r → x.val.head? = some 0 → Ref.truth x.val = false)
    (hnum : ∀ d ∈ s.stack.take (operands op), Readable d)
    (h : Ref.exec H C s.flags op true after (view s) = some r) : ∃ t, exec H s op true = .next t := by
  simp only [List.mem_cons, List.not_mem_nil, or_false, not_or] at hsup
  unfold Ref.exec at h
  extract_lets minimal at h
  have hmin : minimal = s.flags.testBit 6 := rfl
  clear_value minimal
  subst hmin
  rcases ite_some h with ⟨c, h⟩ | ⟨n1, h⟩
  · subst c; exact ⟨_, rfl⟩
  rcases ite_some h with ⟨c, h⟩ | ⟨n2, h⟩
  · exact ⟨_, if_pos (.inr c)⟩
  rcases ite_some h with ⟨c, h⟩ | ⟨n3, h⟩
  · subst c; exact ⟨_, rfl⟩
  rcases ite_some h with ⟨c, h⟩ | ⟨n4, h⟩
  · omega
  rcases ite_some h with ⟨c, h⟩ | ⟨n5, h⟩
  · rcases ite_some h with ⟨c', h⟩ | ⟨c', h⟩
    · cases h
    · refine ⟨s, ?_⟩
      unfold exec
      rw [if_neg (by omega), if_neg (by omega), if_neg (by omega), if_pos c]
      exact if_neg c'
  rcases ite_some h with ⟨c, h⟩ | ⟨n6, h⟩
  · have : ∀ b, ∃ t, opIf s true b = .next t := by
      intro b
      rw [if_pos rfl] at h
      unfold opIf
      cases hs : s.stack with
      | nil => rw [stack_eq hs] at h; cases h
      | cons x r => exact ⟨_, rfl⟩
    rcases c with rfl | rfl
    · exact this false
    · exact this true
  rcases ite_some h with ⟨c, h⟩ | ⟨n7, h⟩
  · subst c
    show ∃ t, opElse s = .next t
    unfold opElse
    cases hs : s.vfExec with
    | nil => rw [show (view s).cond = s.vfExec from rfl, hs] at h; cases h
    | cons x r => exact ⟨_, rfl⟩
  rcases ite_some h with ⟨c, h⟩ | ⟨n8, h⟩
  · subst c
    show ∃ t, opEndif s = .next t
    unfold opEndif
    cases hs : s.vfExec with
    | nil => rw [show (view s).cond = s.vfExec from rfl, hs] at h; cases h
    | cons x r => exact ⟨_, rfl⟩
  rcases ite_some h with ⟨c, h⟩ | ⟨n9, h⟩
  · subst c
    show ∃ t, opVerify s = .next t
    unfold opVerify
    cases hs : s.stack with
    | nil => rw [stack_eq hs] at h; cases h
    | cons x r =>
      rw [stack_eq hs] at h
      have h : (if Ref.truth x.val = true then some _ else none) = some _ := h
      rcases ite_some h with ⟨c', h⟩ | ⟨c', h⟩
      · rw [← cast_eq_truth (hver rfl x r hs)] at c'
        exact ⟨_, if_pos c'⟩
      · cases h
  rcases ite_some h with ⟨c, h⟩ | ⟨n10, h⟩
  · subst c
    show ∃ t, toAltStack s = .next t
    unfold toAltStack
    cases hs : s.stack with
    | nil => rw [stack_eq hs] at h; cases h
    | cons x r => exact ⟨_, rfl⟩
  rcases ite_some h with ⟨c, h⟩ | ⟨n11, h⟩
  · subst c
    show ∃ t, fromAltStack s = .next t
    unfold fromAltStack
    cases hs : s.altstack with
    | nil => rw [show (view s).alt = vals s.altstack from rfl, hs] at h; cases h
    | cons x r => exact ⟨_, rfl⟩
  rcases ite_some h with ⟨c, h⟩ | ⟨n12, h⟩
  · have : ∀ b, ∃ t, pickRoll s (s.flags.testBit 6) b = .next t := by
      intro b
      unfold pickRoll
      match hs : s.stack with
      | [] => rw [stack_eq hs] at h; cases h
      | [x] => rw [stack_eq hs] at h; cases h
      | x :: y :: l =>
        rw [stack_eq hs] at h
        simp only [vals_cons] at h ⊢
        have hx : Readable x := hnum x (by rw [hs, operands, if_pos (by omega)]; simp)
        cases hn : Ref.number (s.flags.testBit 6) x.val with
        | none => rw [hn] at h; cases h
        | some n =>
          rw [hn] at h
          simp only [] at h
          rw [readable hx hn]
          simp only []
          rcases ite_some h with ⟨c', h⟩ | ⟨c', h⟩
          · cases h
          · have hlt : n.toNat < (y :: l).length := by
              by_contra hc
              rw [List.getElem?_eq_none (by
                rw [← vals_cons, vals_length]; omega)] at h
              cases h
            rw [if_neg (by omega), List.getElem?_eq_getElem hlt]
            exact ⟨_, rfl⟩
    rcases c with rfl | rfl
    · exact this false
    · exact this true
  rcases ite_some h with ⟨c, h⟩ | ⟨n13, h⟩
  · match hs : s.stack with
    | [] => rw [stack_eq hs] at h; cases h
    | [x] => rw [stack_eq hs] at h; cases h
    | x :: y :: l =>
      rw [stack_eq hs] at h
      simp only [vals_cons] at h
      rcases c with rfl | rfl
      · show ∃ t, opEqual s false = .next t
        unfold opEqual
        rw [hs]
        exact ⟨_, rfl⟩
      · show ∃ t, opEqual s true = .next t
        unfold opEqual
        rw [hs]
        rcases ite_some h with ⟨_, h⟩ | ⟨c', h⟩
        · rcases ite_some h with ⟨c', h⟩ | ⟨c', h⟩
          · exact ⟨_, if_pos c'⟩
          · cases h
        · exact absurd rfl c'
  rcases ite_some h with ⟨c, h⟩ | ⟨n14, h⟩
  · rw [exec_unary c]
    unfold opUnary
    cases hs : s.stack with
    | nil => rw [stack_eq hs] at h; cases h
    | cons x l =>
      rw [stack_eq hs] at h
      simp only [vals_cons] at h ⊢
      have hx : Readable x := hnum x (by rw [hs, operands, if_pos (.inr (.inr c))]; simp)
      cases hn : Ref.number (s.flags.testBit 6) x.val with
      | none => rw [hn] at h; cases h
      | some n => rw [readable hx hn]; exact ⟨_, rfl⟩
  rcases ite_some h with ⟨c, h⟩ | ⟨n15, h⟩
  · rw [exec_binary c]
    unfold opBinary
    match hs : s.stack with
    | [] => rw [stack_eq hs] at h; cases h
    | [x] => rw [stack_eq hs] at h; cases h
    | x :: y :: l =>
      rw [stack_eq hs] at h
      simp only [vals_cons] at h ⊢
      have hnum : ∀ d ∈ [x, y], Readable d := by
        rw [hs, operands, if_neg (by
          simp only [List.mem_cons, List.not_mem_nil, or_false] at c ⊢; omega), if_pos c] at hnum
        exact hnum
      cases hn : Ref.number (s.flags.testBit 6) y.val with
      | none => rw [hn] at h; cases h
      | some a =>
        cases hm : Ref.number (s.flags.testBit 6) x.val with
        | none => rw [hn, hm] at h; cases h
        | some b =>
          rw [hn, hm] at h
          simp only [] at h
          rw [binary_eq c] at h
          rw [readable (hnum y (by simp)) hn, readable (hnum x (by simp)) hm]
          simp only [] at h ⊢
          rcases ite_some h with ⟨c', h⟩ | ⟨c', h⟩
          · rw [if_pos c']
            subst c'
            rcases ite_some h with ⟨c'', h⟩ | ⟨c'', h⟩
            · refine ⟨_, if_pos ?_⟩
              rw [num_val, cast_eq_truth]
              · exact c''
              · show (Ref.serialize (ofBool (a == b))).head? = some 0 → Ref.truth (Ref.serialize (ofBool (a == b))) = false
                generalize (a == b) = e
                cases e <;> decide
            · cases h
          · rw [if_neg c']
            exact ⟨_, rfl⟩
  rcases ite_some h with ⟨c, h⟩ | ⟨n16, h⟩
  · subst c
    show ∃ t, opWithin s = .next t
    unfold opWithin
    have hless : ∀ {b : Bytes} {n : Int}, Ref.number (s.flags.testBit 6) b = some n → Ref.number false b = some n := by
      intro b n hb
      unfold Ref.number at hb ⊢
      split at hb
      · cases hb
      next hl =>
      rw [if_neg hl, if_neg (by simp)]
      split at hb
      · cases hb
      · exact hb
    match hs : s.stack with
    | [] => rw [stack_eq hs] at h; cases h
    | [x] => rw [stack_eq hs] at h; cases h
    | [x, y] => rw [stack_eq hs] at h; cases h
    | x :: y :: z :: l =>
      rw [stack_eq hs] at h
      simp only [vals_cons] at h ⊢
      have hnum : ∀ d ∈ [x, y, z], Readable d := by
        rw [hs] at hnum
        exact hnum
      cases h1 : Ref.number (s.flags.testBit 6) z.val with
      | none => rw [h1] at h; cases h
      | some a =>
        cases h2 : Ref.number (s.flags.testBit 6) y.val with
        | none => rw [h1, h2] at h; cases h
        | some b =>
          cases h3 : Ref.number (s.flags.testBit 6) x.val with
          | none => rw [h1, h2, h3] at h; cases h
          | some c =>
            rw [readable (hnum z (by simp)) (hless h1), readable (hnum y (by simp)) (hless h2), readable (hnum x (by simp)) (hless h3)]
            exact ⟨_, rfl⟩
  rcases ite_some h with ⟨c, h⟩ | ⟨n17, h⟩
  · have e : exec H s op true = opHash H s op := by
      have c : op = 166 ∨ op = 167 ∨ op = 168 ∨ op = 170 := by omega
      rcases c with rfl | rfl | rfl | rfl <;> rfl
    rw [e]
    unfold opHash
    cases hs : s.stack with
    | nil => rw [stack_eq hs] at h; cases h
    | cons x l =>
      simp only []
      have c : op = 166 ∨ op = 167 ∨ op = 168 ∨ op = 170 := by omega
      rcases c with rfl | rfl | rfl | rfl <;> exact ⟨_, rfl⟩
  rcases ite_some h with ⟨c, h⟩ | ⟨n18, h⟩
  · subst c; exact ⟨_, rfl⟩
  rcases ite_some h with ⟨c, h⟩ | ⟨n19, h⟩
  · omega
  rcases ite_some h with ⟨c, h⟩ | ⟨n20, h⟩
  · omega
  · cases hr : Ref.rearrange op (view s).stack with
    | none => rw [hr] at h; cases h
    | some l =>
      obtain ⟨ho, st, hst⟩ := rearrange_some (show Ref.rearrange op (vals s.stack) = some l from hr)
      have e : exec H s op true = match stackOp op s.stack with
          | none => fail s .invalidStackOperation
          | some stack => .next { s with stack := stack } := by
        unfold exec
        rw [if_neg (by omega), if_neg (by omega), if_neg (by omega), if_neg (by omega), if_neg (by omega), if_neg (by omega),
          if_neg (by omega), if_neg (by omega), if_neg (by omega), if_neg (by omega), if_neg (by omega), if_neg (by omega),
          if_pos ho]
        rfl
      rw [e, hst]
      exact ⟨_, rfl⟩

/-- An opcode of a conditional, in a branch not taken. -/
theorem exec_complete_skip {H : Hashes} {C : Ref.Checker} {s : State} {op : Nat} {after : List WireInstr} {r : Ref.St}
    (h1 : 99 ≤ op) (h2 : op ≤ 104) (h : Ref.exec H C s.flags op false after (view s) = some r) :
    ∃ t, exec H s op false = .next t := by
  interval_cases op
  · exact ⟨_, rfl⟩
  · exact ⟨_, rfl⟩
  · cases h
  · cases h
  · show ∃ t, opElse s = .next t
    unfold opElse
    cases hs : s.vfExec with
    | nil =>
      have h : (match s.vfExec with | [] => none | b :: bs => some _) = some r := h
      rw [hs] at h
      cases h
    | cons x r => exact ⟨_, rfl⟩
  · show ∃ t, opEndif s = .next t
    unfold opEndif
    cases hs : s.vfExec with
    | nil =>
      have h : (match s.vfExec with | [] => none | b :: bs => some _) = some r := h
      rw [hs] at h
      cases h
    | cons x r => exact ⟨_, rfl⟩

/-- One instruction. -/
theorem step_complete {H : Hashes} {C : Ref.Checker} {s : State} {i : Instruction} {after : List WireInstr} {r : Ref.St}
    (hi : s.script[s.pc]? = some i) (hn : 0 ≤ s.nopCount) (hr : Regular s i)
    (h : Ref.act H C s.flags i.wire after (view s) = some r) : ∃ t, step H s = .next t := by
  obtain ⟨e1, e2, e3, e4, e5, e6, e7, e8, e9⟩ := enter_eq s i
  have hdl : (i.wire.2.getD []).length = dataLen i := by
    unfold Instruction.wire dataLen
    cases i.data <;> rfl
  unfold Ref.act at h
  extract_lets op data fExec v at h
  have hop : op = opOf i := rfl
  have hdata : data = i.wire.2.getD [] := rfl
  have hv : v = view (enter s i) := by rw [← view_enter s i hn]; rfl
  have hfe : fExec = true ↔ Executing s := cond_all s
  clear_value op data v fExec
  subst hop hv
  have hops : (view (enter s i)).ops = (s.nopCount + (if opOf i > 96 then 1 else 0)).toNat := by
    show (enter s i).nopCount.toNat = _
    rw [e9]
  rcases ite_some h with ⟨_, h⟩ | ⟨hsz, h⟩
  · cases h
  rcases ite_some h with ⟨_, h⟩ | ⟨hlim, h⟩
  · cases h
  rcases ite_some h with ⟨_, h⟩ | ⟨hdis, h⟩
  · cases h
  rw [hdata, hdl] at hsz
  rw [step_eq, hi]
  simp only []
  rw [if_neg hsz, if_neg (by
    rintro ⟨a, b⟩; apply hlim; refine ⟨a, ?_⟩; rw [hops, if_pos a]; omega)]
  unfold dispatch
  extract_lets op fExec' pu
  have hop : op = opOf i := rfl
  have hexe : Executing (enter s i) ↔ Executing s := by unfold Executing; rw [e5]
  have hfe' : fExec' = fExec := by
    rw [Bool.eq_iff_iff, hfe, ← hexe]
    exact executing_iff (enter s i)
  have hpu : pu = .next ((enter s i).push (pushed i)) := rfl
  clear_value op fExec' pu
  subst hop hfe' hpu
  rw [if_neg (by rw [← ref_disabled]; exact hdis)]
  rcases ite_some h with ⟨c, h⟩ | ⟨c, h⟩
  · rw [if_pos c]
    split
    · next hm =>
      have hd := hr.push (hfe.1 c.1) (by rw [← e3]; exact hm)
      unfold Instruction.isMinimalPush
      rw [hd]
      exact ⟨_, rfl⟩
    · exact ⟨_, rfl⟩
  rw [if_neg c]
  rcases ite_some h with ⟨c', h⟩ | ⟨c', h⟩
  · rw [if_pos c']
    rw [← e3] at h
    cases hfx : fExec' with
    | true =>
      rw [hfx] at h
      have hex := hfe.1 hfx
      refine exec_complete (hr.supported hex) ?_ ?_ h
      · rw [e6]; exact hr.verify hex
      · rw [e6]; exact hr.numbers hex
    | false =>
      rw [hfx] at h c'
      exact exec_complete_skip (by simp at c'; exact c'.1) (by simp at c'; exact c'.2) h
  · rw [if_neg c']
    exact ⟨_, rfl⟩

/-- A run without failure. -/
theorem run_complete {H : Hashes} {C : Ref.Checker} (n : Nat) (s : State) {r : Ref.St}
    (hlen : s.script.length - s.pc = n)
    (hw : ∀ i ∈ s.script, Wf i.wire ∧ ¬ (76 ≤ opOf i ∧ opOf i ≤ 78)) (hn : 0 ≤ s.nopCount)
    (ha : Always H s Regular)
    (h : Ref.run H C s.flags (wiresFrom s.script s.pc) (view s) = some r) :
    ∃ t, Loop H s (.next t) ∧ view t = r ∧ (s.pc < s.script.length → t.stack.length + t.altstack.length ≤ 1000) := by
  induction n generalizing s with
  | zero =>
    have : wiresFrom s.script s.pc = [] := by
      unfold wiresFrom
      rw [List.drop_eq_nil_of_le (by omega)]
      rfl
    rw [this] at h
    cases h
    exact ⟨s, .done (by omega), rfl, by omega⟩
  | succ n ih =>
    have hil : s.pc < s.script.length := by omega
    obtain ⟨i, hi⟩ : ∃ i, s.script[s.pc]? = some i := ⟨_, List.getElem?_eq_getElem hil⟩
    have him : i ∈ s.script := List.mem_of_getElem? hi
    have hd : wiresFrom s.script s.pc = i.wire :: wiresFrom s.script (s.pc + 1) := by
      unfold wiresFrom
      rw [List.drop_eq_getElem?_toList_append, hi]
      rfl
    rw [hd] at h
    unfold Ref.run at h
    have hreg := ha [] s i (.nil _) hi
    cases hact : Ref.act H C s.flags i.wire (wiresFrom s.script (s.pc + 1)) (view s) with
    | none => rw [hact] at h; cases h
    | some v =>
      rw [hact] at h
      simp only [] at h
      obtain ⟨t, ht⟩ := step_complete hi hn hreg hact
      have hsound := step_sound (C := C) ht hi (hw _ him).1 (hw _ him).2 hn hreg.sound.2
      rw [hact] at hsound
      cases hsound
      obtain ⟨i', st⟩ := step_next ht
      have : i' = i := by have := st.fetched; rw [hi] at this; cases this; rfl
      subst this
      rcases ite_some h with ⟨_, h⟩ | ⟨hle, h⟩
      · cases h
      rw [← st.script, ← st.pc, ← st.flags] at h
      obtain ⟨u, hu, hv, hend⟩ := ih t (by rw [st.script, st.pc]; omega) (by rw [st.script]; exact hw) (exec_count hn st)
        (always_next ha hi ht) h
      refine ⟨u, .more hil ht hu, hv, fun _ => ?_⟩
      by_cases hc : t.pc < t.script.length
      · exact hend hc
      · cases hu with
        | done _ =>
          have hle : ¬ (vals t.stack).length + (vals t.altstack).length > 1000 := hle
          rw [vals_length, vals_length] at hle
          omega
        | more hl _ _ => exact absurd hl hc

/-- A script that is evaluated without failure by the reference client. -/
theorem eval_complete {H : Hashes} {C : Ref.Checker} {script : Script} {stack : List Data} {flags : Nat} {r : List Bytes}
    (hw : script.WellFormed) (hp : ¬ script.HasPushData) (ha : Always H (start script stack flags) Regular)
    (hst : stack.length ≤ 1000) (h : Ref.eval H C flags script.wires (vals stack) = some r) :
    ∃ t, evaluate H (start script stack flags) = (.ok true, t) ∧ vals t.stack = r := by
  unfold Ref.eval at h
  rcases ite_some h with ⟨_, h⟩ | ⟨hsz, h⟩
  · cases h
  rcases bytesOf_spec script.instructions hw with ⟨hc, _⟩ | ⟨_, b, hb, henc⟩
  · exact absurd hc hp
  cases hrun : Ref.run H C flags script.wires { stack := vals stack, code := script.wires } with
  | none => rw [hrun] at h; cases h
  | some v =>
    rw [hrun] at h
    simp only [] at h
    rcases ite_some h with ⟨hcond, h⟩ | ⟨_, h⟩
    · cases h
      obtain ⟨t, hl, hv, hend⟩ := run_complete (C := C) _ (start script stack flags) rfl
        (fun i hi => ⟨hw i hi, fun hc => hp ⟨i.wire, List.mem_map_of_mem hi, hc⟩⟩) (le_refl 0) ha hrun
      subst hv
      refine ⟨t, evaluate_ok.2 ⟨⟨b, hb, ?_⟩, hl, ?_, hcond⟩, rfl⟩
      · have := size_spec henc
        unfold Script.wires at hsz
        omega
      · by_cases hc : 0 < script.instructions.length
        · exact hend hc
        · cases hl with
          | done _ => show stack.length + 0 ≤ 1000; omega
          | more hl _ _ => exact absurd hl hc
    · cases h

end Interpreter
end Bitforge
