import Verif.Spec.Interp

/-! # Specification of the reasons for which a script fails -/

namespace Bitforge
namespace Interpreter

/-- The operand is this number. -/
def Reads (s : State) (x : Data) (n : Int) : Prop := decodeScriptNumber x (flag s MINIMALDATA) = .ok n

/-- A multisig opcode is executed, and finds this number of public keys. -/
def Keys (s : State) (op : Nat) (k : Int) : Prop :=
  Executing s ∧ (op = 174 ∨ op = 175) ∧ ∃ x r, s.stack = x :: r ∧ Reads s x k

/-- As many public keys are allowed, and are paid for. -/
def KeysOk (s : State) (op : Nat) (k : Nat) : Prop := Keys s op k ∧ k ≤ 20 ∧ s.nopCount + 1 + k ≤ 201

/-- A multisig opcode is executed, and finds these numbers of public keys and signatures. -/
def Sigs (s : State) (op : Nat) (k : Nat) (n : Int) : Prop :=
  KeysOk s op k ∧ ∃ y, s.stack[k + 1]? = some y ∧ Reads s y n

/-- The number of elements an opcode cannot do without; OP_IF and OP_NOTIF have an error of their own. -/
def needs (op : Nat) : Nat :=
  if op = 105 ∨ op = 107 ∨ op = 115 ∨ op = 117 ∨ op = 118 ∨ op = 130 ∨ op = 139 ∨ op = 140 ∨ 143 ≤ op ∧ op ≤ 146 ∨
    166 ≤ op ∧ op ≤ 170 ∨ op = 174 ∨ op = 175 ∨ op = 177 then 1
  else if op = 109 ∨ op = 110 ∨ 119 ≤ op ∧ op ≤ 122 ∨ op = 124 ∨ op = 125 ∨ op = 135 ∨ op = 136 ∨ op = 147 ∨ op = 148 ∨
    154 ≤ op ∧ op ≤ 164 ∨ op = 172 ∨ op = 173 then 2
  else if op = 111 ∨ op = 123 ∨ op = 165 then 3
  else if op = 112 ∨ op = 114 then 4
  else if op = 113 then 6
  else 0

/-- The error of taking a signature out of a script. -/
def removal (sig : Data) : Err :=
  if sig.val.length = 0 then .opInvalidConstPushLength
  else if sig.val.length < 2 ^ 32 then .attributeError
  else .opInvalidPushLength

/-- An operand that is to be a number is none; `e` is the error of decoding it. -/
def Unreadable (s : State) (op : Nat) (e : Err) : Prop :=
  let min := flag s MINIMALDATA
  (op = 177 ∧ ∃ x r, s.stack = x :: r ∧ decodeScriptNumber x min 5 = .error e) ∨
  ((op = 121 ∨ op = 122) ∧ ∃ x y r, s.stack = x :: y :: r ∧ decodeScriptNumber x min = .error e) ∨
  ((op = 139 ∨ op = 140 ∨ 143 ≤ op ∧ op ≤ 146 ∨ op = 174 ∨ op = 175) ∧ ∃ x r, s.stack = x :: r ∧
    decodeScriptNumber x min = .error e) ∨
  ((op = 147 ∨ op = 148 ∨ 154 ≤ op ∧ op ≤ 164) ∧ ∃ b a r, s.stack = b :: a :: r ∧
    (decodeScriptNumber a min = .error e ∨ (∃ n, Reads s a n) ∧ decodeScriptNumber b min = .error e)) ∨
  (op = 165 ∧ ∃ c b a r, s.stack = c :: b :: a :: r ∧ (decodeScriptNumber a = .error e ∨
    (∃ n, decodeScriptNumber a = .ok n) ∧ decodeScriptNumber b = .error e ∨
    (∃ n, decodeScriptNumber a = .ok n) ∧ (∃ n, decodeScriptNumber b = .ok n) ∧ decodeScriptNumber c = .error e)) ∨
  (∃ k y, KeysOk s op k ∧ s.stack[k + 1]? = some y ∧ decodeScriptNumber y min = .error e)

/-- What is wrong with executing the opcode in this state, if the error is `e`.  Errors of whole scripts are none of an
instruction. -/
def Cause (s : State) (op : Nat) : ErrStr → Prop
  | .opCount => ∃ k : Nat, Keys s op k ∧ k ≤ 20 ∧ 201 < s.nopCount + 1 + k
  | .discourageUpgradableNops => Executing s ∧ flag s DISCOURAGE_NOPS = true ∧ 176 ≤ op ∧ op ≤ 185 ∧
      (op = 177 → flag s CLTV = true)
  | .invalidStackOperation => Executing s ∧ (s.stack.length < needs op ∧ (op = 177 → ¬ (flag s CLTV = true ∧
        flag s DISCOURAGE_NOPS = true)) ∨
      (op = 121 ∨ op = 122) ∧ (∃ x r n, r ≠ [] ∧ s.stack = x :: r ∧ Reads s x n ∧ ¬ (0 ≤ n ∧ n < r.length)) ∨
      (∃ k, KeysOk s op k ∧ s.stack.length < k + 2) ∨
      ∃ k n : Nat, Sigs s op k n ∧ n ≤ k ∧ s.stack.length < k + n + 3)
  | .invalidAltstackOperation => Executing s ∧ op = 108 ∧ s.altstack = []
  | .negativeLocktime => Executing s ∧ op = 177 ∧ ¬ (flag s CLTV = true ∧ flag s DISCOURAGE_NOPS = true) ∧
      ∃ x r n, s.stack = x :: r ∧ decodeScriptNumber x (flag s MINIMALDATA) 5 = .ok n ∧ n < 0
  | .unsatisfiedLocktime => Executing s ∧ op = 177 ∧ ¬ (flag s CLTV = true ∧ flag s DISCOURAGE_NOPS = true) ∧
      ∃ x r n, s.stack = x :: r ∧ decodeScriptNumber x (flag s MINIMALDATA) 5 = .ok n ∧ 0 ≤ n
  | .verify => Executing s ∧ op = 105 ∧ ∃ x r, s.stack = x :: r ∧ castToBool x.val = false
  | .opReturn => Executing s ∧ op = 106
  | .equalverify => Executing s ∧ op = 136 ∧ ∃ x y r, s.stack = x :: y :: r ∧ x.val ≠ y.val
  | .numequalverify => Executing s ∧ op = 157 ∧ ∃ x y r a b, s.stack = x :: y :: r ∧ Reads s x a ∧ Reads s y b ∧ a ≠ b
  | .pubkeyCount => ∃ k, Keys s op k ∧ ¬ (0 ≤ k ∧ k ≤ 20)
  | .sigCount => ∃ k n, Sigs s op k n ∧ ¬ (0 ≤ n ∧ n ≤ k)
  | .sigNulldummy => flag s NULLDUMMY = true ∧ ∃ k d, Sigs s op k 0 ∧ s.stack[k + 2]? = some d ∧ d.val ≠ []
  | .badOpcode => op = 101 ∨ op = 102 ∨ Executing s ∧ (op = 80 ∨ op = 98 ∨ op = 137 ∨ op = 138 ∨ 186 ≤ op)
  | .unbalancedConditional => (op = 103 ∨ op = 104) ∧ s.vfExec = [] ∨
      Executing s ∧ (op = 99 ∨ op = 100) ∧ s.stack = []
  | .unknown e => Executing s ∧ (
      Unreadable s op e ∧ (op = 177 → ¬ (flag s CLTV = true ∧ flag s DISCOURAGE_NOPS = true)) ∨
      (op = 169 ∧ s.stack ≠ [] ∧ e = .attributeError) ∨
      ((op = 172 ∨ op = 173) ∧ ∃ key sig r, s.stack = key :: sig :: r ∧ e = removal sig) ∨
      ∃ (k n : Nat) (sig : Data), Sigs s op k n ∧ 1 ≤ n ∧ n ≤ k ∧ k + n + 3 ≤ s.stack.length ∧
        s.stack[k + 2]? = some sig ∧ e = removal sig)
  | _ => False

/-- What is wrong with the instruction in this state, if the error is `e`: the length of its data, the number of
operations, a disabled opcode, a push that is longer than necessary; else its execution. -/
def Reason (s : State) (i : Instruction) (e : ErrStr) : Prop :=
  if 520 < dataLen i then e = .pushSize
  else if 96 < opOf i ∧ 201 < s.nopCount + 1 then e = .opCount
  else if IsDisabled (opOf i) then e = .disabledOpcode
  else if opOf i ≤ 78 then Executing s ∧ flag s MINIMALDATA = true ∧
    (e = .minimaldata ∧ i.isMinimalPush = .ok false ∨ ∃ x, e = .unknown x ∧ i.isMinimalPush = .error x)
  else Cause s (opOf i) e

/-- `step` fails, and leaves this behind: in `errstr`, or in the exception that `evaluate` writes into `errstr`. -/
def Res.Faults (r : Res) (e : ErrStr) : Prop :=
  (∃ t, r = .stop t ∧ t.errstr = some e) ∨ ∃ t x, r = .raised t x ∧ e = .unknown x

/-- The script runs to its end, with everything in order. -/
def Succeeds (H : Hashes) (s t : State) : Prop :=
  ∃ b tr, Script.bytesOf s.script = .ok b ∧ b.length ≤ 10000 ∧ Runs H s tr t ∧ ¬ t.pc < t.script.length ∧
    t.stack.length + t.altstack.length ≤ 1000 ∧ t.vfExec = []

/-- The reasons for a script to fail: it is too long, an instruction fails after a run without failure, the stacks are too
large at the end, a conditional is open at the end. -/
inductive Why (H : Hashes) (s : State) : ErrStr → Prop
  | size {b : Bytes} : Script.bytesOf s.script = .ok b → 10000 < b.length → Why H s .scriptSize
  | step {b : Bytes} {tr : List (State × Instruction)} {u : State} {i : Instruction} {e : ErrStr} :
      Script.bytesOf s.script = .ok b → b.length ≤ 10000 → Runs H s tr u → u.script[u.pc]? = some i → Reason u i e →
      Why H s e
  | stack {b : Bytes} {tr : List (State × Instruction)} {u : State} :
      Script.bytesOf s.script = .ok b → b.length ≤ 10000 → Runs H s tr u → ¬ u.pc < u.script.length →
      1000 < u.stack.length + u.altstack.length → Why H s .stackSize
  | opened {b : Bytes} {tr : List (State × Instruction)} {u : State} :
      Script.bytesOf s.script = .ok b → b.length ≤ 10000 → Runs H s tr u → ¬ u.pc < u.script.length →
      u.stack.length + u.altstack.length ≤ 1000 → u.vfExec ≠ [] → Why H s .unbalancedConditional

/-- The reasons to reject: the script of the input does more than push though it must not, one of the scripts fails,
nothing is left on the stack, or something that counts as false. -/
inductive Rejected (H : Hashes) (sig pub : Script) (flags : Nat) : ErrStr → Prop
  | pushonly : flags.testBit 5 = true → sig.isPushOnly = false → Rejected H sig pub flags .sigPushonly
  | sig {e : ErrStr} : (flags.testBit 5 = true → sig.isPushOnly = true) → Why H (start sig [] flags) e →
      Rejected H sig pub flags e
  | pub {e : ErrStr} {t : State} : (flags.testBit 5 = true → sig.isPushOnly = true) →
      Succeeds H (start sig [] flags) t → Why H (start pub t.stack flags) e → Rejected H sig pub flags e
  | noResult {t u : State} : (flags.testBit 5 = true → sig.isPushOnly = true) → Succeeds H (start sig [] flags) t →
      Succeeds H (start pub t.stack flags) u → u.stack = [] → Rejected H sig pub flags .evalFalseNoResult
  | inStack {t u : State} {x : Data} {r : List Data} : (flags.testBit 5 = true → sig.isPushOnly = true) →
      Succeeds H (start sig [] flags) t → Succeeds H (start pub t.stack flags) u → u.stack = x :: r →
      castToBool x.val = false → Rejected H sig pub flags .evalFalseInStack

end Interpreter
end Bitforge
