import Verif.Interpreter
import Verif.Spec.Script

/-! # Specification of script evaluation -/

namespace Bitforge
namespace Interpreter

/-- The number of the opcode of an instruction. -/
abbrev opOf (i : Instruction) : Nat := i.opcode.number.val

/-- The length of the data of an instruction. -/
def dataLen (i : Instruction) : Nat := match i.data with
  | none => 0
  | some d => d.val.length

/-- In this state instructions are executed: every enclosing conditional is in the branch taken. -/
def Executing (s : State) : Prop := false ∉ s.vfExec

instance (s : State) : Decidable (Executing s) := by unfold Executing; infer_instance

/-- The number of public keys a multisig opcode would find on the stack. -/
def keysOf (s : State) : Int := match s.stack with
  | [] => 0
  | x :: _ => match decodeScriptNumber x (flag s MINIMALDATA) with
    | .ok n => n
    | .error _ => 0

/-- What an instruction counts towards the limit on operations: one for every non-push opcode, and one for every public
key of an executed multisig. -/
def cost (s : State) (i : Instruction) : Int :=
  if opOf i ≤ 96 then 0 else if Executing s ∧ (opOf i = 174 ∨ opOf i = 175) then 1 + keysOf s else 1

/-- A run without failure; the trace has each instruction with the state it was fetched in. -/
inductive Runs (H : Hashes) : State → List (State × Instruction) → State → Prop
  | nil (s : State) : Runs H s [] s
  | cons {s t u : State} {i : Instruction} {tr : List (State × Instruction)} :
      s.script[s.pc]? = some i → step H s = .next t → Runs H t tr u → Runs H s ((s, i) :: tr) u

/-- Meaning of `while self.pc < len(self.script.instructions): if not self.step(): return False`. -/
inductive Loop (H : Hashes) : State → Res → Prop
  | done {s : State} : ¬ s.pc < s.script.length → Loop H s (.next s)
  | more {s t : State} {r : Res} : s.pc < s.script.length → step H s = .next t → Loop H t r → Loop H s r
  | stop {s t : State} : s.pc < s.script.length → step H s = .stop t → Loop H s (.stop t)
  | raised {s t : State} {e : Err} : s.pc < s.script.length → step H s = .raised t e → Loop H s (.raised t e)

/-- The state in which `verify` evaluates a script. -/
def start (script : Script) (stack : List Data) (flags : Nat) : State :=
  { script := script.instructions, stack := stack, flags := flags }

/-- Grammar of balanced conditionals, on opcode numbers.  `Balanced true` allows OP_ELSE outside of inner blocks. -/
inductive Balanced : Bool → List Nat → Prop
  | nil (b : Bool) : Balanced b []
  | plain {b : Bool} {op : Nat} {l : List Nat} : op ∉ [99, 100, 103, 104] → Balanced b l → Balanced b (op :: l)
  | els {l : List Nat} : Balanced true l → Balanced true (103 :: l)
  | block {b : Bool} {op : Nat} {body l : List Nat} : op = 99 ∨ op = 100 → Balanced true body → Balanced b l →
      Balanced b (op :: body ++ 104 :: l)

/-- Opcodes that make a script fail when executed: OP_RETURN, the reserved ones and those without a meaning. -/
def Forbidden (op : Nat) : Prop :=
  op = 106 ∨ op = 80 ∨ op = 98 ∨ op = 101 ∨ op = 102 ∨ op = 137 ∨ op = 138 ∨ 186 ≤ op

instance (op : Nat) : Decidable (Forbidden op) := by unfold Forbidden; infer_instance

/-- Opcodes disabled since 2010 (OP_CAT … OP_RIGHT, OP_INVERT … OP_XOR, OP_2MUL, OP_2DIV, OP_MUL … OP_RSHIFT). -/
def IsDisabled (op : Nat) : Prop :=
  126 ≤ op ∧ op ≤ 129 ∨ 131 ≤ op ∧ op ≤ 134 ∨ op = 141 ∨ op = 142 ∨ 149 ≤ op ∧ op ≤ 153

instance (op : Nat) : Decidable (IsDisabled op) := by unfold IsDisabled; infer_instance

/-- The stack opcodes of the Bitcoin script reference that permute, copy or drop elements; operands and results from the
bottom to the top. -/
inductive StackRule : Nat → List Data → List Data → Prop
  | op2drop (x1 x2 : Data) : StackRule 109 [x1, x2] []
  | op2dup (x1 x2 : Data) : StackRule 110 [x1, x2] [x1, x2, x1, x2]
  | op3dup (x1 x2 x3 : Data) : StackRule 111 [x1, x2, x3] [x1, x2, x3, x1, x2, x3]
  | op2over (x1 x2 x3 x4 : Data) : StackRule 112 [x1, x2, x3, x4] [x1, x2, x3, x4, x1, x2]
  | op2rot (x1 x2 x3 x4 x5 x6 : Data) : StackRule 113 [x1, x2, x3, x4, x5, x6] [x3, x4, x5, x6, x1, x2]
  | op2swap (x1 x2 x3 x4 : Data) : StackRule 114 [x1, x2, x3, x4] [x3, x4, x1, x2]
  | drop (x : Data) : StackRule 117 [x] []
  | dup (x : Data) : StackRule 118 [x] [x, x]
  | nip (x1 x2 : Data) : StackRule 119 [x1, x2] [x2]
  | over (x1 x2 : Data) : StackRule 120 [x1, x2] [x1, x2, x1]
  | rot (x1 x2 x3 : Data) : StackRule 123 [x1, x2, x3] [x2, x3, x1]
  | swap (x1 x2 : Data) : StackRule 124 [x1, x2] [x2, x1]
  | tuck (x1 x2 : Data) : StackRule 125 [x1, x2] [x2, x1, x2]

/-- How many elements an opcode needs (the stack opcodes, and OP_IFDUP, OP_PICK, OP_ROLL, OP_SIZE). -/
def arity (op : Nat) : Nat :=
  if op = 113 then 6 else if op = 112 ∨ op = 114 then 4 else if op = 111 ∨ op = 123 then 3
  else if op = 115 ∨ op = 116 ∨ op = 117 ∨ op = 118 ∨ op = 130 then (if op = 116 then 0 else 1) else 2

/-- The arithmetic opcodes of one operand. -/
inductive Unary : Nat → Int → Int → Prop
  | add1 (n : Int) : Unary 139 n (n + 1)
  | sub1 (n : Int) : Unary 140 n (n - 1)
  | neg (n : Int) : Unary 143 n (-n)
  | absPos {n : Int} : 0 ≤ n → Unary 144 n n
  | absNeg {n : Int} : n < 0 → Unary 144 n (-n)
  | not0 : Unary 145 0 1
  | not1 {n : Int} : n ≠ 0 → Unary 145 n 0
  | ne0 : Unary 146 0 0
  | ne1 {n : Int} : n ≠ 0 → Unary 146 n 1

/-- The comparisons, and the connectives, of two numbers. -/
def Compares (op : Nat) (a b : Int) : Prop :=
  (op = 154 ∧ a ≠ 0 ∧ b ≠ 0) ∨ (op = 155 ∧ (a ≠ 0 ∨ b ≠ 0)) ∨ (op = 156 ∧ a = b) ∨ (op = 158 ∧ a ≠ b) ∨
  (op = 159 ∧ a < b) ∨ (op = 160 ∧ b < a) ∨ (op = 161 ∧ a ≤ b) ∨ (op = 162 ∧ b ≤ a)

/-- The arithmetic opcodes of two operands, `a` below `b`. -/
inductive Binary : Nat → Int → Int → Int → Prop
  | add (a b : Int) : Binary 147 a b (a + b)
  | sub (a b : Int) : Binary 148 a b (a - b)
  | yes {op : Nat} {a b : Int} : op ∈ [154, 155, 156, 158, 159, 160, 161, 162] → Compares op a b → Binary op a b 1
  | no {op : Nat} {a b : Int} : op ∈ [154, 155, 156, 158, 159, 160, 161, 162] → ¬ Compares op a b → Binary op a b 0
  | min1 {a b : Int} : a ≤ b → Binary 163 a b a
  | min2 {a b : Int} : b ≤ a → Binary 163 a b b
  | max1 {a b : Int} : b ≤ a → Binary 164 a b a
  | max2 {a b : Int} : a ≤ b → Binary 164 a b b

/-- Byte strings that stand for zero: all bytes zero, but that the last may be 0x80 (negative zero). -/
def IsZero (b : Bytes) : Prop :=
  ∃ k, b = List.replicate k 0 ∨ b = List.replicate k 0 ++ [128]

end Interpreter
end Bitforge
