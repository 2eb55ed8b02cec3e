import Verif.Spec.Reasons

/-! # Specification of what one instruction does to the interpreter -/

namespace Bitforge
namespace Interpreter

/-- What counts as true: not empty, not the byte 0x80, and not beginning with a zero byte. -/
def Holds (b : Bytes) : Prop := ∃ x r, b = x :: r ∧ x ≠ 0 ∧ b ≠ [128]

/-- A truth value on the stack. -/
def truthValue (b : Bool) : Data := ⟨.bytearray, if b then [1] else []⟩

/-- A number on the stack. -/
def number (n : Int) : Data := ⟨.bytearray, encodeScriptNumber n⟩

/-- The program counter and the number of operations are advanced. -/
def entered (s : State) (i : Instruction) : State :=
  { s with pc := s.pc + 1, nopCount := s.nopCount + if 96 < opOf i then 1 else 0 }

/-- What an opcode above OP_PUSHDATA4 does when it is executed, unless it fails; `s` is the state after `entered`. -/
inductive Acts (H : Hashes) (s : State) : Nat → State → Prop
  | constant {op : Nat} : op = 79 ∨ 81 ≤ op ∧ op ≤ 96 → Acts H s op { s with stack := number ((op : Int) - 80) :: s.stack }
  | nop : Acts H s 97 s
  | upgradable {op : Nat} : op = 176 ∨ 178 ≤ op ∧ op ≤ 185 → flag s DISCOURAGE_NOPS = false → Acts H s op s
  | taken {op : Nat} {x : Data} {r : List Data} : s.stack = x :: r → (op = 99 ∧ Holds x.val ∨ op = 100 ∧ ¬ Holds x.val) →
      Acts H s op { s with stack := r, vfExec := true :: s.vfExec }
  | notTaken {op : Nat} {x : Data} {r : List Data} : s.stack = x :: r →
      (op = 99 ∧ ¬ Holds x.val ∨ op = 100 ∧ Holds x.val) → Acts H s op { s with stack := r, vfExec := false :: s.vfExec }
  | verify {x : Data} {r : List Data} : s.stack = x :: r → Holds x.val → Acts H s 105 { s with stack := r }
  | toAlt {x : Data} {r : List Data} : s.stack = x :: r → Acts H s 107 { s with stack := r, altstack := x :: s.altstack }
  | fromAlt {x : Data} {r : List Data} : s.altstack = x :: r →
      Acts H s 108 { s with stack := x :: s.stack, altstack := r }
  | rule {op : Nat} {ins outs rest : List Data} : StackRule op ins outs → op ≠ 117 → s.stack = ins.reverse ++ rest →
      Acts H s op { s with stack := outs.reverse ++ rest }
  | dropLast {x : Data} : s.stack = [x] → Acts H s 117 { s with stack := [] }
  | dropTwo {x y : Data} {r : List Data} : s.stack = x :: y :: r → Acts H s 117 { s with stack := r }
  | ifdup {x : Data} {r : List Data} : s.stack = x :: r → Holds x.val → Acts H s 115 { s with stack := x :: x :: r }
  | ifnodup {x : Data} {r : List Data} : s.stack = x :: r → ¬ Holds x.val → Acts H s 115 s
  | depth : Acts H s 116 { s with stack := number s.stack.length :: s.stack }
  | size {x : Data} {r : List Data} : s.stack = x :: r → Acts H s 130 { s with stack := number x.val.length :: x :: r }
  | pick {x d : Data} {a c : List Data} : s.stack = x :: a ++ d :: c → Reads s x a.length →
      Acts H s 121 { s with stack := d :: a ++ d :: c }
  | roll {x d : Data} {a c : List Data} : s.stack = x :: a ++ d :: c → Reads s x a.length →
      Acts H s 122 { s with stack := d :: a ++ c }
  | equal {x y : Data} {r : List Data} : s.stack = y :: x :: r →
      Acts H s 135 { s with stack := truthValue (decide (x.val = y.val)) :: r }
  | equalVerify {x y : Data} {r : List Data} : s.stack = y :: x :: r → x.val = y.val → Acts H s 136 { s with stack := r }
  | unary {op : Nat} {x : Data} {r : List Data} {n m : Int} : s.stack = x :: r → Reads s x n → op ≠ 144 → Unary op n m →
      Acts H s op { s with stack := number m :: r }
  | abs {x : Data} {r : List Data} {n : Int} : s.stack = x :: r → Reads s x n → Acts H s 144 { s with stack := number 1 :: r }
  | binary {op : Nat} {x y : Data} {r : List Data} {a b c : Int} : s.stack = y :: x :: r → Reads s x a → Reads s y b →
      Binary op a b c → Acts H s op { s with stack := number c :: r }
  | numEqualVerify {x y : Data} {r : List Data} {a : Int} : s.stack = y :: x :: r → Reads s x a → Reads s y a →
      Acts H s 157 { s with stack := r }
  | within {x y z : Data} {r : List Data} {a b c : Int} : s.stack = z :: y :: x :: r → decodeScriptNumber x = .ok a →
      decodeScriptNumber y = .ok b → decodeScriptNumber z = .ok c →
      Acts H s 165 { s with stack := truthValue (decide (b ≤ a ∧ a < c)) :: r }
  | hash {op : Nat} {x : Data} {r : List Data} {h : Bytes} : s.stack = x :: r →
      (op = 166 ∧ h = H.ripemd160 x.val ∨ op = 167 ∧ h = H.sha1 x.val ∨ op = 168 ∧ h = H.sha256 x.val ∨
        op = 170 ∧ h = H.sha256 (H.sha256 x.val)) → Acts H s op { s with stack := ⟨.str, h⟩ :: r }
  | separator : Acts H s 171 { s with pbegincodehash := s.pc }
  | multisig {op : Nat} {x y d : Data} {keys r : List Data} : op = 174 ∨ op = 175 → s.stack = x :: keys ++ y :: d :: r →
      Reads s x keys.length → keys.length ≤ 20 → s.nopCount + keys.length ≤ 201 → Reads s y 0 →
      (flag s NULLDUMMY = true → d.val = []) →
      Acts H s op { s with nopCount := s.nopCount + keys.length, stack := if op = 174 then truthValue true :: r else r }

/-- What an instruction within the limits does, unless it fails. -/
inductive Does (H : Hashes) (s : State) (i : Instruction) : State → Prop
  | pushNothing : Executing s → opOf i ≤ 78 → dataLen i = 0 → (flag s MINIMALDATA = true → i.isMinimalPush = .ok true) →
      Does H s i { entered s i with stack := ⟨.bytearray, []⟩ :: s.stack }
  | push {d : Data} : Executing s → opOf i ≤ 78 → i.data = some d → d.val ≠ [] →
      (flag s MINIMALDATA = true → i.isMinimalPush = .ok true) → Does H s i { entered s i with stack := d :: s.stack }
  | skip : ¬ Executing s → ¬ (99 ≤ opOf i ∧ opOf i ≤ 104) → Does H s i (entered s i)
  | skipIf : ¬ Executing s → opOf i = 99 ∨ opOf i = 100 → Does H s i { entered s i with vfExec := false :: s.vfExec }
  | otherwise {b : Bool} {bs : List Bool} : opOf i = 103 → s.vfExec = b :: bs →
      Does H s i { entered s i with vfExec := (!b) :: bs }
  | endif {b : Bool} {bs : List Bool} : opOf i = 104 → s.vfExec = b :: bs → Does H s i { entered s i with vfExec := bs }
  | acts {t : State} : Executing s → 78 < opOf i → Acts H (entered s i) (opOf i) t → Does H s i t

/-- The limits that every instruction has to respect, executed or not. -/
def Admitted (s : State) (i : Instruction) : Prop :=
  dataLen i ≤ 520 ∧ (96 < opOf i → s.nopCount + 1 ≤ 201) ∧ ¬ IsDisabled (opOf i)

/-- The instructions from the program counter to the end of the script do this one after the other. -/
inductive Walk (H : Hashes) : State → State → Prop
  | done {s : State} : s.script.length ≤ s.pc → Walk H s s
  | more {s t u : State} {i : Instruction} : s.script[s.pc]? = some i → Admitted s i → Does H s i t → Walk H t u → Walk H s u

/-- A script passes, and leaves this state. -/
def Passes (H : Hashes) (s t : State) : Prop :=
  (∃ b, Script.bytesOf s.script = .ok b ∧ b.length ≤ 10000) ∧ Walk H s t ∧ t.stack.length + t.altstack.length ≤ 1000 ∧
    t.vfExec = []

/-- The input script passes, the output script passes on what it leaves, and leaves this state, with something true on top. -/
def Agrees (H : Hashes) (sig pub : Script) (flags : Nat) (u : State) : Prop :=
  (flags.testBit 5 = true → sig.isPushOnly = true) ∧ ∃ t, Passes H (start sig [] flags) t ∧
    Passes H (start pub t.stack flags) u ∧ ∃ x r, u.stack = x :: r ∧ Holds x.val

/-- The cases in which `verify` raises: a script cannot be written, or all is well and P2SH is asked for. -/
inductive Breaks (H : Hashes) (sig pub : Script) (flags : Nat) : Err → Prop
  | sig {e : Err} : (flags.testBit 5 = true → sig.isPushOnly = true) → Script.bytesOf sig.instructions = .error e →
      Breaks H sig pub flags e
  | pub {e : Err} {t : State} : (flags.testBit 5 = true → sig.isPushOnly = true) → Passes H (start sig [] flags) t →
      Script.bytesOf pub.instructions = .error e → Breaks H sig pub flags e
  | p2sh {u : State} : Agrees H sig pub flags u → flags.testBit 0 = true → Breaks H sig pub flags .attributeError

end Interpreter
end Bitforge
