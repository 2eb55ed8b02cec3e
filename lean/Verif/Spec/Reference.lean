import Verif.Spec.Script
import Verif.Spec.Push
import Verif.Spec.Tx

/-! # The script evaluation of the reference client

`EvalScript` and `VerifyScript` of Bitcoin Core as of 2015 (the version that interpreter.py names), without pay to script
hash.  Independent of the model; an element is a byte string, stacks have the top first. -/

namespace Bitforge.Spec.Ref

/-- What is asked of the transaction. -/
structure Checker where
  /-- Is the signature valid for the key?  Given the script since the last OP_CODESEPARATOR, and the signatures to be
  removed from it; `none` if an encoding is refused. -/
  sig : List WireInstr → List Bytes → Bytes → Bytes → Option Bool
  lockTime : Int → Bool

structure St where
  stack : List Bytes := []
  alt : List Bytes := []
  cond : List Bool := []        -- innermost conditional first
  ops : Nat := 0
  code : List WireInstr := []   -- the script since the last OP_CODESEPARATOR
  deriving DecidableEq

/-- `CastToBool`: false for zero, positive or negative. -/
def truth : Bytes → Bool
  | [] => false
  | [x] => x != 0 && x != 0x80
  | x :: y :: r => x != 0 || truth (y :: r)

/-- A truth value on the stack. -/
def flagBytes (b : Bool) : Bytes := if b then [1] else []

/-- Is a number encoded in the fewest bytes?  From the last byte backwards. -/
def minimalNumber : Bytes → Bool
  | [] => true
  | [x] => x.val % 128 != 0
  | x :: y :: _ => x.val % 128 != 0 || decide (128 ≤ y.val)

/-- `CScriptNum`: a number of at most `size` bytes. -/
def number (minimal : Bool) (b : Bytes) (size : Nat := 4) : Option Int :=
  if b.length > size then none
  else if minimal && !minimalNumber b.reverse then none
  else some (scriptValue b)

/-- `CScriptNum::serialize`: the magnitude in the fewest bytes that leave the top bit for the sign. -/
def serialize (n : Int) : Bytes :=
  if n = 0 then []
  else
    let k := Nat.log2 n.natAbs + 1
    let bytes := k / 8 + 1
    le bytes (n.natAbs + if n < 0 then 128 * 256 ^ (bytes - 1) else 0)

/-- `CheckMinimalPush`. -/
def minimalPush (op : Nat) (d : Bytes) : Bool :=
  match d with
  | [] => op == 0
  | b :: r =>
    if r = [] ∧ 1 ≤ b.val ∧ b.val ≤ 16 then op == 80 + b.val
    else if r = [] ∧ b.val = 0x81 then op == 79
    else if d.length ≤ 75 then op == d.length
    else if d.length ≤ 255 then op == 76
    else if d.length ≤ 65535 then op == 77
    else true

/-- The opcodes that only rearrange the stack. -/
def rearrange : Nat → List Bytes → Option (List Bytes)
  | 109, _ :: _ :: r => some r
  | 110, b :: a :: r => some (b :: a :: b :: a :: r)
  | 111, c :: b :: a :: r => some (c :: b :: a :: c :: b :: a :: r)
  | 112, d :: c :: b :: a :: r => some (b :: a :: d :: c :: b :: a :: r)
  | 113, f :: e :: d :: c :: b :: a :: r => some (b :: a :: f :: e :: d :: c :: r)
  | 114, d :: c :: b :: a :: r => some (b :: a :: d :: c :: r)
  | 115, a :: r => some (if truth a then a :: a :: r else a :: r)
  | 116, r => some (serialize r.length :: r)
  | 117, _ :: r => some r
  | 118, a :: r => some (a :: a :: r)
  | 119, b :: _ :: r => some (b :: r)
  | 120, b :: a :: r => some (a :: b :: a :: r)
  | 123, c :: b :: a :: r => some (a :: c :: b :: r)
  | 124, b :: a :: r => some (a :: b :: r)
  | 125, b :: a :: r => some (b :: a :: b :: r)
  | 130, a :: r => some (serialize a.length :: a :: r)
  | _, _ => none

def ofBool (b : Bool) : Int := if b then 1 else 0

/-- OP_1ADD, OP_1SUB, OP_NEGATE, OP_ABS, OP_NOT, OP_0NOTEQUAL. -/
def unary : Nat → Int → Option Int
  | 139, n => some (n + 1)
  | 140, n => some (n - 1)
  | 143, n => some (-n)
  | 144, n => some n.natAbs
  | 145, n => some (ofBool (n == 0))
  | 146, n => some (ofBool (n != 0))
  | _, _ => none

/-- OP_ADD, OP_SUB, OP_BOOLAND … OP_MAX, on `a` below `b`. -/
def binary : Nat → Int → Int → Option Int
  | 147, a, b => some (a + b)
  | 148, a, b => some (a - b)
  | 154, a, b => some (ofBool (a != 0 && b != 0))
  | 155, a, b => some (ofBool (a != 0 || b != 0))
  | 156, a, b => some (ofBool (a == b))
  | 157, a, b => some (ofBool (a == b))
  | 158, a, b => some (ofBool (a != b))
  | 159, a, b => some (ofBool (decide (a < b)))
  | 160, a, b => some (ofBool (decide (b < a)))
  | 161, a, b => some (ofBool (decide (a ≤ b)))
  | 162, a, b => some (ofBool (decide (b ≤ a)))
  | 163, a, b => some (if b < a then b else a)
  | 164, a, b => some (if a < b then b else a)
  | _, _, _ => none

/-- OP_RIPEMD160, OP_SHA1, OP_SHA256, OP_HASH160, OP_HASH256. -/
def hash (H : Hashes) : Nat → Bytes → Option Bytes
  | 166, b => some (H.ripemd160 b)
  | 167, b => some (H.sha1 b)
  | 168, b => some (H.sha256 b)
  | 169, b => some (H.ripemd160 (H.sha256 b))
  | 170, b => some (H.sha256 (H.sha256 b))
  | _, _ => none

/-- The loop of OP_CHECKMULTISIG, on the signatures and keys from the top down; `none` if an encoding is refused. -/
def multisig (check : Bytes → Bytes → Option Bool) : List Bytes → List Bytes → Option Bool
  | [], _ => some true
  | _ :: _, [] => some false
  | s :: ss, k :: ks =>
    if (s :: ss).length > (k :: ks).length then some false
    else match check s k with
      | none => none
      | some true => multisig check ss ks
      | some false => multisig check (s :: ss) ks

/-- Push a result, or for the VERIFY form of an opcode fail unless it is true. -/
def result (verify ok : Bool) (s : St) (rest : List Bytes) : Option St :=
  if verify then (if ok then some { s with stack := rest } else none)
  else some { s with stack := flagBytes ok :: rest }

/-- An opcode above OP_PUSHDATA4, in the branch taken or not (`fExec`); `after` are the instructions that follow. -/
def exec (H : Hashes) (C : Checker) (flags op : Nat) (fExec : Bool) (after : List WireInstr) (s : St) : Option St :=
  let minimal := flags.testBit 6
  if op = 79 then some { s with stack := serialize (-1) :: s.stack }
  else if 81 ≤ op ∧ op ≤ 96 then some { s with stack := serialize ((op : Int) - 80) :: s.stack }
  else if op = 97 then some s
  else if op = 177 then                                          -- OP_CHECKLOCKTIMEVERIFY
    if flags.testBit 9 then
      match s.stack with
      | [] => none
      | x :: _ =>
        match number minimal x 5 with
        | none => none
        | some n => if n < 0 then none else if C.lockTime n then some s else none
    else if flags.testBit 7 then none else some s
  else if op = 176 ∨ 178 ≤ op ∧ op ≤ 185 then                    -- OP_NOP1, OP_NOP3 … OP_NOP10
    if flags.testBit 7 then none else some s
  else if op = 99 ∨ op = 100 then                                -- OP_IF, OP_NOTIF
    if fExec then
      match s.stack with
      | [] => none
      | x :: r => some { s with stack := r, cond := (truth x != decide (op = 100)) :: s.cond }
    else some { s with cond := false :: s.cond }
  else if op = 103 then                                          -- OP_ELSE
    match s.cond with
    | [] => none
    | b :: bs => some { s with cond := (!b) :: bs }
  else if op = 104 then                                          -- OP_ENDIF
    match s.cond with
    | [] => none
    | _ :: bs => some { s with cond := bs }
  else if op = 105 then                                          -- OP_VERIFY
    match s.stack with
    | [] => none
    | x :: r => if truth x then some { s with stack := r } else none
  else if op = 107 then                                          -- OP_TOALTSTACK
    match s.stack with
    | [] => none
    | x :: r => some { s with stack := r, alt := x :: s.alt }
  else if op = 108 then                                          -- OP_FROMALTSTACK
    match s.alt with
    | [] => none
    | x :: r => some { s with stack := x :: s.stack, alt := r }
  else if op = 121 ∨ op = 122 then                               -- OP_PICK, OP_ROLL
    match s.stack with
    | x :: y :: r =>
      match number minimal x with
      | none => none
      | some n =>
        if n < 0 then none
        else match (y :: r)[n.toNat]? with
          | none => none
          | some d => some { s with stack := d :: if op = 122 then (y :: r).eraseIdx n.toNat else y :: r }
    | _ => none
  else if op = 135 ∨ op = 136 then                               -- OP_EQUAL, OP_EQUALVERIFY
    match s.stack with
    | b :: a :: r => result (decide (op = 136)) (a == b) s r
    | _ => none
  else if op ∈ [139, 140, 143, 144, 145, 146] then
    match s.stack with
    | [] => none
    | x :: r =>
      match number minimal x with
      | none => none
      | some n => (unary op n).map fun m => { s with stack := serialize m :: r }
  else if op ∈ [147, 148] ∨ 154 ≤ op ∧ op ≤ 164 then
    match s.stack with
    | y :: x :: r =>
      match number minimal x, number minimal y with
      | some a, some b =>
        match binary op a b with
        | none => none
        | some m =>
          if op = 157 then (if truth (serialize m) then some { s with stack := r } else none)
          else some { s with stack := serialize m :: r }
      | _, _ => none
    | _ => none
  else if op = 165 then                                          -- OP_WITHIN
    match s.stack with
    | z :: y :: x :: r =>
      match number minimal x, number minimal y, number minimal z with
      | some a, some b, some c => some { s with stack := flagBytes (decide (b ≤ a ∧ a < c)) :: r }
      | _, _, _ => none
    | _ => none
  else if 166 ≤ op ∧ op ≤ 170 then
    match s.stack with
    | [] => none
    | x :: r => (hash H op x).map fun d => { s with stack := d :: r }
  else if op = 171 then some { s with code := after }            -- OP_CODESEPARATOR
  else if op = 172 ∨ op = 173 then                               -- OP_CHECKSIG, OP_CHECKSIGVERIFY
    match s.stack with
    | key :: sig :: r =>
      match C.sig s.code [sig] sig key with
      | none => none
      | some ok => result (decide (op = 173)) ok s r
    | _ => none
  else if op = 174 ∨ op = 175 then                               -- OP_CHECKMULTISIG, OP_CHECKMULTISIGVERIFY
    match s.stack with
    | [] => none
    | x :: r =>
      match number minimal x with
      | none => none
      | some n =>
        if n < 0 ∨ n > 20 then none
        else
          let s := { s with ops := s.ops + n.toNat }
          if s.ops > 201 then none
          else match r.drop n.toNat with
            | [] => none
            | y :: r' =>
              match number minimal y with
              | none => none
              | some m =>
                if m < 0 ∨ m > n then none
                else match r'.drop m.toNat with
                  | [] => none
                  | dummy :: r'' =>
                    let sigs := r'.take m.toNat
                    match multisig (C.sig s.code sigs) sigs (r.take n.toNat) with
                    | none => none
                    | some ok =>
                      if flags.testBit 4 ∧ dummy ≠ [] then none
                      else result (decide (op = 175)) ok s r''
  else rearrange op s.stack |>.map fun st => { s with stack := st }

/-- Opcodes that fail even in a branch that is not taken. -/
def disabled (op : Nat) : Bool :=
  decide (126 ≤ op ∧ op ≤ 129 ∨ 131 ≤ op ∧ op ≤ 134 ∨ op = 141 ∨ op = 142 ∨ 149 ≤ op ∧ op ≤ 153)

/-- One instruction, but for the limit on the stack. -/
def act (H : Hashes) (C : Checker) (flags : Nat) (i : WireInstr) (after : List WireInstr) (s : St) : Option St :=
  let op := i.1.val
  let data := i.2.getD []
  let fExec := s.cond.all id
  let s := if op > 96 then { s with ops := s.ops + 1 } else s
  if data.length > 520 then none
  else if op > 96 ∧ s.ops > 201 then none
  else if disabled op then none
  else if fExec ∧ op ≤ 78 then
    if flags.testBit 6 ∧ ¬ minimalPush op data then none else some { s with stack := data :: s.stack }
  else if fExec ∨ 99 ≤ op ∧ op ≤ 104 then exec H C flags op fExec after s
  else some s

/-- How many elements an opcode adds to the two stacks, at most. -/
def adds (op : Nat) : Nat :=
  if op ≤ 96 then 1
  else if op = 111 then 3
  else if op = 110 ∨ op = 112 then 2
  else if op ∈ [115, 116, 118, 120, 125, 130] then 1
  else 0

/-- The loop of `EvalScript`. -/
def run (H : Hashes) (C : Checker) (flags : Nat) : List WireInstr → St → Option St
  | [], s => some s
  | i :: is, s =>
    match act H C flags i is s with
    | none => none
    | some s => if s.stack.length + s.alt.length > 1000 then none else run H C flags is s

/-- Number of bytes of a script. -/
def size (is : List WireInstr) : Nat := (is.map wireSize).sum

/-- `EvalScript`: the stack left. -/
def eval (H : Hashes) (C : Checker) (flags : Nat) (script : List WireInstr) (stack : List Bytes) : Option (List Bytes) :=
  if size script > 10000 then none
  else match run H C flags script { stack := stack, code := script } with
    | none => none
    | some s => if s.cond = [] then some s.stack else none

/-- `VerifyScript` without SCRIPT_VERIFY_P2SH. -/
def verify (H : Hashes) (C : Checker) (flags : Nat) (sig pub : List WireInstr) : Bool :=
  if flags.testBit 5 ∧ ¬ sig.all (fun i => decide (i.1.val ≤ 96)) then false
  else match eval H C flags sig [] with
    | none => false
    | some stack =>
      match eval H C flags pub stack with
      | some (x :: _) => truth x
      | _ => false

end Bitforge.Spec.Ref
