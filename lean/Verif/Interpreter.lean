import Verif.Script

/-! # `bitforge/script/interpreter.py`

Stacks are lists with the top *first* (Python has it last).  The arguments `tx` and `nin` of `verify` are only read by
code that is never reached (after `remove_opcode_by_data`, which always raises; see `Script.removeOpcodeByData`), so
they are left out; the default for `tx` (`Transaction([Input('', 0, Script())], [Output(0, Script())])`) never raises. -/

namespace Bitforge

namespace Interpreter

/-- The values of `errstr`; `unknown e` is 'SCRIPT_ERR_UNKNOWN_ERROR: ' and the message of the exception `e`. -/
inductive ErrStr
  | sigPushonly | scriptSize | stackSize | unbalancedConditional | pushSize | opCount | disabledOpcode | minimaldata
  | discourageUpgradableNops | invalidStackOperation | invalidAltstackOperation | negativeLocktime | unsatisfiedLocktime
  | verify | opReturn | equalverify | numequalverify | pubkeyCount | sigCount | sigNulldummy | badOpcode
  | checksigverify | checkmultisigverify | evalFalseNoResult | evalFalseInStack
  | unknown (e : Err)
  deriving DecidableEq, Repr

/-- The attributes of an `Interpreter`, interpreter.py:19-27 and 45-48. -/
structure State where
  stack : List Data := []
  altstack : List Data := []
  pc : Nat := 0
  pbegincodehash : Nat := 0
  nopCount : Int := 0
  vfExec : List Bool := []        -- innermost conditional first
  errstr : Option ErrStr := none
  flags : Nat := 0
  script : List Instruction := []
  deriving DecidableEq, Repr

/-- How `step` ends: it returns True, it returns False, or it raises. -/
inductive Res
  | next (s : State)
  | stop (s : State)
  | raised (s : State) (e : Err)
  deriving DecidableEq, Repr

/-- `self.errstr = …; return False`. -/
def fail (s : State) (e : ErrStr) : Res := .stop { s with errstr := some e }

/-- `initialize`, interpreter.py:19-27: every attribute but the script. -/
def reset (s : State) : State :=
  { s with stack := [], altstack := [], pc := 0, pbegincodehash := 0, nopCount := 0, vfExec := [], errstr := none,
           flags := 0 }

/-- `flags & (1 << n)`. -/
def flag (s : State) (n : Nat) : Bool := s.flags.testBit n

/-- `SCRIPT_VERIFY_…`, interpreter.py:798-836, as positions of bits. -/
def P2SH : Nat := 0
def NULLDUMMY : Nat := 4
def SIGPUSHONLY : Nat := 5
def MINIMALDATA : Nat := 6
def DISCOURAGE_NOPS : Nat := 7
def CLTV : Nat := 9

/-- `encode_script_number(n)`, a `bytearray`. -/
def num (n : Int) : Data := ⟨.bytearray, encodeScriptNumber n⟩

/-- `Interpreter.bool_bytes`, interpreter.py:785-788; `Interpreter.false` is the same as `bool_bytes[False]`. -/
def boolBytes (b : Bool) : Data := ⟨.bytearray, if b then [1] else []⟩

/-- `int(b)`, or a Boolean used as a number. -/
def ofBool (b : Bool) : Int := if b then 1 else 0

/-- The loop of `cast_to_bool`, interpreter.py:772-779; `fuel` is the number of iterations left.  It looks at the first
byte in every iteration. -/
def castLoop (bytes : Bytes) (length : Nat) : Nat → Nat → Bool
  | 0, _ => false
  | fuel + 1, i =>
    if bytes[0]? ≠ some 0x00 then
      if i = length - 1 ∧ bytes[i]? = some 0x80 then false else true
    else castLoop bytes length fuel (i + 1)

/-- `cast_to_bool`, interpreter.py:767-779. -/
def castToBool (bytes : Bytes) : Bool := castLoop bytes bytes.length bytes.length 0

/-- Push an element. -/
def State.push (s : State) (d : Data) : State := { s with stack := d :: s.stack }

/-- OP_CHECKLOCKTIMEVERIFY, interpreter.py:211-249.  `check_lock_time` (758-759) returns None. -/
def checkLockTimeVerify (s : State) (minimal : Bool) : Res :=
  if flag s CLTV && flag s DISCOURAGE_NOPS then fail s .discourageUpgradableNops
  else match s.stack with
    | [] => fail s .invalidStackOperation
    | x :: _ =>
      match decodeScriptNumber x minimal 5 with
      | .error e => .raised s e
      | .ok n => if n < 0 then fail s .negativeLocktime else fail s .unsatisfiedLocktime

/-- OP_IF and OP_NOTIF, interpreter.py:256-270. -/
def opIf (s : State) (fExec : Bool) (negate : Bool) : Res :=
  if fExec then
    match s.stack with
    | [] => fail s .unbalancedConditional
    | x :: rest =>
      let value := castToBool x.val
      .next { s with stack := rest, vfExec := (if negate then !value else value) :: s.vfExec }
  else .next { s with vfExec := false :: s.vfExec }

/-- OP_ELSE, interpreter.py:272-277. -/
def opElse (s : State) : Res :=
  match s.vfExec with
  | [] => fail s .unbalancedConditional
  | b :: bs => .next { s with vfExec := (!b) :: bs }

/-- OP_ENDIF, interpreter.py:279-284. -/
def opEndif (s : State) : Res :=
  match s.vfExec with
  | [] => fail s .unbalancedConditional
  | _ :: bs => .next { s with vfExec := bs }

/-- OP_VERIFY, interpreter.py:286-299. -/
def opVerify (s : State) : Res :=
  match s.stack with
  | [] => fail s .invalidStackOperation
  | x :: rest => if castToBool x.val then .next { s with stack := rest } else fail s .verify

/-- OP_TOALTSTACK, interpreter.py:305-311. -/
def toAltStack (s : State) : Res :=
  match s.stack with
  | [] => fail s .invalidStackOperation
  | x :: rest => .next { s with stack := rest, altstack := x :: s.altstack }

/-- OP_FROMALTSTACK, interpreter.py:313-319. -/
def fromAltStack (s : State) : Res :=
  match s.altstack with
  | [] => fail s .invalidAltstackOperation
  | x :: rest => .next { s with stack := x :: s.stack, altstack := rest }

/-- OP_2DROP … OP_SIZE, interpreter.py:321-478, but for OP_PICK and OP_ROLL: the new stack; `none` if too few elements.
OP_DROP pops, and then drops one more (395-396). -/
def stackOp (op : Nat) (stack : List Data) : Option (List Data) :=
  if op = 109 then match stack with               -- OP_2DROP
    | _ :: _ :: r => some r
    | _ => none
  else if op = 110 then match stack with          -- OP_2DUP
    | x2 :: x1 :: r => some (x2 :: x1 :: x2 :: x1 :: r)
    | _ => none
  else if op = 111 then match stack with          -- OP_3DUP
    | x3 :: x2 :: x1 :: r => some (x3 :: x2 :: x1 :: x3 :: x2 :: x1 :: r)
    | _ => none
  else if op = 112 then match stack with          -- OP_2OVER
    | x4 :: x3 :: x2 :: x1 :: r => some (x2 :: x1 :: x4 :: x3 :: x2 :: x1 :: r)
    | _ => none
  else if op = 113 then match stack with          -- OP_2ROT
    | x6 :: x5 :: x4 :: x3 :: x2 :: x1 :: r => some (x2 :: x1 :: x6 :: x5 :: x4 :: x3 :: r)
    | _ => none
  else if op = 114 then match stack with          -- OP_2SWAP
    | x4 :: x3 :: x2 :: x1 :: r => some (x2 :: x1 :: x4 :: x3 :: r)
    | _ => none
  else if op = 115 then match stack with          -- OP_IFDUP
    | x :: r => some (if castToBool x.val then x :: x :: r else x :: r)
    | _ => none
  else if op = 116 then some (num stack.length :: stack)   -- OP_DEPTH
  else if op = 117 then match stack with          -- OP_DROP
    | _ :: r => some (r.drop 1)
    | _ => none
  else if op = 118 then match stack with          -- OP_DUP
    | x :: r => some (x :: x :: r)
    | _ => none
  else if op = 119 then match stack with          -- OP_NIP
    | x2 :: _ :: r => some (x2 :: r)
    | _ => none
  else if op = 120 then match stack with          -- OP_OVER
    | x2 :: x1 :: r => some (x1 :: x2 :: x1 :: r)
    | _ => none
  else if op = 123 then match stack with          -- OP_ROT
    | x3 :: x2 :: x1 :: r => some (x1 :: x3 :: x2 :: r)
    | _ => none
  else if op = 124 then match stack with          -- OP_SWAP
    | x2 :: x1 :: r => some (x1 :: x2 :: r)
    | _ => none
  else if op = 125 then match stack with          -- OP_TUCK
    | x2 :: x1 :: r => some (x2 :: x1 :: x2 :: r)
    | _ => none
  else match stack with                           -- OP_SIZE
    | x :: r => some (num x.val.length :: x :: r)
    | _ => none

/-- OP_PICK and OP_ROLL, interpreter.py:423-440. -/
def pickRoll (s : State) (minimal roll : Bool) : Res :=
  match s.stack with
  | x :: y :: r =>
    let rest := y :: r
    let s := { s with stack := rest }
    match decodeScriptNumber x minimal with
    | .error e => .raised s e
    | .ok n =>
      if n < 0 ∨ n ≥ rest.length then fail s .invalidStackOperation
      else match rest[n.toNat]? with
        | none => .raised s .indexError   -- unreachable: `n` is in range
        | some d => .next { s with stack := d :: if roll then rest.eraseIdx n.toNat else rest }
  | _ => fail s .invalidStackOperation

/-- OP_EQUAL and OP_EQUALVERIFY, interpreter.py:480-496. -/
def opEqual (s : State) (verify : Bool) : Res :=
  match s.stack with
  | x2 :: x1 :: r =>
    let equal : Bool := x1.val == x2.val
    let s := { s with stack := boolBytes equal :: r }
    if verify then
      if equal then .next { s with stack := r } else fail s .equalverify
    else .next s
  | _ => fail s .invalidStackOperation

/-- The functions of one number, interpreter.py:507-523.  OP_ABS is `abs(-1)`. -/
def unaryOp (op : Nat) (n : Int) : Int :=
  if op = 139 then n + 1
  else if op = 140 then n - 1
  else if op = 143 then -n
  else if op = 144 then ((-1 : Int).natAbs : Int)
  else if op = 145 then ofBool (n == 0)
  else ofBool (n != 0)

/-- OP_1ADD … OP_0NOTEQUAL, interpreter.py:498-525. -/
def opUnary (s : State) (minimal : Bool) (op : Nat) : Res :=
  match s.stack with
  | [] => fail s .invalidStackOperation
  | x :: r =>
    match decodeScriptNumber x minimal with
    | .error e => .raised s e
    | .ok n => .next { s with stack := num (unaryOp op n) :: r }

/-- The functions of two numbers, interpreter.py:544-578. -/
def binaryOp (op : Nat) (a b : Int) : Int :=
  if op = 147 then a + b
  else if op = 148 then a - b
  else if op = 154 then ofBool (a != 0 && b != 0)
  else if op = 155 then ofBool (a != 0 || b != 0)
  else if op = 156 ∨ op = 157 then ofBool (a == b)
  else if op = 158 then ofBool (a != b)
  else if op = 159 then ofBool (decide (a < b))
  else if op = 160 then ofBool (decide (a > b))
  else if op = 161 then ofBool (decide (a ≤ b))
  else if op = 162 then ofBool (decide (a ≥ b))
  else if op = 163 then min a b
  else max a b

/-- OP_ADD … OP_MAX, interpreter.py:527-587. -/
def opBinary (s : State) (minimal : Bool) (op : Nat) : Res :=
  match s.stack with
  | x2 :: x1 :: r =>
    match decodeScriptNumber x1 minimal with
    | .error e => .raised s e
    | .ok a =>
      match decodeScriptNumber x2 minimal with
      | .error e => .raised s e
      | .ok b =>
        let result := num (binaryOp op a b)
        let s := { s with stack := result :: r }
        if op = 157 then
          if castToBool result.val then .next { s with stack := r } else fail s .numequalverify
        else .next s
  | _ => fail s .invalidStackOperation

/-- OP_WITHIN, interpreter.py:589-598. -/
def opWithin (s : State) : Res :=
  match s.stack with
  | x3 :: x2 :: x1 :: r =>
    match decodeScriptNumber x1 with
    | .error e => .raised s e
    | .ok a =>
      match decodeScriptNumber x2 with
      | .error e => .raised s e
      | .ok b =>
        match decodeScriptNumber x3 with
        | .error e => .raised s e
        | .ok c => .next { s with stack := boolBytes (decide (b ≤ a ∧ a < c)) :: r }
  | _ => fail s .invalidStackOperation

/-- The hash functions, interpreter.py:607-616; they return a `str`. -/
def hashOp (H : Hashes) (op : Nat) (b : Bytes) : Except Err Data :=
  if op = 166 then .ok ⟨.str, H.ripemd160 b⟩
  else if op = 167 then .ok ⟨.str, H.sha1 b⟩
  else if op = 168 then .ok ⟨.str, H.sha256 b⟩
  else if op = 169 then (hash160 H b).map (⟨.str, ·⟩)
  else .ok ⟨.str, H.sha256 (H.sha256 b)⟩

/-- OP_RIPEMD160 … OP_HASH256, interpreter.py:600-618. -/
def opHash (H : Hashes) (s : State) (op : Nat) : Res :=
  match s.stack with
  | [] => fail s .invalidStackOperation
  | x :: r =>
    match hashOp H op x.val with
    | .error e => .raised s e
    | .ok d => .next { s with stack := d :: r }

/-- OP_CHECKSIG and OP_CHECKSIGVERIFY, interpreter.py:624-656.  If `remove_opcode_by_data` did not raise,
`check_signature_encoding` (761-762) would return None, and `step` False. -/
def checkSig (s : State) : Res :=
  match s.stack with
  | _ :: sig :: _ =>
    match Script.removeOpcodeByData ⟨.generic, s.script.drop s.pbegincodehash⟩ sig with
    | .error e => .raised s e
    | .ok _ => .stop s
  | _ => fail s .invalidStackOperation

/-- The loop over the signatures, interpreter.py:693-695. -/
def removeAll (subscript : Script) : List Data → Except Err Unit
  | [] => .ok ()
  | d :: ds =>
    match subscript.removeOpcodeByData d with
    | .error e => .error e
    | .ok _ => removeAll subscript ds

/-- OP_CHECKMULTISIG and OP_CHECKMULTISIGVERIFY, interpreter.py:658-749.  As above, one signature or more make `step`
return False in the first iteration of the loop at 699. -/
def checkMultisig (s : State) (minimal verify : Bool) : Res :=
  match s.stack with
  | [] => fail s .invalidStackOperation
  | x :: _ =>
    match decodeScriptNumber x minimal with
    | .error e => .raised s e
    | .ok keys =>
      if ¬ (0 ≤ keys ∧ keys ≤ 20) then fail s .pubkeyCount
      else
        let s := { s with nopCount := s.nopCount + keys }
        if s.nopCount > 201 then fail s .opCount
        else if (s.stack.length : Int) < keys + 2 then fail s .invalidStackOperation
        else match s.stack[keys.toNat + 1]? with
          | none => .raised s .indexError   -- unreachable
          | some y =>
            match decodeScriptNumber y minimal with
            | .error e => .raised s e
            | .ok sigs =>
              if ¬ (0 ≤ sigs ∧ sigs ≤ keys) then fail s .sigCount
              else if (s.stack.length : Int) < keys + sigs + 3 then fail s .invalidStackOperation
              else match removeAll ⟨.generic, s.script.drop s.pbegincodehash⟩ ((s.stack.drop (keys.toNat + 2)).take sigs.toNat) with
                | .error e => .raised s e
                | .ok _ =>
                  if sigs > 0 then .stop s
                  else
                    let s := { s with stack := s.stack.drop (sigs + keys + 2).toNat }
                    match s.stack with
                    | [] => fail s .invalidStackOperation
                    | dummy :: r =>
                      if flag s NULLDUMMY ∧ dummy.val ≠ [] then fail s .sigNulldummy
                      else if verify then .next { s with stack := r }
                      else .next { s with stack := boolBytes true :: r }

/-- The disabled opcodes, interpreter.py:171-185. -/
def disabled : List Nat := [126, 127, 128, 129, 131, 132, 133, 134, 141, 142, 149, 150, 151, 152, 153]

/-- The chain of `elif`s, interpreter.py:201-754. -/
def exec (H : Hashes) (s : State) (op : Nat) (fExec : Bool) : Res :=
  let minimal := flag s MINIMALDATA
  if op = 79 ∨ 81 ≤ op ∧ op ≤ 96 then .next (s.push (num ((op : Int) - (81 - 1))))
  else if op = 97 then .next s
  else if op = 177 then checkLockTimeVerify s minimal
  else if op = 176 ∨ 178 ≤ op ∧ op ≤ 185 then
    if flag s DISCOURAGE_NOPS then fail s .discourageUpgradableNops else .next s
  else if op = 99 then opIf s fExec false
  else if op = 100 then opIf s fExec true
  else if op = 103 then opElse s
  else if op = 104 then opEndif s
  else if op = 105 then opVerify s
  else if op = 106 then fail s .opReturn
  else if op = 107 then toAltStack s
  else if op = 108 then fromAltStack s
  else if 109 ≤ op ∧ op ≤ 120 ∨ 123 ≤ op ∧ op ≤ 125 ∨ op = 130 then
    match stackOp op s.stack with
    | none => fail s .invalidStackOperation
    | some stack => .next { s with stack := stack }
  else if op = 121 then pickRoll s minimal false
  else if op = 122 then pickRoll s minimal true
  else if op = 135 then opEqual s false
  else if op = 136 then opEqual s true
  else if op ∈ [139, 140, 143, 144, 145, 146] then opUnary s minimal op
  else if op ∈ [147, 148] ∨ 154 ≤ op ∧ op ≤ 164 then opBinary s minimal op
  else if op = 165 then opWithin s
  else if 166 ≤ op ∧ op ≤ 170 then opHash H s op
  else if op = 171 then .next { s with pbegincodehash := s.pc }
  else if op = 172 ∨ op = 173 then checkSig s
  else if op = 174 then checkMultisig s minimal false
  else if op = 175 then checkMultisig s minimal true
  else fail s .badOpcode

/-- The part of `step` after the limits, interpreter.py:190-756. -/
def dispatch (H : Hashes) (s : State) (i : Instruction) : Res :=
  let op := i.opcode.number.val
  let fExec := !s.vfExec.contains false
  if op ∈ disabled then fail s .disabledOpcode
  else if fExec ∧ op ≤ 78 then
    let push : Res := .next (s.push (match i.data with
      | none => boolBytes false
      | some d => if d.val = [] then boolBytes false else d))
    if flag s MINIMALDATA then
      match i.isMinimalPush with
      | .error e => .raised s e
      | .ok false => fail s .minimaldata
      | .ok true => push
    else push
  else if fExec ∨ 99 ≤ op ∧ op ≤ 104 then exec H s op fExec
  else .next s

/-- `step`, interpreter.py:149-756, of the instruction at `pc`. -/
def step (H : Hashes) (s : State) : Res :=
  match s.script[s.pc]? with
  | none => .raised s .indexError
  | some i =>
    let s := { s with pc := s.pc + 1 }
    if (match i.data with | none => 0 | some d => d.val.length) > 520 then fail s .pushSize
    else if i.opcode.number.val > 96 then
      let s := { s with nopCount := s.nopCount + 1 }
      if s.nopCount > 201 then fail s .opCount else dispatch H s i
    else dispatch H s i

/-- The `while` loop of `evaluate`, interpreter.py:131-133, for at most `fuel` iterations. -/
def loop (H : Hashes) : Nat → State → Res
  | 0, s => .next s
  | fuel + 1, s =>
    if s.pc < s.script.length then
      match step H s with
      | .next s => loop H fuel s
      | r => r
    else .next s

/-- `evaluate`, interpreter.py:120-147: what it returns, or the exception of `to_bytes`, and the attributes afterwards.
The loop runs once per instruction left, which is enough (see C45). -/
def evaluate (H : Hashes) (s : State) : Except Err Bool × State :=
  match Script.bytesOf s.script with
  | .error e => (.error e, s)
  | .ok b =>
    if b.length > 10000 then (.ok false, { s with errstr := some .scriptSize })
    else match loop H (s.script.length - s.pc) s with
      | .raised s e => (.ok false, { s with errstr := some (.unknown e) })
      | .stop s => (.ok false, s)
      | .next s =>
        if s.stack.length + s.altstack.length > 1000 then (.ok false, { s with errstr := some .stackSize })
        else if s.vfExec.length > 0 then (.ok false, { s with errstr := some .unbalancedConditional })
        else (.ok true, s)

/-- `verify`, interpreter.py:29-118, on an Interpreter with the attributes `before`.  `is_script_hash_out` (line 83) does not
exist: AttributeError. -/
def verify (H : Hashes) (before : State) (scriptSig scriptPubkey : Script) (flags : Nat := 0) :
    Except Err Bool × State :=
  let s := { reset before with script := scriptSig.instructions, flags := flags }
  if flag s SIGPUSHONLY ∧ ¬ scriptSig.isPushOnly then (.ok false, { s with errstr := some .sigPushonly })
  else match evaluate H s with
    | (.error e, s) => (.error e, s)
    | (.ok false, s) => (.ok false, s)
    | (.ok true, s) =>
      let s := { reset s with script := scriptPubkey.instructions, stack := s.stack, flags := flags }
      match evaluate H s with
      | (.error e, s) => (.error e, s)
      | (.ok false, s) => (.ok false, s)
      | (.ok true, s) =>
        match s.stack with
        | [] => (.ok false, { s with errstr := some .evalFalseNoResult })
        | x :: _ =>
          if ¬ castToBool x.val then (.ok false, { s with errstr := some .evalFalseInStack })
          else if flag s P2SH then (.error .attributeError, s)
          else (.ok true, s)

end Interpreter
end Bitforge
