import Verif.Input
import Verif.Output

/-! # `bitforge/transaction/transaction.py` -/

namespace Bitforge

/-- `Transaction`, transaction.py:11-16 (named tuple). -/
structure Transaction where
  inputs : List Input
  outputs : List Output
  lockTime : Int
  version : Int
  deriving DecidableEq, Repr

namespace Transaction

/-- `Transaction.__new__`, transaction.py:37-50.  `none` stands for an object that is not an Input (Output); the
error message can be formatted with it. -/
def new (inputs : List (Option Input)) (outputs : List (Option Output)) (lockTime : Int := 0) (version : Int := 1) :
    Except Err Transaction :=
  if inputs.length = 0 then .error .txNoInputs
  else match inputs.mapM id with
    | none => .error .txNotAnInput
    | some inputs =>
      if outputs.length = 0 then .error .txNoOutputs
      else match outputs.mapM id with
        | none => .error .txNotAnOutput
        | some outputs =>
          if ¬ (0 ≤ lockTime ∧ lockTime ≤ 0xFFFFFFFF) then .error .txInvalidLockTime
          else .ok ⟨inputs, outputs, lockTime, version⟩

/-- `for x in xs: buffer.write(x.to_bytes())`, transaction.py:62-63, 69-70. -/
def writeAll {α : Type} (toBytes : α → Except Err Bytes) : List α → Bytes → Except Err Bytes
  | [], buffer => .ok buffer
  | x :: xs, buffer =>
    match toBytes x with
    | .error e => .error e
    | .ok b => writeAll toBytes xs (Buffer.write b buffer)

/-- `to_bytes`, transaction.py:52-75. -/
def toBytes (t : Transaction) : Except Err Bytes :=
  let buffer := Buffer.write (encodeInt t.version (length := some 4) (bigEndian := false)) []
  let buffer := Buffer.write (encodeVarint t.inputs.length) buffer
  match writeAll Input.toBytes t.inputs buffer with
  | .error e => .error e
  | .ok buffer =>
    let buffer := Buffer.write (encodeVarint t.outputs.length) buffer
    match writeAll Output.toBytes t.outputs buffer with
    | .error e => .error e
    | .ok buffer =>
      .ok (Buffer.write (encodeInt t.lockTime (length := some 4) (bigEndian := false)) buffer)

/-- `to_hex`, transaction.py:77-78. -/
def toHex (t : Transaction) : Except Err Text := t.toBytes.map encodeHex

/-- `get_id_bytes`, transaction.py:80-81. -/
def getIdBytes (H : Hashes) (t : Transaction) : Except Err Bytes := t.toBytes.map fun b => H.sha256 (H.sha256 b)

/-- `get_id`, transaction.py:83-84. -/
def getId (H : Hashes) (t : Transaction) : Except Err Text := (t.getIdBytes H).map encodeHex

/-- `replace_inputs`, transaction.py:86-87. -/
def replaceInputs (t : Transaction) (inputs : List Input) : Except Err Transaction :=
  new (inputs.map some) (t.outputs.map some) t.lockTime t.version

/-- `xs[i]` for an integer `i`, which may count from the end. -/
def pyIndex {α : Type} (xs : List α) (i : Int) : Except Err α :=
  match xs[(if i < 0 then i + xs.length else i).toNat]? with
  | some x => if i < 0 ∧ i + xs.length < 0 then .error .indexError else .ok x
  | none => .error .indexError

/-- The generator over `enumerate(self.inputs)`, transaction.py:103-106, 127-130: `f` where the position is
`txi_index`, `g` elsewhere. -/
def atIndex {α : Type} (f g : α → α) (txiIndex : Int) : Nat → List α → List α
  | _, [] => []
  | i, x :: xs => (if (i : Int) = txiIndex then f x else g x) :: atIndex f g txiIndex (i + 1) xs

/-- Steps 1 and 2 of `sign`, transaction.py:98-116: the payload that is signed. -/
def payload (H : Hashes) (t : Transaction) (txiIndex sigtype : Int) : Except Err Bytes :=
  match t.replaceInputs (atIndex (fun x => x) Input.removeScript txiIndex 0 t.inputs) with
  | .error e => .error e
  | .ok simplified =>
    match simplified.toBytes with
    | .error e => .error e
    | .ok b => .ok (H.sha256 (H.sha256 (b ++ encodeInt sigtype (length := some 4) (bigEndian := false))))

/-- `sign`, transaction.py:89-132. -/
def sign (H : Hashes) (signer : Signer) (t : Transaction) (privkeys : List PrivateKey) (txiIndex : Int)
    (sigtype : Int := 1) : Except Err Transaction :=
  match t.payload H txiIndex sigtype with
  | .error e => .error e
  | .ok payload =>
    match pyIndex t.inputs txiIndex with
    | .error e => .error e
    | .ok input =>
      match input.sign signer privkeys payload sigtype with
      | .error e => .error e
      | .ok signedInput =>
        t.replaceInputs (atIndex (fun _ => signedInput) (fun x => x) txiIndex 0 t.inputs)

/-- `[ f(buffer) for i in range(n) ]`, transaction.py:142, 145, the reads. -/
def readMany {α : Type} (f : Rd α) : Nat → Rd (List α)
  | 0 => Rd.pure []
  | n + 1 => Rd.bind f fun x => Rd.bind (readMany f n) fun xs => Rd.pure (x :: xs)

/-- `range(n)` builds a list: OverflowError from 2^63 (64-bit Python 2).  Memory is taken to be unbounded. -/
def pyRange (n : Nat) : Except Err Nat := if n < 2 ^ 63 then .ok n else .error .overflowError

/-- `from_bytes`, transaction.py:135-149, with what is left in the buffer. -/
def fromBuffer : Rd Transaction :=
  Rd.bind (Buffer.read 4) fun version =>
    Rd.bind Buffer.readVarint fun n =>
      Rd.bind (Rd.lift (pyRange n)) fun n =>
        Rd.bind (readMany (Input.fromBuffer .generic) n) fun inputs =>
          Rd.bind Buffer.readVarint fun m =>
            Rd.bind (Rd.lift (pyRange m)) fun m =>
              Rd.bind (readMany Output.fromBuffer m) fun outputs =>
                Rd.bind (Buffer.read 4) fun lockTime =>
                  Rd.lift (new (inputs.map some) (outputs.map some) (decodeInt lockTime (bigEndian := false))
                    (decodeInt version (bigEndian := false)))

/-- `from_bytes`, transaction.py:135-149: what is left in the buffer is dropped. -/
def fromBytes (bytes : Bytes) : Except Err Transaction := (fromBuffer bytes).1

/-- `from_hex`, transaction.py:151-153. -/
def fromHex (string : Text) : Except Err Transaction :=
  match decodeHex string with
  | .error e => .error e
  | .ok b => fromBytes b

/-- `==` of transactions, as named tuples of tuples. -/
def eq (t u : Transaction) : Bool :=
  t.inputs.length == u.inputs.length && (t.inputs.zip u.inputs).all (fun p => p.1.eq p.2) &&
  t.outputs.length == u.outputs.length && (t.outputs.zip u.outputs).all (fun p => p.1.eq p.2) &&
  t.lockTime == u.lockTime && t.version == u.version

end Transaction
end Bitforge
