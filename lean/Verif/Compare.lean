import Verif.Transaction
import Verif.Address
import Verif.PrivKey
import Verif.HdKey

/-! # Comparison and hashing of objects: `script/opcode.py:157, 225-238`, `script/instruction.py:122-126`, and the
methods of `tuple` that the named tuples inherit -/

namespace Bitforge

/-- An operand of a comparison with an `Opcode`: `id` is its address in memory; `opcode` is its value if it is an
instance of `Opcode`, `none` if it is anything else. -/
structure Obj where
  id : Nat
  opcode : Option Opcode
  deriving DecidableEq, Repr

namespace Opcode

/-- `__eq__`, opcode.py:225-229. -/
def pyEq (o : Opcode) (other : Obj) : Bool := match other.opcode with
  | none => false
  | some p => o.number == p.number

/-- `__lt__`, opcode.py:231-235. -/
def pyLt (o : Opcode) (other : Obj) : Bool := match other.opcode with
  | none => false
  | some p => o.number.val < p.number.val

/-- `__gt__` as made by `functools.total_ordering` (opcode.py:157): `not (self < other or self == other)`. -/
def pyGt (o : Opcode) (other : Obj) : Bool := !(o.pyLt other || o.pyEq other)

/-- `__le__` as made by `functools.total_ordering`: `self < other or self == other`. -/
def pyLe (o : Opcode) (other : Obj) : Bool := o.pyLt other || o.pyEq other

/-- `__ge__` as made by `functools.total_ordering`: `not self < other`. -/
def pyGe (o : Opcode) (other : Obj) : Bool := !o.pyLt other

/-- `!=`: there is no `__ne__`, neither in the class nor made by `total_ordering`, and Python 2 does not derive it from
`__eq__`; the default compares addresses.  `id` is the address of the left operand. -/
def pyNe (id : Nat) (other : Obj) : Bool := id != other.id

end Opcode

/-- The built-in `hash` on values: any functions will do (for the theorems).  A `str` and the `unicode` with the same
ASCII characters have the same hash, and `tuple` combines the hashes of its elements. -/
structure PyHash where
  int : Int → Int
  bytes : Bytes → Int
  text : Text → Int
  none : Int
  object : Int            -- an enumeration member
  tuple : List Int → Int

namespace PyHash

/-- `hash` of a tuple: the elements are hashed in order, and the first exception is raised. -/
def ofTuple (P : PyHash) : List (Except Err Int) → Except Err Int
  | xs => (go xs).map P.tuple
where
  /-- The loop over the elements. -/
  go : List (Except Err Int) → Except Err (List Int)
    | [] => .ok []
    | .error e :: _ => .error e
    | .ok h :: xs => match go xs with
      | .error e => .error e
      | .ok hs => .ok (h :: hs)

/-- `hash` of byte strings: a `bytearray` is mutable and has no hash. -/
def data (P : PyHash) (d : Data) : Except Err Int := match d.kind with
  | .str => .ok (P.bytes d.val)
  | .bytearray => .error .typeError

end PyHash

/-- `Opcode.__hash__`, opcode.py:237-238. -/
def Opcode.hash (P : PyHash) (o : Opcode) : Except Err Int := .ok (P.int o.number.val)

/-- `Instruction.__hash__`, instruction.py:125-126. -/
def Instruction.hash (P : PyHash) (i : Instruction) : Except Err Int :=
  P.ofTuple [i.opcode.hash P, match i.data with
    | none => .ok P.none
    | some d => P.data d]

/-- `hash(script)`: `Script` is a tuple of one element, the tuple of instructions (script.py:14-16). -/
def Script.hash (P : PyHash) (s : Script) : Except Err Int :=
  P.ofTuple [P.ofTuple (s.instructions.map fun i => i.hash P)]

/-- `hash(input)`, input.py:14-16. -/
def Input.hash (P : PyHash) (i : Input) : Except Err Int :=
  P.ofTuple [.ok (P.text i.txId), .ok (P.int i.txoIndex), i.script.hash P, .ok (P.int i.seqNumber)]

/-- `hash(output)`, output.py:10-12. -/
def Output.hash (P : PyHash) (o : Output) : Except Err Int :=
  P.ofTuple [.ok (P.int o.amount), o.script.hash P]

/-- `hash(transaction)`, transaction.py:11-13; `inputs` and `outputs` are tuples (transaction.py:38-39). -/
def Transaction.hash (P : PyHash) (t : Transaction) : Except Err Int :=
  P.ofTuple [P.ofTuple (t.inputs.map fun i => i.hash P), P.ofTuple (t.outputs.map fun o => o.hash P),
    .ok (P.int t.lockTime), .ok (P.int t.version)]

/-- `hash(network)`, networks.py:12-24: `seeds` is a list (networks.py:38, 57), which has no hash. -/
def Network.hash (P : PyHash) (n : Network) : Except Err Int :=
  P.ofTuple [.ok (P.text n.name), .ok (P.int n.pubkeyhash), .ok (P.int n.wifPrefix), .ok (P.int n.scripthash),
    .ok (P.int n.hdPublicKey), .ok (P.int n.hdPrivateKey), .ok (P.int n.magic), .ok (P.int n.port), .error .typeError]

/-- `hash(address)`, address.py:12. -/
def Address.hash (P : PyHash) (a : Address) : Except Err Int :=
  P.ofTuple [.ok (P.bytes a.phash), a.network.hash P, .ok P.object]

/-- `hash(key)`, privkey.py:27-29; `hash(True)` is `hash(1)`. -/
def PrivateKey.hash (P : PyHash) (k : PrivateKey) : Except Err Int :=
  P.ofTuple [.ok (P.int k.secret), k.network.hash P, .ok (P.int (if k.compressed then 1 else 0))]

/-- `hash(key)`, pubkey.py:18-20; the pair is a tuple. -/
def PublicKey.hash (P : PyHash) (k : PublicKey) : Except Err Int :=
  P.ofTuple [P.ofTuple [.ok (P.int k.pair.1), .ok (P.int k.pair.2)], k.network.hash P,
    .ok (P.int (if k.compressed then 1 else 0))]

end Bitforge
