import Verif.Py

/-! # Specification of a byte stream: a first-in first-out queue -/

namespace Bitforge.Spec

/-- An operation on a buffer. -/
inductive BufOp
  | read (n : Nat)
  | write (d : Bytes)

/-- The bytes written by a history. -/
def written : List BufOp → Bytes
  | [] => []
  | .read _ :: ops => written ops
  | .write d :: ops => d ++ written ops

/-- The bytes returned by the successful reads of a history. -/
def returned : List (Except Err Bytes) → Bytes
  | [] => []
  | .ok b :: rs => b ++ returned rs
  | .error _ :: rs => returned rs

end Bitforge.Spec
