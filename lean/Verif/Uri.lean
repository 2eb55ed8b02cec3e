import Verif.Address
import Verif.Unit
import Verif.FloatText
import Verif.Url

/-! # `bitforge/uri.py` -/

namespace Bitforge

/-- A value in a dictionary of arguments: a `unicode` object, a number or `None`. -/
inductive Value
  | text (t : Text)
  | num (n : Num)
  | none
  deriving DecidableEq, Repr

namespace Value

/-- `if value` -/
def truthy : Value → Bool
  | .text t => t ≠ []
  | .num (.int n) => n ≠ 0
  | .num (.float f) => f ≠ .fin 0
  | .none => false

/-- `str(value)` -/
def str : Value → Except Err Text
  | .text t => Url.asciiText t
  | .num (.int n) => .ok (ToString.toString n).toList
  | .num (.float f) => .ok (floatText f)
  | .none => .ok "None".toList

end Value

/-- A Python dictionary with `unicode` keys: at most one entry per key; the order does not matter. -/
abbrev Dict (α : Type) := List (Text × α)

namespace Dict

/-- `d.get(k)` -/
def get? {α : Type} (d : Dict α) (k : Text) : Option α :=
  match d with
  | [] => none
  | (k', v) :: rest => if k' = k then some v else get? rest k

/-- `d[k] = v` -/
def set {α : Type} (d : Dict α) (k : Text) (v : α) : Dict α := (k, v) :: d.filter fun e => e.1 ≠ k

/-- `dict(items)`: the last of several items with the same key counts. -/
def ofItems {α : Type} (items : List (Text × α)) : Dict α := items.foldl (fun d e => set d e.1 e.2) []

end Dict

/-- Order of Python strings. -/
def textLe : Text → Text → Bool
  | [], _ => true
  | _ :: _, [] => false
  | a :: s, b :: t => if a = b then textLe s t else a.toNat < b.toNat

/-- Insertion by key. -/
def insertByKey {α : Type} (e : Text × α) : List (Text × α) → List (Text × α)
  | [] => [e]
  | x :: rest => if textLe e.1 x.1 then e :: x :: rest else x :: insertByKey e rest

/-- `sorted(d.items())`: keys are different, so that values are never compared. -/
def sortByKey {α : Type} : List (Text × α) → List (Text × α)
  | [] => []
  | e :: rest => insertByKey e (sortByKey rest)

/-- The attributes of a `URI`, uri.py:41-52.  An attribute that was never set is `none`. -/
structure URI where
  address : Address
  amount : Option BtcUnit
  message : Option Value
  label : Option Value
  r : Option Value
  extras : Dict Value
  deriving DecidableEq, Repr

/-- The argument of `URI`: a string, a dictionary, or something else.  The dictionary is given as its value
under `amount`, a number or `None` (a text there is not modelled), and the other entries. -/
inductive UriArg
  | text (t : Text)
  | dict (amount : Option (Option Num)) (rest : Dict Value)
  | other

namespace URI

/-- `MEMBERS`, uri.py:42 -/
def members : List Text := ["address".toList, "amount".toList, "message".toList, "label".toList, "r".toList]

/-- `URI.parse`, uri.py:24-29 -/
def parse (uri : Text) : Except Err (Dict Text) := do
  let parsed ← Url.urlparse uri
  let data := Dict.ofItems (Url.parseQsl parsed.query)
  return Dict.set data "address".toList (if parsed.path ≠ [] then parsed.path else parsed.netloc)

/-- `Address.from_string(self.address)`, uri.py:51: a number or `None` has no `encode`. -/
def readAddress (H : Hashes) : Value → Except Err Address
  | .text t => Address.fromString H t
  | .num _ | .none => .error .attributeError

/-- `_build_from_dict`, uri.py:41-52 -/
def buildFromDict (H : Hashes) (amount : Option (Option Num)) (args : Dict Value) : Except Err URI := do
  let extras := args.filter fun e => e.1 ∉ members
  match Dict.get? args "address".toList with
  | none => .error .attributeError
  | some a =>
    let address ← readAddress H a
    let amount ← match amount with
      | some n => (BtcUnit.new n none none none).map some
      | none => .ok none
    return ⟨address, amount, Dict.get? args "message".toList, Dict.get? args "label".toList,
      Dict.get? args "r".toList, extras⟩

/-- The text under `amount`, read as a number of bitcoins, uri.py:34-35. -/
def readAmount (args : Dict Text) : Except Err (Option Num) :=
  match Dict.get? args "amount".toList with
  | none => .ok none
  | some t => do
    let f ← parseFloat t
    let u ← BtcUnit.ofBtc (.float f)
    return some (.int u.satoshis)

/-- `URI.__init__`, uri.py:31-39 -/
def new (H : Hashes) : UriArg → Except Err URI
  | .text t => do
    let args ← parse t
    let amount ← readAmount args
    buildFromDict H (amount.map some) ((args.filter fun e => e.1 ≠ "amount".toList).map fun e => (e.1, .text e.2))
  | .dict amount rest => buildFromDict H amount rest
  | .other => .error .valueError

/-- Is the exception a `ValueError` or a `BitforgeError`, for those that `URI` can raise? -/
def caught : Err → Bool
  | .valueError | .unicodeDecodeError | .unicodeEncodeError => true
  | .addrUnknownNetwork | .addrInvalidVersion | .addrInvalidBase58h | .addrInvalidHex | .addrInvalidHashLength
  | .addrInvalidBinaryLength | .addrInvalidType => true
  | _ => false

/-- `URI.is_valid`, uri.py:16-22 -/
def isValid (H : Hashes) (uri : UriArg) : Except Err Bool :=
  match new H uri with
  | .ok _ => .ok true
  | .error e => if caught e then .ok false else .error e

/-- One attribute of the query, uri.py:58-60 -/
def addMember (query : Dict Value) (key : String) (value : Option Value) : Dict Value :=
  match value with
  | some v => if v.truthy then Dict.set query key.toList v else query
  | none => query

/-- The amount of the query, uri.py:56-57.  A `Unit` is always true. -/
def addAmount (query : Dict Value) (amount : Option BtcUnit) : Dict Value :=
  match amount with
  | some a => Dict.set query "amount".toList (.num (.float a.btc))
  | none => query

/-- The dictionary of the query, uri.py:55-60 -/
def query (u : URI) : Dict Value :=
  let q := addAmount u.extras u.amount
  let q := addMember q "message" u.message
  let q := addMember q "label" u.label
  addMember q "r" u.r

/-- `urlencode`'s conversion of the values, `str(v)`. -/
def strItems : List (Text × Value) → Except Err (List (Text × Text))
  | [] => .ok []
  | (k, v) :: rest => do
    let k ← Url.asciiText k
    let v ← v.str
    let tail ← strItems rest
    return (k, v) :: tail

/-- `to_uri`, uri.py:54-63 -/
def toUri (H : Hashes) (u : URI) : Except Err Text := do
  let items ← strItems (sortByKey u.query)
  let query ← Url.urlencode items
  let address ← u.address.toString H
  return "bitcoin:".toList ++ address ++ (if query ≠ [] then '?' :: query else [])

end URI
end Bitforge
