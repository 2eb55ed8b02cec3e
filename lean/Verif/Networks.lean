import Verif.Py

/-! # `bitforge/networks.py`, `bitforge/compat.py` -/

namespace Bitforge

/-- `chr`, compat.py:7-8 (`bytearray([n])` rejects numbers outside `range(256)`). -/
def pyChr (n : Nat) : Except Err Byte :=
  if h : n < 256 then .ok ⟨n, h⟩ else .error .valueError

/-- `Network`, networks.py:12-24.  Users may build their own. -/
structure Network where
  name : Text
  pubkeyhash : Nat
  wifPrefix : Nat
  scripthash : Nat
  hdPublicKey : Nat
  hdPrivateKey : Nat
  magic : Nat
  port : Nat
  seeds : List Text
  deriving DecidableEq, Repr

/-- Python values that can be compared with a network attribute. -/
inductive NetValue
  | network (n : Network)
  | int (n : Int)
  | text (s : Text)
  | list (l : List Text)
  deriving DecidableEq, Repr

namespace Network

/-- `testnet`, networks.py:27-44. -/
def testnet : Network where
  name := "testnet".toList
  pubkeyhash := 111
  wifPrefix := 239
  scripthash := 196
  hdPublicKey := 0x043587cf
  hdPrivateKey := 0x04358394
  magic := 0x0b110907
  port := 18333
  seeds := ["testnet-seed.bitcoin.petertodd.org".toList, "testnet-seed.bluematt.me".toList,
    "testnet-seed.alexykot.me".toList, "testnet-seed.bitcoin.schildbach.de".toList]

/-- `default = livenet`, networks.py:46-65. -/
def livenet : Network where
  name := "livenet".toList
  pubkeyhash := 0x00
  wifPrefix := 0x80
  scripthash := 0x05
  hdPublicKey := 0x0488b21e
  hdPrivateKey := 0x0488ade4
  magic := 0xf9beb4d9
  port := 8333
  seeds := ["seed.bitcoin.sipa.be".toList, "dnsseed.bluematt.me".toList, "dnsseed.bitcoin.dashjr.org".toList,
    "seed.bitcoinstats.com".toList, "seed.bitnodes.io".toList, "bitseed.xf2.org".toList]

/-- `_networks`, networks.py:67. -/
def all : List Network := [livenet, testnet]

/-- `getattr(network, attr)`; `none` is the AttributeError.  Attributes that every named tuple has
(`count`, `index`, `_fields`, double-underscore names) are left out. -/
def getAttr (n : Network) (attr : String) : Option NetValue :=
  if attr = "name" then some (.text n.name)
  else if attr = "pubkeyhash" then some (.int n.pubkeyhash)
  else if attr = "wif_prefix" then some (.int n.wifPrefix)
  else if attr = "scripthash" then some (.int n.scripthash)
  else if attr = "hd_public_key" then some (.int n.hdPublicKey)
  else if attr = "hd_private_key" then some (.int n.hdPrivateKey)
  else if attr = "magic" then some (.int n.magic)
  else if attr = "port" then some (.int n.port)
  else if attr = "seeds" then some (.list n.seeds)
  else none

/-- The `for` loop of `find`, networks.py:73-79.  A missing attribute ends the search. -/
def findLoop (value : NetValue) (attr : String) : List Network → Option Network
  | [] => none
  | n :: ns =>
    match n.getAttr attr with
    | none => none
    | some v => if v = value then some n else findLoop value attr ns

/-- `find(value, attr, raises=False)`, networks.py:69-82. -/
def find? (value : NetValue) (attr : String := "name") : Option Network :=
  match value with
  | .network n => some n
  | value => findLoop value attr all

/-- `find(value, attr)`, networks.py:69-82. -/
def find (value : NetValue) (attr : String := "name") : Except Err Network :=
  match find? value attr with
  | some n => .ok n
  | none => .error .unknownNetwork

end Network
end Bitforge
