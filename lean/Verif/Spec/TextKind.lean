import Verif.Spec.Keys

/-! # How the texts of addresses and keys begin

From the Bitcoin wiki, *List of address prefixes*. -/

namespace Bitforge.Spec

/-- The first characters of addresses. -/
def addressStart (test isScript : Bool) : List Char :=
  match test, isScript with
  | false, false => ['1']
  | false, true => ['3']
  | true, false => ['m', 'n']
  | true, true => ['2']

/-- The first characters of private keys in the wallet import format. -/
def wifStart (test compressed : Bool) : List Char :=
  match test, compressed with
  | false, false => ['5']
  | false, true => ['K', 'L']
  | true, false => ['9']
  | true, true => ['c']

/-- The first characters of extended keys. -/
def extendedStart (test isPrivate : Bool) : Text :=
  match test, isPrivate with
  | false, false => ['x', 'p', 'u', 'b']
  | false, true => ['x', 'p', 'r', 'v']
  | true, false => ['t', 'p', 'u', 'b']
  | true, true => ['t', 'p', 'r', 'v']

end Bitforge.Spec
