import Verif.Spec.Codec
import Verif.Networks

/-! # Specifications for networks, WIF and addresses -/

namespace Bitforge.Spec

/-- Base58Check: the payload followed by the first four bytes of its double SHA-256, in base 58. -/
def Base58Check (H : Hashes) (payload : Bytes) (t : Text) : Prop :=
  Base58 (payload ++ (H.sha256 (H.sha256 payload)).take 4) t

/-- Bitcoin's one-byte prefixes: (main network, test network). -/
def wifVersions : Byte × Byte := (0x80, 0xef)
def p2pkhVersions : Byte × Byte := (0x00, 0x6f)
def p2shVersions : Byte × Byte := (0x05, 0xc4)

/-- Select the main or test network's value. -/
def pick (v : Byte × Byte) (test : Bool) : Byte := if test then v.2 else v.1

/-- The network object meant by "main" / "test". -/
def netOf (test : Bool) : Network := if test then Network.testnet else Network.livenet

/-- `t` is the Wallet Import Format of a secret: prefix, 32 bytes big-endian, an optional 0x01. -/
def Wif (H : Hashes) (secret : Nat) (test compressed : Bool) (t : Text) : Prop :=
  ∃ body : Bytes, body.length = 32 ∧ beValue body = secret ∧
    Base58Check H (pick wifVersions test :: body ++ if compressed then [0x01] else []) t

/-- `b` is the 21-byte form of an address. -/
def AddressBytes (phash : Bytes) (test isScript : Bool) (b : Bytes) : Prop :=
  phash.length = 20 ∧ b = pick (if isScript then p2shVersions else p2pkhVersions) test :: phash

end Bitforge.Spec
