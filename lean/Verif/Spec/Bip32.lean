import Verif.Spec.Ecdsa
import Verif.Spec.Keys

/-! # Specification of extended keys (BIP 32) -/

namespace Bitforge.Spec

/-- `b` spells `n` in `width` bytes, most significant first. -/
def BigEndian (width n : Nat) (b : Bytes) : Prop := b.length = width ∧ beValue b = n

/-- An ASCII string as bytes. -/
def asciiBytes (s : String) : Bytes := s.toList.map fun c => Fin.ofNat 256 c.toNat

/-- The 78 bytes of an extended key: version, depth, fingerprint of the parent, child number, chain code, and
33 bytes of key. -/
def Extended (version depth parent index : Nat) (chain key b : Bytes) : Prop :=
  ∃ v d p i : Bytes, BigEndian 4 version v ∧ BigEndian 1 depth d ∧ BigEndian 4 parent p ∧
    BigEndian 4 index i ∧ chain.length = 32 ∧ key.length = 33 ∧ b = v ++ d ++ p ++ i ++ chain ++ key

/-- Version numbers of private extended keys (`xprv`, `tprv`). -/
def xprvVersion (test : Bool) : Nat := if test then 0x04358394 else 0x0488ade4
/-- Version numbers of public extended keys (`xpub`, `tpub`). -/
def xpubVersion (test : Bool) : Nat := if test then 0x043587cf else 0x0488b21e

/-- The fingerprint of a public key: the first four bytes of the HASH160 of its SEC encoding. -/
def Fingerprint (H : Hashes) (x y : Int) (compressed : Bool) (f : Nat) : Prop :=
  ∃ b, Sec x.toNat y.toNat compressed b ∧ BigEndian 4 f ((H.ripemd160 (H.sha256 b)).take 4)

/-- `CKDpub`: the child number `i` of the public key `(x, y)` with chain code `chain` is the point `child`
with chain code `chain'`. -/
def CkdPub (H : Hashes) (chain : Bytes) (x y : Int) (i : Nat) (child : SecpGroup) (chain' : Bytes) : Prop :=
  ∃ sec ib parent, Sec x.toNat y.toNat true sec ∧ BigEndian 4 i ib ∧ IsPoint x y parent ∧
    child = beValue ((H.hmacSha512 chain (sec ++ ib)).take 32) • G + parent ∧
    chain' = (H.hmacSha512 chain (sec ++ ib)).drop 32

end Bitforge.Spec
