import Verif.Spec.Bip32

/-! # Specification of the keys of a path (BIP 32, "the key tree") -/

namespace Bitforge.Spec

/-- What the children of a public key depend on: its chain code and its point. -/
structure Node where
  chain : Bytes
  x : Int
  y : Int

/-- `CKDpub` from node to node: the point of the child is not the point at infinity, which has no coordinates. -/
def Child (H : Hashes) (p : Node) (i : Nat) (c : Node) : Prop :=
  ∃ P, CkdPub H p.chain p.x p.y i P c.chain ∧ IsPoint c.x c.y P ∧ reduced c.x ∧ reduced c.y

/-- The key reached by a path of child numbers: `N(p)/i₁/i₂/…`. -/
inductive Path (H : Hashes) : Node → List Nat → Node → Prop
  | here (p : Node) : Path H p [] p
  | step {p c r : Node} {i : Nat} {is : List Nat} : Child H p i c → Path H c is r → Path H p (i :: is) r

/-- `CKDpriv` for a child number that is not hardened: the secret of the child and its chain code. -/
def CkdPriv (H : Hashes) (chain : Bytes) (d : Nat) (i : Nat) (d' : Nat) (chain' : Bytes) : Prop :=
  ∃ x y sec ib, reduced x ∧ reduced y ∧ IsPoint x y (d • G) ∧ Sec x.toNat y.toNat true sec ∧ BigEndian 4 i ib ∧
    d' = (beValue ((H.hmacSha512 chain (sec ++ ib)).take 32) + d) % secpN ∧
    chain' = (H.hmacSha512 chain (sec ++ ib)).drop 32

/-- The secret reached by a path of child numbers that are not hardened. -/
inductive PrivPath (H : Hashes) : Bytes → Nat → List Nat → Nat → Bytes → Prop
  | here (chain : Bytes) (d : Nat) : PrivPath H chain d [] d chain
  | step {chain chain' chain'' : Bytes} {d d' d'' i : Nat} {is : List Nat} :
    CkdPriv H chain d i d' chain' → d' ≠ 0 → PrivPath H chain' d' is d'' chain'' → PrivPath H chain d (i :: is) d'' chain''

end Bitforge.Spec
