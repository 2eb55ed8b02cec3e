import Verif.Spec.UriRead

/-! # Payment requests of BIP 21

```
bitcoinurn  = "bitcoin:" bitcoinaddress [ "?" bitcoinparams ]
bitcoinparams = bitcoinparam [ "&" bitcoinparams ]
bitcoinparam = [ amountparam / labelparam / messageparam / otherparam / reqparam ]
amountparam = "amount=" *digit [ "." *digit ]
labelparam = "label=" *qchar
otherparam = qchar *qchar [ "=" *qchar ]
reqparam = "req-" qchar *qchar [ "=" *qchar ]
```
-/

namespace Bitforge.Spec

/-- The characters of an RFC 3986 query that stand for themselves, without `=` and `&`. -/
def QChar (c : Char) : Prop :=
  (48 ≤ c.toNat ∧ c.toNat ≤ 57) ∨ (65 ≤ c.toNat ∧ c.toNat ≤ 90) ∨ (97 ≤ c.toNat ∧ c.toNat ≤ 122) ∨
    c ∈ "-._~!$'()*+,;:@/?".toList

/-- A text of the query and the bytes it stands for. -/
inductive QText : Text → List Nat → Prop
  | nil : QText [] []
  | char {c t bs} : QChar c → QText t bs → QText (c :: t) (c.toNat :: bs)
  | escape {a b x y t bs} : HexDigit a x → HexDigit b y → QText t bs → QText ('%' :: a :: b :: t) ((16 * x + y) :: bs)

/-- The text that the bytes encode in UTF-8. -/
def Utf8 (bs : List Nat) (u : Text) : Prop := bs = u.flatMap fun c => (String.utf8EncodeChar c).map UInt8.toNat

/-- A parameter with a value. -/
def Param (p : Text) (e : Text × Text) : Prop :=
  ∃ k v bs cs, p = k ++ '=' :: v ∧ k ≠ [] ∧ QText k bs ∧ QText v cs ∧ Utf8 bs e.1 ∧ Utf8 cs e.2

/-- A payment request whose parameters all have values. -/
def Bip21 (t address : Text) (es : List (Text × Text)) : Prop :=
  ∃ s parts, s.map Char.toLower = "bitcoin".toList ∧ List.Forall₂ Param parts es ∧
    t = s ++ ':' :: (address ++ if parts = [] then [] else '?' :: List.intercalate ['&'] parts)

/-- An ASCII parameter that is not empty. -/
def PlainParam (e : Text × Text) : Prop :=
  (∀ c ∈ e.1, c.toNat < 128) ∧ (∀ c ∈ e.2, c.toNat < 128) ∧ e.2 ≠ []

end Bitforge.Spec
