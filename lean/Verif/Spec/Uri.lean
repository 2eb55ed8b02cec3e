import Verif.Uri

/-! # What the text of a `bitcoin:` URI is -/

namespace Bitforge.Spec

/-- Characters that are left alone in a query: letters, digits, `_`, `.`, `-`. -/
def Safe (c : Char) : Prop :=
  (48 ≤ c.toNat ∧ c.toNat ≤ 57) ∨ (65 ≤ c.toNat ∧ c.toNat ≤ 90) ∨ (97 ≤ c.toNat ∧ c.toNat ≤ 122) ∨
    c = '_' ∨ c = '.' ∨ c = '-'

/-- The upper-case hexadecimal digits. -/
def hexDigits : Text := "0123456789ABCDEF".toList

/-- A character and its form in a query: a space becomes `+`, other characters become `%XX`. -/
def EscapedChar (c : Char) (t : Text) : Prop :=
  (Safe c ∧ t = [c]) ∨ (c = ' ' ∧ t = ['+']) ∨
    (¬ Safe c ∧ c ≠ ' ' ∧ ∃ (a b : Nat) (x y : Char), c.toNat = 16 * a + b ∧ b < 16 ∧ hexDigits[a]? = some x ∧
      hexDigits[b]? = some y ∧ t = ['%', x, y])

/-- An ASCII text and its form in a query. -/
def Escaped (s t : Text) : Prop := (∀ c ∈ s, c.toNat < 128) ∧ ∃ ts, List.Forall₂ EscapedChar s ts ∧ t = ts.flatten

/-- The order of strings by code points. -/
def TextLt (s t : Text) : Prop :=
  (∃ c r, t = s ++ c :: r) ∨ ∃ p a b x y, s = p ++ a :: x ∧ t = p ++ b :: y ∧ a.toNat < b.toNat

/-- Not empty, not zero and not `None`. -/
def Truthy : Value → Prop
  | .text t => t ≠ []
  | .num (.int n) => n ≠ 0
  | .num (.float f) => f ≠ .fin 0
  | .none => False

/-- The entries of a URI that appear in its text. -/
def Shown (u : URI) (k : Text) (v : Value) : Prop :=
  (k = "amount".toList ∧ ∃ a, u.amount = some a ∧ v = .num (.float a.btc)) ∨
  (k = "message".toList ∧ u.message = some v ∧ Truthy v) ∨
  (k = "label".toList ∧ u.label = some v ∧ Truthy v) ∨
  (k = "r".toList ∧ u.r = some v ∧ Truthy v) ∨
  (k, v) ∈ u.extras

/-- An entry and its form in a query. -/
def EntryText (e : Text × Value) (t : Text) : Prop :=
  ∃ k s v, Escaped e.1 k ∧ e.2.str = .ok s ∧ Escaped s v ∧ t = k ++ '=' :: v

/-- The text of a URI with a given text of the address. -/
def UriText (u : URI) (address t : Text) : Prop :=
  ∃ (entries : List (Text × Value)) (parts : List Text), entries.Pairwise (fun e f => TextLt e.1 f.1) ∧
    (∀ k v, (k, v) ∈ entries ↔ Shown u k v) ∧ List.Forall₂ EntryText entries parts ∧
    t = "bitcoin:".toList ++ address ++ (if entries = [] then [] else '?' :: List.intercalate ['&'] parts)

end Bitforge.Spec
