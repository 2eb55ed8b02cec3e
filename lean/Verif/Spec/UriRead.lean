import Verif.Uri
import Verif.Spec.Uri
import Verif.Spec.FloatText
import Verif.Spec.Keys

/-! # Specification of reading the text of a URI

The grammar that Python 2.7's `urlparse` accepts, which is wider than that of BIP 21. -/

namespace Bitforge.Spec

/-- `p` is the text before the first `c`, or all. -/
def Before (c : Char) (t p : Text) : Prop := c ∉ p ∧ (t = p ∨ ∃ r, t = p ++ c :: r)

/-- Letters, digits, `+`, `-`, `.` -/
def SchemeChar (c : Char) : Prop :=
  (48 ≤ c.toNat ∧ c.toNat ≤ 57) ∨ (65 ≤ c.toNat ∧ c.toNat ≤ 90) ∨ (97 ≤ c.toNat ∧ c.toNat ≤ 122) ∨
    c = '+' ∨ c = '-' ∨ c = '.'

/-- The text before a colon is a scheme, unless what follows is a number, as that of a port. -/
def SchemeName (s rest : Text) : Prop :=
  s ≠ [] ∧ ':' ∉ s ∧
    (s = "http".toList ∨ (∀ c ∈ s, SchemeChar c) ∧ (rest = [] ∨ ∃ c ∈ rest, c.toNat < 48 ∨ 57 < c.toNat))

/-- The scheme in lower case, and the rest of the text. -/
inductive Scheme (t : Text) : Text → Text → Prop
  | some {s rest} : t = s ++ ':' :: rest → SchemeName s rest → Scheme t (s.map Char.toLower) rest
  | none : (∀ s rest, t = s ++ ':' :: rest → ¬ SchemeName s rest) → Scheme t [] t

/-- The characters that end the authority. -/
def enders : List Char := ['/', '?', '#']

/-- What stands after two slashes, and the rest. -/
inductive Authority (t : Text) : Text → Text → Prop
  | some {a rest} : t = '/' :: '/' :: (a ++ rest) → (∀ c ∈ a, c ∉ enders) → (rest = [] ∨ ∃ c r, rest = c :: r ∧ c ∈ enders) →
      Authority t a rest
  | none : (∀ r, t ≠ '/' :: '/' :: r) → Authority t [] t

/-- Either both brackets or none. -/
def Balanced (a : Text) : Prop := '[' ∈ a ↔ ']' ∈ a

/-- The path and the query. -/
def PathQuery (t path query : Text) : Prop :=
  ∃ u, Before '#' t u ∧ '?' ∉ path ∧ (u = path ++ '?' :: query ∨ u = path ∧ query = [])

/-- The schemes whose last segment may have parameters. -/
def paramSchemes : List Text :=
  [[], "ftp".toList, "hdl".toList, "prospero".toList, "http".toList, "https".toList, "shttp".toList, "rtsp".toList,
   "rtspu".toList, "sip".toList, "sips".toList, "mms".toList, "sftp".toList, "tel".toList]

/-- The path without the parameters of its last segment. -/
def WithoutParams (path p : Text) : Prop :=
  ∃ dir last l, path = dir ++ last ∧ '/' ∉ last ∧ (dir = [] ∨ ∃ d, dir = d ++ ['/']) ∧ Before ';' last l ∧ p = dir ++ l

/-- The pieces of the query between ampersands and semicolons. -/
inductive Pieces : Text → List Text → Prop
  | last {p} : (∀ c ∈ p, c ≠ '&' ∧ c ≠ ';') → Pieces p [p]
  | more {p c t ps} : (∀ c ∈ p, c ≠ '&' ∧ c ≠ ';') → c = '&' ∨ c = ';' → Pieces t ps → Pieces (p ++ c :: t) (p :: ps)

/-- Hexadecimal digits in both cases. -/
def HexDigit (c : Char) (x : Nat) : Prop := hexDigits[x]? = some c ∨ "0123456789abcdef".toList[x]? = some c

/-- What a text of the query means: a plus is a space, an escape is a character of Latin-1. -/
inductive Decoded : Text → Text → Prop
  | nil : Decoded [] []
  | plus {t u} : Decoded t u → Decoded ('+' :: t) (' ' :: u)
  | escape {a b x y t u} : HexDigit a x → HexDigit b y → Decoded t u →
      Decoded ('%' :: a :: b :: t) (Char.ofNat (16 * x + y) :: u)
  | char {c t u} : c ≠ '+' → (∀ a b x y r, c :: t = '%' :: a :: b :: r → ¬ (HexDigit a x ∧ HexDigit b y)) → Decoded t u →
      Decoded (c :: t) (c :: u)

/-- A piece is an entry if there is something after an equals sign. -/
def Item (p : Text) (e : Text × Text) : Prop :=
  ∃ a b, p = a ++ '=' :: b ∧ '=' ∉ a ∧ b ≠ [] ∧ Decoded a e.1 ∧ Decoded b e.2

/-- The entries of the query; other pieces are skipped. -/
inductive Items : List Text → List (Text × Text) → Prop
  | nil : Items [] []
  | item {p e ps es} : Item p e → Items ps es → Items (p :: ps) (e :: es)
  | skip {p ps es} : (∀ e, ¬ Item p e) → Items ps es → Items (p :: ps) es

/-- The last entry with a key. -/
def LastEntry (es : List (Text × Text)) (k v : Text) : Prop :=
  ∃ xs ys, es = xs ++ (k, v) :: ys ∧ ∀ e ∈ ys, e.1 ≠ k

/-- The text of the address, and the entries. -/
def UriParts (t address : Text) (es : List (Text × Text)) : Prop :=
  ∃ scheme rest authority tail path query p ps, Scheme t scheme rest ∧ Authority rest authority tail ∧ Balanced authority ∧
    PathQuery tail path query ∧ (scheme ∈ paramSchemes ∧ WithoutParams path p ∨ scheme ∉ paramSchemes ∧ p = path) ∧
    (p = [] ∧ address = authority ∨ p ≠ [] ∧ address = p) ∧ Pieces query ps ∧ Items ps es

/-- Truncation towards zero. -/
def Truncated (w : ℚ) (n : Int) : Prop := |w - n| < 1 ∧ |(n : ℚ)| ≤ |w| ∧ 0 ≤ w * n

/-- A number of satoshis, and the number of units of `10^k` satoshis as the closest `float`. -/
def UnitOf (n : Int) (a : BtcUnit) : Prop :=
  ∃ x y z, a = ⟨n, .fin x, .fin y, .fin z⟩ ∧ Rounded64 (n / 10 ^ 2) x ∧ Rounded64 (n / 10 ^ 5) y ∧ Rounded64 (n / 10 ^ 8) z

/-- The amount written: the decimal number is rounded to a `float`, multiplied by `10^8`, rounded again, and truncated. -/
def AmountOf (s : Text) (a : BtcUnit) : Prop :=
  ∃ v w n, FloatOf s (.fin v) ∧ |v * 10 ^ 8| < 2 ^ 970 * (2 ^ 54 - 1) ∧ Rounded64 (v * 10 ^ 8) w ∧ Truncated w n ∧ UnitOf n a

/-- The keys that are no extras. -/
def memberKeys : List Text := ["address".toList, "amount".toList, "message".toList, "label".toList, "r".toList]

/-- The text is read as this URI. -/
structure ReadsAs (H : Hashes) (t address : Text) (es : List (Text × Text)) (u : URI) : Prop where
  parts : UriParts t address es
  address : ∃ b phash test isScript, Base58Check H b address ∧ AddressBytes phash test isScript b ∧
    u.address = ⟨phash, netOf test, if isScript then .script else .publicKey⟩
  amount : ((∀ s, ¬ LastEntry es "amount".toList s) ∧ u.amount = none) ∨
    ∃ s a, LastEntry es "amount".toList s ∧ AmountOf s a ∧ u.amount = some a
  message : ∀ v, u.message = some v ↔ ∃ s, LastEntry es "message".toList s ∧ v = .text s
  label : ∀ v, u.label = some v ↔ ∃ s, LastEntry es "label".toList s ∧ v = .text s
  r : ∀ v, u.r = some v ↔ ∃ s, LastEntry es "r".toList s ∧ v = .text s
  extras : (u.extras.map Prod.fst).Nodup ∧
    ∀ k v, (k, v) ∈ u.extras ↔ k ∉ memberKeys ∧ ∃ s, LastEntry es k s ∧ v = .text s

/-- Why a text is not read as a number of bitcoins. -/
inductive NoAmount (s : Text) : Err → Prop
  | unicode {c} : c ∈ s → (∀ x, ¬ Seen c x) → NoAmount s .unicodeEncodeError
  | syntax : (∀ c ∈ s, ∃ x, Seen c x) → (∀ x, ¬ FloatOf s x) → NoAmount s .valueError
  | nan : FloatOf s .nan → NoAmount s .valueError
  | infinite {neg} : FloatOf s (.inf neg) → NoAmount s .overflowError
  | large {v} : FloatOf s (.fin v) → 2 ^ 970 * (2 ^ 54 - 1) ≤ |v * 10 ^ 8| → NoAmount s .overflowError

/-- Why a text is not read as a URI. -/
inductive NoUri (H : Hashes) (t : Text) : Err → Prop
  | brackets {s r a tail} : Scheme t s r → Authority r a tail → ¬ Balanced a → NoUri H t .valueError
  | amount {address es s e} : UriParts t address es → LastEntry es "amount".toList s → NoAmount s e → NoUri H t e
  | address {address es e} : UriParts t address es →
      ((∀ s, ¬ LastEntry es "amount".toList s) ∨ ∃ s a, LastEntry es "amount".toList s ∧ AmountOf s a) →
      Address.fromString H address = .error e → NoUri H t e

end Bitforge.Spec
