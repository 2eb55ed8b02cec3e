import Verif.Py

/-! # The parts of CPython 2.7's `urlparse` and `urllib` used by `bitforge/uri.py`

Not code of the library; transcribed from `Lib/urlparse.py` and `Lib/urllib.py` of CPython 2.7.9.  The texts are
`unicode` objects. -/

namespace Bitforge

/-- Split at the first occurrence of a character. -/
def partitionAt (c : Char) : Text → Text × Option Text
  | [] => ([], none)
  | x :: t => if x = c then ([], some t) else (x :: (partitionAt c t).1, (partitionAt c t).2)

/-- `text.split(c)`. -/
def splitAll (c : Char) : Text → List Text
  | [] => [[]]
  | x :: t =>
    if x = c then [] :: splitAll c t
    else match splitAll c t with
      | [] => [[x]]
      | w :: ws => (x :: w) :: ws

namespace Url

/-- `urlparse.scheme_chars`. -/
def schemeChar (c : Char) : Bool := c.isAlphanum || c = '+' || c = '-' || c = '.'

/-- `urlsplit`: the scheme in lower case, and what follows.  The scheme `http` may be followed by digits
only. -/
def splitScheme (url : Text) : Text × Text :=
  match partitionAt ':' url with
  | (pre, some rest) =>
    if pre = [] then ([], url)
    else if pre = "http".toList then (pre, rest)
    else if pre.all schemeChar ∧ (rest = [] ∨ rest.any fun c => !c.isDigit) then (pre.map Char.toLower, rest)
    else ([], url)
  | (_, none) => ([], url)

/-- `_splitnetloc(url, 2)` -/
def splitNetloc (url : Text) : Text × Text :=
  let inside := fun c : Char => c ≠ '/' && c ≠ '?' && c ≠ '#'
  ((url.drop 2).takeWhile inside, (url.drop 2).dropWhile inside)

/-- The result of `urlparse`, without the fragment and the parameters. -/
structure Parsed where
  scheme : Text
  netloc : Text
  path : Text
  query : Text
  deriving DecidableEq, Repr

/-- `urlparse.uses_params` -/
def usesParams : List String :=
  ["", "ftp", "hdl", "prospero", "http", "https", "shttp", "rtsp", "rtspu", "sip", "sips", "mms", "sftp", "tel"]

/-- `_splitparams`, the path only: cut at the first semicolon after the last slash. -/
def cutParams (path : Text) : Text :=
  let last := (path.reverse.takeWhile (· ≠ '/')).reverse
  path.take (path.length - last.length) ++ last.takeWhile (· ≠ ';')

/-- `urlparse` (with `urlsplit`) -/
def urlparse (url : Text) : Except Err Parsed :=
  let (scheme, url) := splitScheme url
  let (netloc, url) := if url.take 2 = "//".toList then splitNetloc url else ([], url)
  if ('[' ∈ netloc ∧ ']' ∉ netloc) ∨ (']' ∈ netloc ∧ '[' ∉ netloc) then .error .valueError
  else
    let url := (partitionAt '#' url).1
    let path := (partitionAt '?' url).1
    let query := ((partitionAt '?' url).2).getD []
    .ok ⟨scheme, netloc, if String.ofList scheme ∈ usesParams then cutParams path else path, query⟩

/-- The value of a hexadecimal digit. -/
def hexDigit? (c : Char) : Option Nat :=
  if c.isDigit then some (c.toNat - 48)
  else if 'a' ≤ c ∧ c ≤ 'f' then some (c.toNat - 87)
  else if 'A' ≤ c ∧ c ≤ 'F' then some (c.toNat - 55)
  else none

/-- `unquote` of a `unicode` object: escapes give the characters of Latin-1. -/
def unquote : Text → Text
  | [] => []
  | c :: a :: b :: t =>
    if c = '%' then
      match hexDigit? a, hexDigit? b with
      | some x, some y => Char.ofNat (16 * x + y) :: unquote t
      | _, _ => c :: unquote (a :: b :: t)
    else c :: unquote (a :: b :: t)
  | c :: t => c :: unquote t

/-- `s.replace('+', ' ')` -/
def plusToSpace (t : Text) : Text := t.map fun c => if c = '+' then ' ' else c

/-- One part of a query: nothing without an equals sign or with an empty value. -/
def parsePair (nameValue : Text) : Option (Text × Text) :=
  match partitionAt '=' nameValue with
  | (_, none) => none
  | (_, some []) => none
  | (name, some value) => some (unquote (plusToSpace name), unquote (plusToSpace value))

/-- `parse_qsl` -/
def parseQsl (qs : Text) : List (Text × Text) :=
  ((splitAll '&' qs).flatMap (splitAll ';')).filterMap parsePair

/-- `urllib.always_safe` -/
def alwaysSafe (c : Char) : Bool := c.isAlphanum || c = '_' || c = '.' || c = '-'

/-- The upper-case hexadecimal digit. -/
def hexUpper (d : Nat) : Char := if d < 10 then Char.ofNat (48 + d) else Char.ofNat (55 + d)

/-- `quote_plus` of an ASCII `str`, character by character. -/
def quotePlus (t : Text) : Text :=
  t.flatMap fun c =>
    if alwaysSafe c then [c] else if c = ' ' then ['+'] else ['%', hexUpper (c.toNat / 16), hexUpper (c.toNat % 16)]

/-- `str(text)` of a `unicode` object. -/
def asciiText (t : Text) : Except Err Text :=
  if t.all fun c => c.toNat < 128 then .ok t else .error .unicodeEncodeError

/-- `urlencode` -/
def urlencode : List (Text × Text) → Except Err Text
  | [] => .ok []
  | (k, v) :: rest => do
    let k ← asciiText k
    let v ← asciiText v
    let tail ← urlencode rest
    return quotePlus k ++ '=' :: quotePlus v ++ (if rest = [] then [] else '&' :: tail)

end Url
end Bitforge
