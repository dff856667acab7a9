import Verif.Model.Core

/-!
# Names as URIs: `ccnpy/core/Name.py` (`from_uri`, `as_uri`, `__getitem__`, `component`, `__repr__`) and
`TreeIO.get_link_name`

`urllib.parse.urlparse` and `pathlib.PurePath` are library code (CPython 3.12, POSIX); the parts that are used are written out.
-/

namespace Ccnpy

/-- A Python `str`, as its code points.  Lone surrogates, which Python allows in a `str`, are not represented. -/
abbrev Text := List Char

/-- `str.encode()` (UTF-8). -/
def utf8Encode (t : Text) : Bytes := t.flatMap String.utf8EncodeChar

/-- Decode character by character; the number of bytes is the fuel. -/
def utf8DecodeLoop : Nat → Bytes → Option Text
  | _, [] => some []
  | 0, _ :: _ => none
  | fuel + 1, b =>
    match ByteArray.utf8DecodeChar? b.toByteArray 0 with
    | none => none
    | some c => (utf8DecodeLoop fuel (b.drop c.utf8Size)).map (c :: ·)

/-- `bytes.decode('UTF-8')`; `none` is UnicodeDecodeError. -/
def utf8Decode (b : Bytes) : Option Text := utf8DecodeLoop b.length b

/-- UnicodeDecodeError is a ValueError. -/
def utf8DecodePy (b : Bytes) : Py Text :=
  match utf8Decode b with
  | none => .error .valueError
  | some t => .ok t

/-! ## Library code -/

/-- urllib.parse `scheme_chars` -/
def schemeChar (c : Char) : Bool := c.isAlphanum || c == '+' || c == '-' || c == '.'

/-- urllib.parse.urlsplit: the scheme (in lower case) and the rest. -/
def splitScheme (u : Text) : Text × Text :=
  match u with
  | [] => ([], [])
  | c :: _ =>
    let s := u.takeWhile (· != ':')
    if s.length < u.length && c.isAlpha && s.all schemeChar then (s.map Char.toLower, u.drop (s.length + 1)) else ([], u)

/-- urllib.parse.urlparse: scheme and path.  Leading control characters and spaces and all tabs and line ends are removed; a
network location, the query and the fragment are cut off.  Simplified: the checks of the network location (brackets,
normalization) that may raise ValueError are left out, as are the parameters (`;`), which are only split off for other schemes. -/
def urlParse (u : Text) : Text × Text :=
  let u := u.dropWhile (fun c => c.toNat ≤ 32)
  let u := u.filter (fun c => !(c == '\t' || c == '\r' || c == '\n'))
  let (scheme, u) := splitScheme u
  let u :=
    match u with
    | '/' :: '/' :: r => r.dropWhile (fun c => !(c == '/' || c == '?' || c == '#'))
    | _ => u
  (scheme, u.takeWhile (fun c => !(c == '?' || c == '#')))

/-- `str.split(sep)` for one character. -/
def splitOn (sep : Char) : Text → List Text
  | [] => [[]]
  | c :: cs =>
    if c == sep then [] :: splitOn sep cs
    else
      match splitOn sep cs with
      | [] => [[c]]
      | x :: xs => (c :: x) :: xs

/-- `sep.join(parts)` for one character. -/
def joinWith (sep : Char) : List Text → Text
  | [] => []
  | [x] => x
  | x :: y :: xs => x ++ sep :: joinWith sep (y :: xs)

/-- pathlib.PurePath(p).parts: the root first, if any; empty and `.` segments are dropped. -/
def purePathParts (p : Text) : List Text :=
  let tail := (splitOn '/' p).filter (fun x => x != [] && x != ['.'])
  match p with
  | '/' :: '/' :: '/' :: _ => ['/'] :: tail
  | '/' :: '/' :: _ => ['/', '/'] :: tail
  | '/' :: _ => ['/'] :: tail
  | _ => tail

/-! ## core/Name.py -/

/-- core/Name.py:190-210 `from_uri` -/
def Name.fromUri : Option Text → Py (Option Name)
  | none => .ok none
  | some u => do
    let p := urlParse u
    pyAssert (p.1 == ['c', 'c', 'n', 'x'])
    let cs ← ((purePathParts p.2).drop 1).mapM (fun c => construct NameComponent.tlv (.nameSegment (utf8Encode c)))
    let n ← construct Name.tlv ⟨cs⟩
    return some n

/-- The texts in core/Name.py:59-63 and flic/tree/TreeIO.py:44. -/
def tagName : Text := ['N', 'a', 'm', 'e', '=']
def tagChunk : Text := ['C', 'h', 'u', 'n', 'k', 'I', 'd', '=']
def tagManifest : Text := ['M', 'a', 'n', 'i', 'f', 'e', 's', 't', 'I', 'd', '=']
def tagLink : Text := ['.', 'l', 'i', 'n', 'k']

/-- CPython 3.11 and later (the code needs 3.12): `str` and `%r` of an integer raise ValueError when it has more than 4300 decimal digits
(`sys.int_info.default_max_str_digits`). -/
@[irreducible] def strLimit : Nat := 10 ^ 4300

/-- `str` of an integer (library code). -/
def decimal (n : Nat) : Py Text := if n < strLimit then .ok (Nat.toDigits 10 n) else .error .valueError

/-- core/Name.py:56-66 `NameComponent.__repr__`.  An `array` has no `decode`.  `R` stands for the text of a component of another
type (IPID or unknown), which contains Python's own rendering of the value. -/
def NameComponent.repr (R : NameComponent → Text) (c : NameComponent) : Py Text :=
  if c.type = T_CHUNKID then do return tagChunk ++ (← decimal (arrayToNumber c.value))
  else if c.type = T_NAMESEGMENT then
    if c.isArray then .error .attributeError
    else do return tagName ++ (← utf8DecodePy c.value)
  else if c.type = T_MANIFESTID then do return tagManifest ++ (← decimal (arrayToNumber c.value))
  else .ok (R c)

/-- core/Name.py:118-120 `as_uri` -/
def Name.asUri (R : NameComponent → Text) (n : Name) : Py Text := do
  let cs ← n.components.mapM (NameComponent.repr R)
  return ['c', 'c', 'n', 'x', ':', '/'] ++ joinWith '/' cs

/-- `list[index]` -/
def pyIndex {α : Type} (l : List α) (i : Int) : Py α :=
  let j := if i < 0 then i + l.length else i
  if j < 0 then .error .indexError
  else
    match l[j.toNat]? with
    | none => .error .indexError
    | some a => .ok a

/-- core/Name.py:106-116 `__getitem__`: an `array` is returned as it is, anything else as text. -/
def Name.getItem (n : Name) (i : Int) : Py (Bytes ⊕ Text) := do
  let c ← pyIndex n.components i
  if c.isArray then return .inl c.value
  else return .inr (← utf8DecodePy c.value)

/-- core/Name.py:155-163 `component` -/
def Name.component (n : Name) (i : Int) : Py NameComponent := do
  pyAssert (0 ≤ i)
  pyIndex n.components i

/-! ## flic/tree/TreeIO.py -/

/-- flic/tree/TreeIO.py:40-46 `get_link_name` -/
def linkName (R : NameComponent → Text) (n : Name) : Py Text := do
  let u ← n.asUri R
  return ((urlParse u).2.map (fun c => if c == '/' then '~' else c)) ++ tagLink

end Ccnpy
