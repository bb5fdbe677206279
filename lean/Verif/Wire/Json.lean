import Verif.Preproc.Model
/-!
# JSON as text

`serde_json::to_string`, by which the preprocessor writes the data attributes of an element and the responses that it caches
(`crates/mdbook-aquascope/src/preprocessor.rs:127, 149-167`), and `JSON.parse`, by which the page reads the attributes
(`frontend/packages/aquascope-embed/src/main.tsx:181-182`; `serde_json::from_str`, `preprocessor.rs:150-151`, accepts the
same texts).  Both libraries are stated from memory.

Simplifications: numbers stay texts (`Preproc.Json`); an escape `\uXXXX` for half of a surrogate pair is refused, since strings
are lists of characters here (the writer makes none).
-/
namespace Verif.Wire
open Verif.Preproc (Json)

/-! ## Writing -/

/-- A hexadecimal digit. -/
def hexDigit (k : Nat) : Char := if k < 10 then Char.ofNat (48 + k) else Char.ofNat (87 + k)

/-- `format_escaped_str` (serde_json), one character. -/
def escapeChar (c : Char) : List Char :=
  if c = '"' then ['\\', '"']
  else if c = '\\' then ['\\', '\\']
  else if c.toNat = 8 then ['\\', 'b']
  else if c.toNat = 9 then ['\\', 't']
  else if c.toNat = 10 then ['\\', 'n']
  else if c.toNat = 12 then ['\\', 'f']
  else if c.toNat = 13 then ['\\', 'r']
  else if c.toNat < 32 then ['\\', 'u', '0', '0', hexDigit (c.toNat / 16), hexDigit (c.toNat % 16)]
  else [c]

/-- A string with its quotes. -/
def writeStr (s : List Char) : List Char := '"' :: (s.flatMap escapeChar ++ ['"'])

mutual
/-- `serde_json::to_string`. -/
def write : Json → List Char
  | .null => ['n', 'u', 'l', 'l']
  | .bool true => ['t', 'r', 'u', 'e']
  | .bool false => ['f', 'a', 'l', 's', 'e']
  | .num s => s
  | .str s => writeStr s
  | .arr xs => '[' :: writeFirst xs
  | .obj fs => '{' :: writeFirstField fs
/-- The items of an array and the bracket after them. -/
def writeFirst : List Json → List Char
  | [] => [']']
  | x :: xs => write x ++ writeItems xs
/-- Further items. -/
def writeItems : List Json → List Char
  | [] => [']']
  | x :: xs => ',' :: (write x ++ writeItems xs)
/-- The fields of an object and the brace after them. -/
def writeFirstField : List (List Char × Json) → List Char
  | [] => ['}']
  | x :: xs => writeField x ++ writeFields xs
/-- Further fields. -/
def writeFields : List (List Char × Json) → List Char
  | [] => ['}']
  | x :: xs => ',' :: (writeField x ++ writeFields xs)
/-- One field. -/
def writeField : List Char × Json → List Char
  | (k, v) => writeStr k ++ ':' :: write v
end

/-! ## Reading -/

/-- White space of JSON. -/
def isWs (c : Char) : Bool := c == ' ' || c == '\t' || c == '\n' || c == '\r'

/-- Skip white space. -/
def ws (s : List Char) : List Char := s.dropWhile isWs

/-- The value of a hexadecimal digit. -/
def hexVal (c : Char) : Option Nat :=
  if '0' ≤ c ∧ c ≤ '9' then some (c.toNat - 48)
  else if 'a' ≤ c ∧ c ≤ 'f' then some (c.toNat - 87)
  else if 'A' ≤ c ∧ c ≤ 'F' then some (c.toNat - 55)
  else none

/-- `\uXXXX`. -/
def unicode (a b c d : Char) : Option Char :=
  match hexVal a, hexVal b, hexVal c, hexVal d with
  | some a, some b, some c, some d =>
    let n := ((a * 16 + b) * 16 + c) * 16 + d
    if n.isValidChar then some (Char.ofNat n) else none
  | _, _, _, _ => none

/-- The other escapes. -/
def simpleEscape : Char → Option Char
  | '"' => some '"'
  | '\\' => some '\\'
  | '/' => some '/'
  | 'b' => some (Char.ofNat 8)
  | 'f' => some (Char.ofNat 12)
  | 'n' => some '\n'
  | 'r' => some '\r'
  | 't' => some '\t'
  | _ => none

/-- What follows the opening quote of a string: the string, and what follows its closing quote. -/
def readStr : List Char → Option (List Char × List Char)
  | [] => none
  | '"' :: r => some ([], r)
  | '\\' :: 'u' :: a :: b :: c :: d :: r =>
    match unicode a b c d, readStr r with
    | some x, some (s, r') => some (x :: s, r')
    | _, _ => none
  | '\\' :: c :: r =>
    match simpleEscape c, readStr r with
    | some x, some (s, r') => some (x :: s, r')
    | _, _ => none
  | c :: r =>
    if c.toNat < 32 ∨ c = '\\' then none
    else match readStr r with
      | some (s, r') => some (c :: s, r')
      | none => none

/-- The characters of numbers. -/
def numChar (c : Char) : Bool := c.isDigit || c == '-' || c == '+' || c == '.' || c == 'e' || c == 'E'

/-- After the digits of the fraction: the exponent. -/
def isExponent : List Char → Bool
  | [] => true
  | e :: r =>
    (e == 'e' || e == 'E') &&
      match r with
      | '+' :: ds => !ds.isEmpty && ds.all Char.isDigit
      | '-' :: ds => !ds.isEmpty && ds.all Char.isDigit
      | ds => !ds.isEmpty && ds.all Char.isDigit

/-- After the digits before the point. -/
def isFraction : List Char → Bool
  | '.' :: r => !(r.takeWhile Char.isDigit).isEmpty && isExponent (r.dropWhile Char.isDigit)
  | r => isExponent r

/-- A number without sign. -/
def isUnsigned : List Char → Bool
  | '0' :: r => isFraction r
  | c :: r => c.isDigit && isFraction (r.dropWhile Char.isDigit)
  | [] => false

/-- The numbers of JSON. -/
def isNumber : List Char → Bool
  | '-' :: r => isUnsigned r
  | r => isUnsigned r

/-- A number, as long as possible. -/
def readNum (s : List Char) : Option (Json × List Char) :=
  if isNumber (s.takeWhile numChar) then some (.num (s.takeWhile numChar), s.dropWhile numChar) else none

mutual
/-- A value, after white space, and what follows it; the number bounds the depth. -/
def readValue : Nat → List Char → Option (Json × List Char)
  | 0, _ => none
  | n + 1, s =>
    match ws s with
    | 'n' :: 'u' :: 'l' :: 'l' :: r => some (.null, r)
    | 't' :: 'r' :: 'u' :: 'e' :: r => some (.bool true, r)
    | 'f' :: 'a' :: 'l' :: 's' :: 'e' :: r => some (.bool false, r)
    | '"' :: r => (readStr r).map fun x => (.str x.1, x.2)
    | '[' :: r =>
      match ws r with
      | ']' :: r' => some (.arr [], r')
      | r' =>
        match readValue n r' with
        | none => none
        | some (x, r'') => (readItems n r'').map fun y => (.arr (x :: y.1), y.2)
    | '{' :: r =>
      match ws r with
      | '}' :: r' => some (.obj [], r')
      | r' =>
        match readField n r' with
        | none => none
        | some (x, r'') => (readFields n r'').map fun y => (.obj (x :: y.1), y.2)
    | r => readNum r
/-- Further items, to the end of the array. -/
def readItems : Nat → List Char → Option (List Json × List Char)
  | 0, _ => none
  | n + 1, s =>
    match ws s with
    | ']' :: r => some ([], r)
    | ',' :: r =>
      match readValue n r with
      | none => none
      | some (x, r') => (readItems n r').map fun y => (x :: y.1, y.2)
    | _ => none
/-- Further fields, to the end of the object. -/
def readFields : Nat → List Char → Option (List (List Char × Json) × List Char)
  | 0, _ => none
  | n + 1, s =>
    match ws s with
    | '}' :: r => some ([], r)
    | ',' :: r =>
      match readField n r with
      | none => none
      | some (x, r') => (readFields n r').map fun y => (x :: y.1, y.2)
    | _ => none
/-- One field. -/
def readField : Nat → List Char → Option ((List Char × Json) × List Char)
  | 0, _ => none
  | n + 1, s =>
    match ws s with
    | '"' :: r =>
      match readStr r with
      | none => none
      | some (k, r') =>
        match ws r' with
        | ':' :: r'' => (readValue n r'').map fun y => ((k, y.1), y.2)
        | _ => none
    | _ => none
end

/-- `JSON.parse`; `none` is an exception. -/
def read (s : List Char) : Option Json :=
  match readValue (s.length + 1) s with
  | some (j, r) => if (ws r).isEmpty then some j else none
  | none => none

end Verif.Wire
