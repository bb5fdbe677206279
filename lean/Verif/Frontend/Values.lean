import Verif.Frontend.Diagram
/-!
# Primitive values, from memory to the browser

Models the reading of primitive values (`crates/aquascope/src/interpreter/mvalue.rs:436-474`), their way through
JSON, and the text shown for them by `ValueView`
(`frontend/packages/aquascope-editor/src/editor-utils/interpreter.tsx:287-298`).

Simplifications.
* A value in memory is given by its type and its number; `usize` and `isize` have 64 bits. A float is given by the
  bits of its 64-bit form; widening a 32-bit float is exact and is left out.
* `serde_json` writes integers exactly and writes `null` for a float that is not finite. `JSON.parse` reads a number
  as the nearest 64-bit float, ties to even.
* `Number.toString` gives the decimal digits of an integer up to 2^53. For larger numbers, and for floats, its result
  is a parameter (it depends on the number only).
* A text is a list of UTF-16 code units.
-/
namespace Verif.Frontend

open Verif.Value

/-- UTF-16 code units. -/
abbrev Units := List Nat

/-- A primitive value in memory: `uint` and `int` with their width in bits. -/
inductive Scalar
  | bool (b : Bool)
  | char (c : Char)
  | uint (w : Nat) (n : Nat)
  | int (w : Nat) (i : Int)
  | float (bits : Nat)

/-- `as u64` and `as i64`. -/
def asU64 (n : Nat) : Nat := n % 2 ^ 64

def asI64 (i : Int) : Int := (i + 2 ^ 63) % 2 ^ 64 - 2 ^ 63

/-- Reading a primitive (mvalue.rs:454-472). -/
def readScalar : Scalar → Prim
  | .bool b => .bool b
  | .char c => .char c.toNat
  | .uint _ n => .uint (asU64 n)
  | .int _ i => .int (asI64 i)
  | .float bits => .float bits

/-- The nearest number with 53 significant bits, ties to even. -/
def round53 (n : Nat) : Nat :=
  if n < 2 ^ 53 then n
  else
    let e := n.log2 - 52
    let q := n / 2 ^ e
    let r := n % 2 ^ e
    if 2 ^ e < 2 * r ∨ (2 * r = 2 ^ e ∧ q % 2 = 1) then (q + 1) * 2 ^ e else q * 2 ^ e

/-- The digits of a number. -/
def digits (n : Nat) : Units := (decimal n).map Char.toNat

/-- What `Number.toString` gives outside the exact integers. -/
structure Js where
  big : Nat → Units
  float : Nat → Units

/-- `Number.toString` of a non-negative integer. -/
def natText (js : Js) (n : Nat) : Units := if n ≤ 2 ^ 53 then digits n else js.big n

def intText (js : Js) (i : Int) : Units :=
  if i < 0 then 45 :: natText js (round53 i.natAbs) else natText js (round53 i.natAbs)

/-- Neither infinite nor a NaN: the exponent's bits are not all ones. -/
def finite (bits : Nat) : Bool := bits / 2 ^ 52 % 2 ^ 11 != 2047

def trueText : Units := [116, 114, 117, 101]
def falseText : Units := [102, 97, 108, 115, 101]

/-- `String.fromCharCode(c)` keeps the low sixteen bits; a space becomes a no-break space (interpreter.tsx:298). -/
def charText (c : Nat) : Units := if c % 2 ^ 16 = 32 then [160] else [c % 2 ^ 16]

/-- `ValueView` for primitives (interpreter.tsx:287-298). `none`: `null.toString()` throws. -/
def primText (js : Js) : Prim → Option Units
  | .bool b => some (if b then trueText else falseText)
  | .uint n => some (natText js (round53 n))
  | .int i => some (intText js i)
  | .float bits => if finite bits then some (js.float bits) else none
  | .char c => some (charText c)

/-- What is shown for the bytes of a string: one character value per byte (mvalue.rs:170-187). -/
def stringText (js : Js) (bytes : List Nat) : Option (List Units) := bytes.mapM (fun b => primText js (.char b))

end Verif.Frontend
