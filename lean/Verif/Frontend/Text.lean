/-!
# Positions in the editor

Models `linecolToPosition` (`frontend/packages/aquascope-editor/src/editor-utils/misc.tsx:327-328`) on a
CodeMirror document.

Simplifications.
* A document is its text; lines are separated by `\n` (CodeMirror also splits at `\r`).
* Positions count UTF-16 code units (JavaScript strings); `Text.line(n)` throws a `RangeError` if there is no
  line `n`.
-/
namespace Verif.Frontend

/-- `CharPos` (bindings/CharPos.ts): line and column from 0; columns count characters. -/
structure Pos where
  line : Nat
  column : Nat
  deriving DecidableEq, Repr

/-- UTF-16 code units of a character. -/
def units (c : Char) : Nat := if c.val < 0x10000 then 1 else 2

def unitsOf (s : List Char) : Nat := (s.map units).sum

/-- The lines of a document. -/
def linesOf : List Char → List (List Char)
  | [] => [[]]
  | c :: r =>
    if c = '\n' then [] :: linesOf r
    else match linesOf r with
      | [] => [[c]]
      | l :: ls => (c :: l) :: ls

/-- `t.line(k + 1).from`: the earlier lines with their separators. -/
def lineFrom (ls : List (List Char)) (k : Nat) : Option Nat :=
  if k < ls.length then some ((ls.take k).map (fun l => unitsOf l + 1)).sum else none

/-- `linecolToPosition` (misc.tsx:327-328). -/
def linecol (doc : List Char) (p : Pos) : Option Nat :=
  match lineFrom (linesOf doc) p.line with
  | some f => some (f + p.column)
  | none => none

end Verif.Frontend
