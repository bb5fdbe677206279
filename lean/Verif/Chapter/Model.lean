import Verif.InlinePerms.Props
/-!
# Model of the rewriting of a chapter

`replacements` (`crates/mdbook-aquascope/src/preprocessor.rs:174-190`, called from `main.rs:32-38`) gives the ranges of blocks
and tags with the text that takes their place.  `SimplePreprocessor` of `mdbook_preprocessor_utils`, stated from memory, sorts
them by their start and puts them in from the last to the first.

Simplifications: the links to script and style that are added to the chapter are left out.  What becomes of a block
(`process_code`) is a parameter, `none` if it ends with an error.
-/
namespace Verif.Chapter
open Verif.Annotations (bytes)
open Verif.Block (Block parseAll)
open Verif.InlinePerms (parsePerms)

abbrev Text := List Char

/-- A range of bytes and the text that takes its place. -/
abbrev Repl := (Nat × Nat) × Text

/-- The text before and behind a number of bytes; `none` if that is not between two characters. -/
def cut : Text → Nat → Option (Text × Text)
  | s, 0 => some ([], s)
  | [], _ + 1 => none
  | c :: s, n + 1 =>
    if n + 1 < c.utf8Size then none
    else (cut s (n + 1 - c.utf8Size)).map fun x => (c :: x.1, x.2)

/-- `String::replace_range`; `none` if it panics. -/
def replaceRange (s : Text) (r : Repl) : Option Text :=
  if r.1.1 ≤ r.1.2 then
    match cut s r.1.1, cut s r.1.2 with
    | some (a, _), some (_, c) => some (a ++ r.2 ++ c)
    | _, _ => none
  else none

/-- Insertion before the first that does not start earlier. -/
def insertStart (x : Repl) : List Repl → List Repl
  | [] => [x]
  | y :: l => if y.1.1 < x.1.1 then y :: insertStart x l else x :: y :: l

/-- `sort_by_key(|(range, _)| range.start)`, which is stable. -/
def sortStart (l : List Repl) : List Repl := l.foldr insertStart []

/-- The replacements are put in from the last to the first. -/
def putIn (s : Text) (l : List Repl) : Option Text :=
  l.foldr (fun r s => s.bind fun s => replaceRange s r) (some s)

/-- `process_chapter` of `mdbook_preprocessor_utils`, after `replacements`. -/
def rewrite (s : Text) (l : List Repl) : Option Text := putIn s (sortStart l)

/-- `Result` as an option. -/
def okOf {ε α : Type} : Except ε α → Option α
  | .ok a => some a
  | .error _ => none

/-- `replacements` (preprocessor.rs:174-190): `none` if any block or tag ends with an error.  The order in which `rayon` hands
over the tags is not fixed; here it is that of the chapter. -/
def replacements (process : Block → Option Text) (s : Text) : Option (List Repl) :=
  ((parseAll s).map (fun x => (process x.2).map fun t => (x.1, t)) ++
    (parsePerms s).map fun x => (okOf x).map fun y => (y.1, y.2.toList)).mapM id

/-- The chapter as it is handed on; `none` if the build of the book fails. -/
def chapter (process : Block → Option Text) (s : Text) : Option Text :=
  (replacements process s).bind (rewrite s)

end Verif.Chapter
