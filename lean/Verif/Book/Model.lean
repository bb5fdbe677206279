import Verif.Chapter.Props
import Verif.Preproc.Props
/-!
# Model of the build of a book

Models what the preprocessor does with all chapters of a book: `build`, `replacements` and `finish`
(`crates/mdbook-aquascope/src/main.rs:30-38, 50-52`), `replacements` and `save_cache`
(`crates/mdbook-aquascope/src/preprocessor.rs:174-192`).  `SimplePreprocessor` of `mdbook_preprocessor_utils`, stated from
memory, calls `build`, then `replacements` for every chapter, then `finish`; an error or a panic on the way ends the process
before `finish`.

Simplifications: chapters in other chapters are listed one after the other, and chapters without text are left out.  The blocks
of all chapters are tasks that run side by side (`Preproc.exec`); where chapters are taken one after the other, only some of
the schedules occur.  What an element looks like as text is a parameter (`Wire/Html` has the details).
-/
namespace Verif.Book
open Verif.Block (Block parseAll)
open Verif.Cache (Cache Codec File load)
open Verif.Chapter (Text Repl rewrite okOf)
open Verif.InlinePerms (parsePerms)
open Verif.Preproc

/-- The blocks of all chapters, in order. -/
def blocksOf (book : List Text) : List Block := book.flatMap fun s => (parseAll s).map (·.2)

/-- The result of a finished task. -/
def resultOf : Pc → Option (Except RunError Html)
  | .done r => some r
  | _ => none

/-- The replacements of a chapter whose first block has the number `first` (preprocessor.rs:178-189); `none`: an error. -/
def repls (element : Html → Text) (pc : Nat → Pc) (first : Nat) (s : Text) : Option (List Repl) :=
  (((parseAll s).zipIdx first).map (fun x => ((resultOf (pc x.2)).bind okOf).map fun h => (x.1.1, element h)) ++
    (parsePerms s).map fun x => (okOf x).map fun y => (y.1, y.2.toList)).mapM id

/-- The chapters from the block with the number `first` on; `none`: an error or a panic. -/
def chapters (element : Html → Text) (pc : Nat → Pc) : Nat → List Text → Option (List Text)
  | _, [] => some []
  | first, s :: r =>
    match (repls element pc first s).bind (rewrite s), chapters element pc (first + (parseAll s).length) r with
    | some t, some ts => some (t :: ts)
    | _, _ => none

/-- Where a build stands. -/
inductive Stage
  /-- it goes on -/
  | running
  /-- the process has ended with an error; this is what is in the file -/
  | failed (file : File)
  /-- the chapters are handed on; this is what is in the file -/
  | built (chapters : List Text) (file : File)
  deriving DecidableEq, Repr

/-- The task has ended with an error. -/
def failedAt (pc : Nat → Pc) (i : Nat) : Bool :=
  match resultOf (pc i) with
  | some (.error _) => true
  | _ => false

/-- The task has ended. -/
def endedAt (pc : Nat → Pc) (i : Nat) : Bool := (resultOf (pc i)).isSome

/-- One build (main.rs:30-52): `data` is in the file `.aquascope-cache` before, `sched` is the order in which the tasks act
until we look, and `chunks` is what would be written.  As soon as one task has failed the process may end (`collect` into a
`Result`). -/
def build (w : World) (hash : Hasher) (codec : Codec Responses) (element : Html → Text) (book : List Text)
    (data : List UInt8) (pos : Nat) (sched : List Nat) (chunks : List (List UInt8)) : Stage :=
  let blocks := blocksOf book
  let s := exec w hash blocks (init (load codec data pos)) sched
  if (List.range blocks.length).any (failedAt s.pc) then .failed s.cache.file
  else if (List.range blocks.length).all (endedAt s.pc) then
    match chapters element s.pc 0 book with
    | none => .failed s.cache.file
    | some ts => .built ts (s.cache.save chunks).file
  else .running

end Verif.Book
