import Verif.Steps.Model
/-!
# The step tables in the editor

Models `PermDiffRow`, `PermChar`, `StepLine` and `PermissionStepLineWidget` of
`frontend/packages/aquascope-editor/src/editor-utils/stepper.tsx:37-425`.

Simplifications.
* Icons, titles and CSS classes are names of an enumeration; the wording of a title is not modelled.
* A path and a literal matcher are character lists. A literal matcher is escaped (`_.escapeRegExp`) and searched
  without anchors, which is a substring search. A regular expression matcher is a parameter: whether
  JavaScript's `match` finds it in the path. Alternatives joined by `|` are found iff one of them is.
-/
namespace Verif.Frontend

open Verif.Steps

/-! ## The icon of a row -/

inductive Icon
  | signOut | recycle | arrowRight | rotateLeft | levelUp | levelDown
  deriving DecidableEq, Repr

/-- The description in the icon's title. -/
inductive Desc
  | moved | reinitialised | borrowed | borrowDropped | borrowUnused | initialised | unused | uninitialised
  | initialisedAfterMove
  deriving DecidableEq, Repr

/-- The `type` of a `ValueStep`. -/
inductive StepType
  | high | low | none
  deriving DecidableEq, Repr

def typeOf {α : Type} : Step α → StepType
  | .high _ => .high
  | .low => .low
  | .none _ => .none

/-- The facts a row may be explained by (stepper.tsx:139-144). -/
inductive Fact
  | isLive | pathMoved | pathUninitialized | loanWriteRefined | loanReadRefined
  deriving DecidableEq, Repr

/-- `diffs[fact].type`. -/
def factType (d : DataDiff) : Fact → StepType
  | .isLive => typeOf d.isLive
  | .pathMoved => typeOf d.pathMoved
  | .pathUninitialized => typeOf d.pathUninitialized
  | .loanWriteRefined => typeOf d.loanWriteRefined
  | .loanReadRefined => typeOf d.loanReadRefined

/-- `visualFacts` (stepper.tsx:142-218). -/
def visualFacts : List (Fact × List (StepType × Icon × Desc)) :=
  [(.pathMoved, [(.high, .signOut, .moved), (.low, .recycle, .reinitialised)]),
   (.loanReadRefined, [(.high, .arrowRight, .borrowed), (.low, .rotateLeft, .borrowDropped)]),
   (.loanWriteRefined, [(.high, .arrowRight, .borrowed), (.low, .rotateLeft, .borrowUnused)]),
   (.isLive, [(.high, .levelUp, .initialised), (.low, .levelDown, .unused)]),
   (.pathUninitialized, [(.high, .signOut, .uninitialised), (.low, .recycle, .initialisedAfterMove)])]

/-- The inner loop (stepper.tsx:227-240). -/
def findState (t : StepType) : List (StepType × Icon × Desc) → Option (Icon × Desc)
  | [] => none
  | (v, i, s) :: r => if t = v then some (i, s) else findState t r

/-- The loop over the facts with `break loop` (stepper.tsx:220-235). -/
def findIcon (d : DataDiff) : List (Fact × List (StepType × Icon × Desc)) → Option (Icon × Desc)
  | [] => none
  | (f, states) :: r =>
    match findState (factType d f) states with
    | some x => some x
    | none => findIcon d r

def icon (d : DataDiff) : Option (Icon × Desc) := findIcon d visualFacts

/-! ## The cells of a row -/

/-- What a cell shows: the letter, a dash, the letter struck out, the letter with a plus sign. -/
inductive Mark
  | letter | dash | struck | plus
  deriving DecidableEq, Repr

inductive Letter
  | R | W | O | F
  deriving DecidableEq, Repr

/-- `getInner` (stepper.tsx:50-91). -/
def cellMark : Step Bool → Mark
  | .none (some true) => .letter
  | .none _ => .dash
  | .low => .struck
  | .high _ => .plus

/-- `unwrap` (stepper.tsx:237-238). -/
def unwrapStep {α : Type} : Step α → Option α
  | .none v => v
  | .high v => some v
  | .low => none

/-- A cell: letter, mark, and the keys of the loan and the move shown while the mouse is over it. -/
structure Cell where
  letter : Letter
  mark : Mark
  loan : Option Nat
  move : Option Nat
  deriving DecidableEq, Repr

/-- `perms` (stepper.tsx:240-260). -/
def cells (d : DataDiff) : List Cell :=
  let moveKey := unwrapStep d.pathMoved
  [⟨.R, cellMark d.permissions.read, unwrapStep d.loanReadRefined, moveKey⟩,
   ⟨.W, cellMark d.permissions.write, unwrapStep d.loanWriteRefined, moveKey⟩,
   ⟨.O, cellMark d.permissions.drop, unwrapStep d.loanDropRefined, moveKey⟩]

/-! ## Focused rows -/

/-- `PathMatcher`: a literal, or a regular expression given by its test. -/
inductive Matcher
  | literal (value : List Char)
  | regex (test : List Char → Bool)

/-- Search of a literal without anchors. -/
def hasSub (lit : List Char) : List Char → Bool
  | [] => lit.isEmpty
  | c :: r => lit.isPrefixOf (c :: r) || hasSub lit r

def Matcher.matches : Matcher → List Char → Bool
  | .literal v, path => hasSub v path
  | .regex t, path => t path

/-- `!!path.match(focusedRegex)` with `rx ?? "(.*)?"` (stepper.tsx:423-432): no matchers for the line, or an
empty list of them (the empty regular expression), match every path. -/
def focused (matchers : Option (List Matcher)) (path : List Char) : Bool :=
  match matchers with
  | none => true
  | some [] => true
  | some ms => ms.any (fun m => m.matches path)

/-- `StepperAnnotations`. -/
structure StepAnn where
  focusedLines : List Nat
  focusedPaths : Nat → Option (List Matcher)

/-- `_.partition` (stepper.tsx:351-355): the rows shown, and the rows behind the dots. -/
def splitRows {α : Type} (ms : Option (List Matcher)) (rows : List (List Char × α)) :
    List (List Char × α) × List (List Char × α) :=
  (rows.filter (fun r => focused ms r.1), rows.filter (fun r => !focused ms r.1))

/-- `this.annotations?.focused_paths[currLine.number]` (stepper.tsx:423). -/
def matchersOf (ann : Option StepAnn) (line : Nat) : Option (List Matcher) :=
  match ann with
  | none => none
  | some a => a.focusedPaths line

/-- `initDisplay` and the tables of a line (stepper.tsx:391-421): whether it starts open, and per table the rows
shown and the rows behind the dots. -/
def stepLine {α : Type} (ann : Option StepAnn) (line : Nat) (tables : List (List (List Char × α))) :
    Bool × List (List (List Char × α) × List (List Char × α)) :=
  let init := match ann with
    | none => true
    | some a => if a.focusedLines.length > 0 then a.focusedLines.contains line else true
  (init, tables.map (splitRows (matchersOf ann line)))

end Verif.Frontend
