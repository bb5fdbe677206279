/-!
# How the arrows of a diagram follow it, and what remains of it

Model of the third part of `renderArrows` (frontend/packages/aquascope-editor/src/editor-utils/interpreter.tsx:629-668): where
the arrows are put, the timer that puts them there again, and what is undone; of the states of `InterpreterView` that draw it
again (interpreter.tsx:720-742); and of `renderInterpreter`, which makes a new root for each diagram (interpreter.tsx:825,
851-855).

Simplifications.
* Times are milliseconds since the effect ran; a timer fires when it is due.
* `corner t` is what `curCoords` gives at time `t`; `inner t` is where the elements are relative to that corner.  A line is
  where its elements were when `position` was called last.
* Coordinates are whole numbers.  A translation by `-x` is the text `-` followed by that of `x`, which the style sheet cannot read
  if `x` is negative (it begins with `--`); an assignment that cannot be read changes nothing.
* All pointers find their ends (C55, C72) and all lines can be drawn.
* React, from memory (version 18): an effect without a list of dependencies is undone and done again at every rendering of
  its component; a new root for a container empties the container when it is first rendered, and undoes no effect of another
  root of the container.
-/
namespace Verif.Frontend.Follow

/-- What is on the page of one step: the translation of the arrows (`transform`), where the lines were drawn, and the variable
`lastCoords`. -/
structure Shown (β : Type) where
  shift : Option (Int × Int)
  drawn : β
  last : Int × Int

/-- The period of the timer (interpreter.tsx:655). -/
def period : Nat := 300

/-- `arrowContainer.style.transform` is set (interpreter.tsx:644). -/
def setShift (old : Option (Int × Int)) (x : Int × Int) : Option (Int × Int) :=
  if x.1 < 0 ∨ x.2 < 0 then old else some x

/-- When the effect runs (interpreter.tsx:646-647). -/
def start {β : Type} (corner : Nat → Int × Int) (inner : Nat → β) : Shown β := ⟨setShift none (corner 0), inner 0, corner 0⟩

/-- The timer (interpreter.tsx:649-655): `positionArrowContainer` (642-645) only if the corner has moved. -/
def tick {β : Type} (corner : Nat → Int × Int) (inner : Nat → β) (s : Shown β) (t : Nat) : Shown β :=
  let new := corner t
  let s' := if new.1 ≠ s.last.1 ∨ new.2 ≠ s.last.2 then { s with shift := setShift s.shift new, drawn := inner t } else s
  { s' with last := new }

/-- After a number of ticks. -/
def ticks {β : Type} (corner : Nat → Int × Int) (inner : Nat → β) : Nat → Shown β
  | 0 => start corner inner
  | k + 1 => tick corner inner (ticks corner inner k) (period * (k + 1))

/-- At a time. -/
def shownAt {β : Type} (corner : Nat → Int × Int) (inner : Nat → β) (t : Nat) : Shown β := ticks corner inner (t / period)

/-! ## Diagrams one after the other -/

/-- The timers and arrows of a step of a diagram: the number of the diagram, that of the step. -/
abbrev Place := Nat × Nat

/-- The page of an editor. -/
structure Page where
  /-- how many diagrams there have been -/
  runs : Nat
  /-- the numbers of arrows of the steps of the newest diagram -/
  steps : List Nat
  /-- the arrows in the container: the step and the number of the arrow -/
  arrows : List (Place × Nat)
  /-- the timers that are running -/
  timers : List Place
  deriving DecidableEq, Repr

def Page.empty : Page := ⟨0, [], [], []⟩

/-- What the effects of the steps of diagram `r` add, from step `i` on (interpreter.tsx:620,629-655). -/
def effectArrows (r : Nat) : List Nat → Nat → List (Place × Nat)
  | [], _ => []
  | n :: ns, i => (List.range n).map (fun j => ((r, i), j)) ++ effectArrows r ns (i + 1)

def effectTimers (r : Nat) : List Nat → Nat → List Place
  | [], _ => []
  | _ :: ns, i => (r, i) :: effectTimers r ns (i + 1)

/-- The effects of the newest diagram. -/
def Page.effects (p : Page) : Page :=
  { p with arrows := p.arrows ++ effectArrows p.runs p.steps 0, timers := p.timers ++ effectTimers p.runs p.steps 0 }

/-- They are undone (interpreter.tsx:657-664). -/
def Page.undo (p : Page) : Page :=
  { p with arrows := p.arrows.filter (fun a => a.1.1 ≠ p.runs), timers := p.timers.filter (fun t => t.1 ≠ p.runs) }

inductive Event
  /-- a diagram is drawn (interpreter.tsx:825,851-855) -/
  | draw (steps : List Nat)
  /-- the mouse comes or goes, or the button for types is pressed (interpreter.tsx:735-741) -/
  | again
  deriving DecidableEq, Repr

def Page.step (p : Page) : Event → Page
  | .draw ns => Page.effects { p with runs := p.runs + 1, steps := ns, arrows := [] }
  | .again => if p.runs = 0 then p else p.undo.effects

def run (es : List Event) : Page := es.foldl Page.step Page.empty

end Verif.Frontend.Follow
