import Verif.Frontend.Text
/-!
# The interpreter's steps in the editor

Models `filterSteps` and `renderInterpreter`
(`frontend/packages/aquascope-editor/src/editor-utils/interpreter.tsx:762-856`) and the error shown by
`InterpreterView` (interpreter.tsx:712-760).

Simplifications.
* A frame is its two ranges; the rest of a step is an opaque `state`.
* `_.sortBy` is a stable sort (lodash documentation); here an insertion sort.
* A thrown JavaScript exception is an error value: `noFrame` for the `TypeError` on a step without frames,
  `noLine` for CodeMirror's `RangeError`.
-/
namespace Verif.Frontend

/-- `MFrame`: the ranges of the function's body and of the current location. -/
structure Frame where
  bodyStart : Pos
  bodyEnd : Pos
  locStart : Pos
  locEnd : Pos
  deriving DecidableEq, Repr

/-- `MStep`. -/
structure TStep where
  frames : List Frame
  state : Nat
  deriving DecidableEq, Repr

inductive TErr where
  | noFrame
  | noLine
  | noStep (mark : Nat)
  deriving DecidableEq, Repr

deriving instance DecidableEq for Except

/-- `linecolToPosition`, throwing. -/
def posOf (doc : List Char) (p : Pos) : Except TErr Nat :=
  match linecol doc p with
  | some n => .ok n
  | none => .error .noLine

/-- The test of `findIndex` (interpreter.tsx:769-777); `&&` does not evaluate its right side needlessly. -/
def markHere (doc : List Char) (idx : Nat) (step : TStep) : Except TErr Bool :=
  match step.frames.getLast? with
  | none => .error .noFrame
  | some f =>
    match posOf doc f.bodyStart with
    | .error e => .error e
    | .ok a =>
      match (if a ≤ idx then
          match posOf doc f.bodyEnd with
          | .error e => .error e
          | .ok b => .ok (decide (idx ≤ b))
        else .ok false : Except TErr Bool) with
      | .error e => .error e
      | .ok inFrame =>
        match posOf doc f.locStart with
        | .error e => .error e
        | .ok c => .ok (inFrame && decide (c < idx))

/-- `Array.findIndex` with a test that may throw. -/
def findIndex {β : Type} (p : β → Except TErr Bool) : List β → Except TErr (Option Nat)
  | [] => .ok none
  | x :: r =>
    match p x with
    | .error e => .error e
    | .ok true => .ok (some 0)
    | .ok false =>
      match findIndex p r with
      | .error e => .error e
      | .ok none => .ok none
      | .ok (some i) => .ok (some (i + 1))

/-- The step of one mark (interpreter.tsx:768-783): its sort key, the mark, and the step. -/
def markStep (doc : List Char) (steps : List TStep) (idx : Nat) : Except TErr (Nat × Nat × TStep) :=
  match findIndex (markHere doc idx) steps.reverse with
  | .error e => .error e
  | .ok none => .error (.noStep idx)
  | .ok (some r) =>
    match steps.reverse[r]? with
    | none => .error (.noStep idx)
    | some s => .ok (steps.length - r, idx, s)

/-- `marks.map(…)` with a function that may throw. -/
def mapAll {β γ : Type} (f : β → Except TErr γ) : List β → Except TErr (List γ)
  | [] => .ok []
  | x :: r =>
    match f x with
    | .error e => .error e
    | .ok y =>
      match mapAll f r with
      | .error e => .error e
      | .ok ys => .ok (y :: ys)

/-- `_.sortBy(l, key)`. -/
def insertBy {β : Type} (key : β → Nat) (x : β) : List β → List β
  | [] => [x]
  | y :: r => if key x ≤ key y then x :: y :: r else y :: insertBy key x r

def sortBy {β : Type} (key : β → Nat) : List β → List β
  | [] => []
  | x :: r => insertBy key x (sortBy key r)

/-- `filterSteps` (interpreter.tsx:762-790). -/
def filterSteps (doc : List Char) (steps : List TStep) (marks : List Nat) :
    Except TErr (List Nat × List TStep) :=
  match mapAll (markStep doc steps) marks with
  | .error e => .error e
  | .ok l =>
    let sorted := sortBy (fun x => x.1) l
    .ok (sorted.map (fun x => x.2.1), sorted.map (fun x => x.2.2))

/-- A marker in the code: position, label, and whether it is drawn as failing. -/
structure Marker where
  at_ : Nat
  label : Nat
  fail : Bool
  deriving DecidableEq, Repr

/-- A diagram: label, step, and whether the error is shown beside it. -/
structure Diagram where
  label : Nat
  step : TStep
  error : Bool
  deriving DecidableEq, Repr

/-- The place of a step's marker if the code has no marks (interpreter.tsx:832-834). -/
def stepPlace (doc : List Char) (s : TStep) : Except TErr Nat :=
  match s.frames.getLast? with
  | none => .error .noFrame
  | some f => posOf doc f.locEnd

/-- `renderInterpreter` (interpreter.tsx:818-856) with the diagrams of `InterpreterView` (741-753); `failed` is
`trace.result.type === "Error"`. -/
def renderInterpreter (doc : List Char) (steps : List TStep) (failed : Bool) (marks : List Nat) :
    Except TErr (List Marker × List Diagram) :=
  let r : Except TErr (List Nat × List TStep) :=
    if marks.length > 0 then filterSteps doc steps marks
    else
      match mapAll (stepPlace doc) steps with
      | .error e => .error e
      | .ok ps => .ok (ps, steps)
  match r with
  | .error e => .error e
  | .ok (places, shown) =>
    .ok (places.mapIdx (fun i m => ⟨m, i, decide (i + 1 = shown.length) && failed⟩),
      shown.mapIdx (fun i s => ⟨i, s, decide (i + 1 = shown.length) && failed⟩))

end Verif.Frontend
