/-!
# Model of step grouping

Models `group_steps` of `crates/aquascope/src/interpreter/mapper.rs` and the trace types of
`step.rs:39-95`.  The parts of a frame that grouping does not look at (name, body span, locals) are
one payload of type `P`; heaps and results are opaque (`H`, `R`).
-/
namespace Verif.Group

/-- `MFrame<L>` (step.rs:46-51). -/
structure Frame (L P : Type) where
  location : L
  payload : P
  deriving DecidableEq, Repr

/-- `MStep<L>` (step.rs:67-70). -/
structure Step (L P H : Type) where
  frames : List (Frame L P)
  heap : H
  deriving DecidableEq, Repr

/-- `MTrace<L>` (step.rs:90-93). -/
structure Trace (L P H R : Type) where
  steps : List (Step L P H)
  result : R
  deriving DecidableEq, Repr

variable {L L₁ L₂ P H R K α : Type}

/-- Mapping the frames of a step; `none` if one location cannot be mapped (mapper.rs:155-168,
`collect::<Option<Vec<_>>>`). -/
def mapFrames (f : L₁ → Option L₂) : List (Frame L₁ P) → Option (List (Frame L₂ P))
  | [] => some []
  | fr :: frs =>
    match f fr.location with
    | none => none
    | some l =>
      match mapFrames f frs with
      | none => none
      | some rest => some ({ location := l, payload := fr.payload } :: rest)

/-- The `filter_map` closure (mapper.rs:154-173). -/
def mapStep (f : L₁ → Option L₂) (s : Step L₁ P H) : Option (Step L₂ P H) :=
  match mapFrames f s.frames with
  | none => none
  | some frames => some { frames, heap := s.heap }

/-- The grouping key (mapper.rs:174); `none` models the panic of `unwrap` on a step without frames. -/
def topLoc (s : Step L P H) : Option L := s.frames.getLast?.map (·.location)

/-- `Itertools::group_by` on consecutive elements with equal keys, here with the pending group `g`
(key `k`, elements in reverse) as accumulator. -/
def groupFrom [DecidableEq K] (key : α → K) (k : K) (g : List α) : List α → List (List α)
  | [] => [g.reverse]
  | a :: as => if key a = k then groupFrom key k (a :: g) as else g.reverse :: groupFrom key (key a) [a] as

/-- `Itertools::group_by`. -/
def groupBy [DecidableEq K] (key : α → K) : List α → List (List α)
  | [] => []
  | a :: as => groupFrom key (key a) [a] as

/-- `group_steps` (mapper.rs:146-181).  `none`: the panic on a step without frames. -/
def groupSteps [DecidableEq L₂] (t : Trace L₁ P H R) (f : L₁ → Option L₂) :
    Option (Trace L₂ P H R) :=
  let mapped := t.steps.filterMap (mapStep f)
  if mapped.any (fun s => (topLoc s).isNone) then none
  else some { steps := (groupBy topLoc mapped).filterMap List.getLast?, result := t.result }

end Verif.Group
