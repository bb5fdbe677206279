import Verif.Trace.Model
/-!
# Specification of the trace recorder
-/
namespace Verif.Trace.Spec
open Verif.Trace

/-! ## Moves (C19) -/

/-- What the machine does in one step, seen from the stack. -/
inductive Event
  /-- a function is entered (whatever operands the call moves) -/
  | enter (moves : List Moved)
  /-- the top function is left -/
  | leave (moves : List Moved)
  /-- an instruction of the top function moves operands out and assigns variables -/
  | run (moves : List Moved) (assigned : List Nat)

/-- An instrumented machine: each activation of a function has its own number; `log` records which
activation moved or assigned which variable, most recent first. -/
structure Ghost where
  /-- activations on the stack, bottom first -/
  stack : List Nat
  next : Nat
  log : List (Nat × Bool × Nat)

/-- One activation on the stack. -/
def start : Ghost := { stack := [0], next := 1, log := [] }

/-- The variables among moved operands. -/
def movedVars (ms : List Moved) : List Nat := ms.filterMap fun | .direct l => some l | .memory => none

/-- The instrumented step. In the log, `(a, true, l)` is a move and `(a, false, l)` an assignment. -/
def ghostStep (g : Ghost) : Event → Ghost
  | .enter _ => { g with stack := g.stack ++ [g.next], next := g.next + 1 }
  | .leave _ => { g with stack := g.stack.dropLast }
  | .run moves assigned =>
    match g.stack.getLast? with
    | none => g
    | some a =>
      { g with log := assigned.map (fun l => (a, false, l)) ++
          (movedVars moves).reverse.map (fun l => (a, true, l)) ++ g.log }

/-- Height of the stack before and after an event, as `handle_moves` sees them. -/
def heights (g : Ghost) (e : Event) : Nat × Nat := (g.stack.length, (ghostStep g e).stack.length)

def Event.moves : Event → List Moved
  | .enter ms => ms
  | .leave ms => ms
  | .run ms _ => ms

/-- The recorder driven by the instrumented machine; `none` is a panic. -/
def drive : Ghost → MovedPlaces → List Event → Option (Ghost × MovedPlaces)
  | g, mp, [] => some (g, mp)
  | g, mp, e :: es =>
    match handleMoves mp (heights g e).1 (heights g e).2 e.moves with
    | none => none
    | some mp => drive (ghostStep g e) mp es

/-- Activation `a` moved variable `l` out at some time. -/
def EverMoved (g : Ghost) (a l : Nat) : Prop := (a, true, l) ∈ g.log

/-- Activation `a` has moved `l` out and not assigned it since: its most recent entry is a move. -/
def MovedOut (g : Ghost) (a l : Nat) : Prop :=
  (g.log.find? (fun x => x.1 == a && x.2.2 == l)).map (fun x => x.2.1) = some true

/-- The event only happens when it can: a function can only be left or run if there is one. -/
def Enabled (g : Ghost) : Event → Prop
  | .enter _ => True
  | .leave _ => g.stack ≠ []
  | .run ms _ => g.stack ≠ [] ∨ movedVars ms = []

/-- All events of a history are enabled when they happen. -/
def Valid : Ghost → List Event → Prop
  | _, [] => True
  | g, e :: es => Enabled g e ∧ Valid (ghostStep g e) es

/-! ## Traces (C20) -/
section
variable {σ E Inst Loc Vars Heap : Type}

/-- An execution of the machine: the pairs of states before and after each successful step, and how it
ended. -/
inductive Exec (next : σ → Except E (σ × Bool)) : σ → List (σ × σ) → End E → Prop
  | done {s s'} : next s = .ok (s', false) → Exec next s [(s, s')] .finished
  | step {s s' ps e} : next s = .ok (s', true) → Exec next s' ps e → Exec next s ((s, s') :: ps) e
  | fail {s e} : next s = .error e → Exec next s [] (.failed e)

/-- The frames of the user's crate, with their positions, bottom first. -/
def userFrames (m : Machine σ E Inst Loc Vars Heap) (s : σ) : List (Nat × Frame Inst Loc) :=
  ((m.stack s).zipIdx.filter (fun x => x.1.isLocal)).map (fun x => (x.2, x.1))

/-- The location shown in the top frame after the step from `s` to `s'`: the header if a user function
was entered; the call site, as it was before the step, if one was left; otherwise where the topmost user
function was before the step.  (A location is a function and a place in it.) -/
def topLoc (m : Machine σ E Inst Loc Vars Heap) (s s' : σ) (inst : Inst) : Option (Inst × Loc) :=
  let before := userFrames m s
  let after := userFrames m s'
  if before.length < after.length then some (inst, m.header inst)
  else if after.length < before.length then
    (before[before.length - 2]?).map (fun f => (inst, f.2.loc))
  else before.getLast?.map (fun f => (f.2.inst, f.2.loc))

/-- `frames` shows the user's frames after the step from `s` to `s'`. -/
def ShowsFrames (m : Machine σ E Inst Loc Vars Heap) (s s' : σ)
    (frames : List (MFrame Inst Loc Vars)) : Prop :=
  frames.length = (userFrames m s').length ∧
  ∀ (k i : Nat) (f : Frame Inst Loc) (x : MFrame Inst Loc Vars),
    (userFrames m s')[k]? = some (i, f) → frames[k]? = some x →
      x.inst = f.inst ∧ m.vars s' i = .ok x.vars ∧
      (i + 1 ≠ (m.stack s').length → x.locInst = f.inst ∧ x.loc = f.loc) ∧
      (i + 1 = (m.stack s').length → topLoc m s s' f.inst = some (x.locInst, x.loc))

/-- The steps recorded for an execution in which every state can be read: in order, one for each machine
step after which there is a user frame. -/
inductive Recorded (m : Machine σ E Inst Loc Vars Heap) :
    List (σ × σ) → List (MStep Inst Loc Vars Heap) → Prop
  | nil : Recorded m [] []
  | skip {s s' ps steps} : userFrames m s' = [] → Recorded m ps steps → Recorded m ((s, s') :: ps) steps
  | keep {s s' ps st steps} : userFrames m s' ≠ [] → ShowsFrames m s s' st.frames → st.heap = m.heap s' →
      Recorded m ps steps → Recorded m ((s, s') :: ps) (st :: steps)

/-- Reading the user's frames of state `s` fails first with `e`. -/
def ReadFails (m : Machine σ E Inst Loc Vars Heap) (s : σ) (e : E) : Prop :=
  ∃ before i f after, userFrames m s = before ++ (i, f) :: after ∧ m.vars s i = .error e ∧
    ∀ x ∈ before, ∃ v, m.vars s x.1 = .ok v
end

end Verif.Trace.Spec
