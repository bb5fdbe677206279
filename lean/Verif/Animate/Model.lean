/-!
# The animation of a stack of permissions

Model of `triggerAnimation` of `PermStack` (frontend/packages/aquascope-editor/src/editor-utils/boundaries.tsx:118-134): when the
mouse enters or leaves a stack, it has the class `animating` for half a second.

Simplifications.
* Times are milliseconds; a timer fires when it is due.  The times need not be sorted.
* The state of React: `setTimer` is seen by `triggerAnimation` only after the next rendering of the stack.  `animating` is the
  state; that the class follows it with the next rendering is left out.
* The names that the browser gives to timers are 1, 2, …, so that the comparison with 0 (boundaries.tsx:125) is always true;
  `clearTimeout(undefined)` does nothing.
-/
namespace Verif.Animate

/-- A stack of permissions. -/
structure Stack where
  /-- the state `animating` -/
  animating : Bool
  /-- the state `timer` -/
  timer : Option Nat
  /-- `timer` as `triggerAnimation` sees it: that of the last rendering -/
  seen : Option Nat
  /-- the timers that run: the name, when it is due -/
  running : List (Nat × Nat)
  /-- the name of the next timer -/
  next : Nat
  deriving DecidableEq, Repr

/-- The first rendering (boundaries.tsx:121-122). -/
def fresh : Stack := ⟨false, none, none, [], 1⟩

/-- How long the animation takes (boundaries.tsx:126). -/
def duration : Nat := 500

/-- Time passes until `t`: the timers that are due fire (boundaries.tsx:126). -/
def advance (t : Nat) (s : Stack) : Stack :=
  if s.running.any (fun x => decide (x.2 ≤ t)) then
    { s with animating := false, running := s.running.filter (fun x => decide (t < x.2)) }
  else s

/-- `clearTimeout(timer)` (boundaries.tsx:125). -/
def clear (timer : Option Nat) (running : List (Nat × Nat)) : List (Nat × Nat) :=
  match timer with
  | none => running
  | some n => running.filter (fun x => decide (x.1 ≠ n))

/-- `triggerAnimation` (boundaries.tsx:123-127). -/
def trigger (t : Nat) (s : Stack) : Stack :=
  { s with
    animating := true
    running := clear s.seen s.running ++ [(s.next, t + duration)]
    timer := some s.next
    next := s.next + 1 }

/-- React renders the stack again. -/
def render (s : Stack) : Stack := { s with seen := s.timer }

/-- The mouse enters or leaves at a time; whether the stack is rendered before anything else happens. -/
structure Event where
  time : Nat
  rendered : Bool
  deriving DecidableEq, Repr

/-- One event (boundaries.tsx:131-132). -/
def step (s : Stack) (e : Event) : Stack :=
  let s' := trigger e.time (advance e.time s)
  if e.rendered then render s' else s'

/-- The stack after some events. -/
def run (es : List Event) : Stack := es.foldl step fresh

/-- Whether the stack is animated at a time after these events. -/
def animatedAt (es : List Event) (t : Nat) : Bool := (advance t (run es)).animating

end Verif.Animate
