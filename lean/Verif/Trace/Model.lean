/-!
# Model of the trace recorder

Models `crates/aquascope/src/interpreter/step.rs`: `MovedPlaces` (108-139), `local_frames` (483-497),
`build_frame`/`build_stack`/`build_step` (225-292, 446-480), `collect_moves`/`handle_moves` (499-559),
`step` (562-620), `beautify_error` (622-641), `eval` (644-664).

The machine (Miri) is a parameter: a state type, its stack, its step function, the operands moved by
the instruction about to run, and reading the variables of the local frames.
One thread is modelled.
-/
namespace Verif.Trace

/-! ## Moved places -/

/-- A moved operand after `eval_place(..).as_mplace_or_local()` (step.rs:543-552): a variable that has
no address, or memory. -/
inductive Moved
  | direct (l : Nat)
  | memory
  deriving DecidableEq, Repr

/-- `MovedPlaces` (step.rs:108-139): a set of variables per stack frame, bottom frame first.  Sets are
lists. -/
abbrev MovedPlaces := List (List Nat)

/-- `MovedPlaces::new` (step.rs:111-113). -/
def MovedPlaces.new : MovedPlaces := [[]]

/-- `add_place` (step.rs:122-130); `none`: the panic for a missing frame. -/
def addPlace (mp : MovedPlaces) (frame : Nat) (l : Nat) : Option MovedPlaces :=
  match mp[frame]? with
  | none => none
  | some set => some (mp.set frame (l :: set))

/-- `push_frame` (step.rs:132-134). -/
def pushFrame (mp : MovedPlaces) : MovedPlaces := mp ++ [[]]

/-- `pop_frame` (step.rs:136-138). -/
def popFrame (mp : MovedPlaces) : MovedPlaces := mp.dropLast

/-- The loop over the moves (step.rs:542-553). -/
def addMoves (mp : MovedPlaces) (frame : Nat) : List Moved → Option MovedPlaces
  | [] => some mp
  | .memory :: ms => addMoves mp frame ms
  | .direct l :: ms =>
    match addPlace mp frame l with
    | none => none
    | some mp => addMoves mp frame ms

/-- `handle_moves` (step.rs:530-559): `n` and `n'` are the stack heights before and after the machine
step. (`n - 1` is checked subtraction in a debug build; it is only evaluated inside the loop.) -/
def handleMoves (mp : MovedPlaces) (n n' : Nat) (moves : List Moved) : Option MovedPlaces :=
  if n < n' then some (pushFrame mp)
  else if n' < n then some (popFrame mp)
  else addMoves mp (n - 1) moves

/-- `places_at` (step.rs:115-120). -/
def placesAt (mp : MovedPlaces) (i : Nat) : Option (List Nat) := mp[i]?

/-! ## Recording -/

/-- A stack frame: instance, whether it belongs to the user's crate, current location. -/
structure Frame (Inst Loc : Type) where
  inst : Inst
  isLocal : Bool
  loc : Loc

/-- The machine.  `header` is the span of a function's header (`BodySpanType::Header`).  `vars s i`
reads the variables of frame `i` (global index) with its moved set, `heap s` is the heap collected by
reading all frames.  (Reading is modelled in `Verif.Value`; here it is a parameter that may fail.) -/
structure Machine (σ E Inst Loc Vars Heap : Type) where
  stack : σ → List (Frame Inst Loc)
  next : σ → Except E (σ × Bool)
  header : Inst → Loc
  vars : σ → Nat → Except E Vars
  heap : σ → Heap

/-- A displayed frame (`MFrame`, step.rs:42-50, without name and body span, which are functions of the
instance). -/
structure MFrame (Inst Loc Vars : Type) where
  inst : Inst
  locInst : Inst
  loc : Loc
  vars : Vars

/-- A displayed step (`MStep`). -/
structure MStep (Inst Loc Vars Heap : Type) where
  frames : List (MFrame Inst Loc Vars)
  heap : Heap

section
variable {σ E Inst Loc Vars Heap : Type} (m : Machine σ E Inst Loc Vars Heap)

/-- `local_frames` (step.rs:483-497): the frames of the user's crate with their global index and whether
they are the top of the whole stack. -/
def localFrames (s : σ) : List (Nat × Bool × Frame Inst Loc) :=
  ((m.stack s).zipIdx.filter (fun x => x.1.isLocal)).map
    (fun x => (x.2, x.2 == (m.stack s).length - 1, x.1))

/-- `build_frame` (step.rs:225-292). -/
def buildFrame (s : σ) (override : Inst × Loc) (f : Nat × Bool × Frame Inst Loc) :
    Except E (MFrame Inst Loc Vars) :=
  match m.vars s f.1 with
  | .error e => .error e
  | .ok vs =>
    if f.2.1 then .ok { inst := f.2.2.inst, locInst := override.1, loc := override.2, vars := vs }
    else .ok { inst := f.2.2.inst, locInst := f.2.2.inst, loc := f.2.2.loc, vars := vs }

/-- Building all frames, stopping at the first error (step.rs:450-456). -/
def buildFrames (s : σ) (override : Inst × Loc) :
    List (Nat × Bool × Frame Inst Loc) → Except E (List (MFrame Inst Loc Vars))
  | [] => .ok []
  | f :: fs =>
    match buildFrame m s override f with
    | .error e => .error e
    | .ok x =>
      match buildFrames s override fs with
      | .error e => .error e
      | .ok xs => .ok (x :: xs)

/-- `build_step` (step.rs:463-480). -/
def buildStep (s : σ) (override : Inst × Loc) : Except E (Option (MStep Inst Loc Vars Heap)) :=
  match buildFrames m s override (localFrames m s) with
  | .error e => .error e
  | .ok [] => .ok none
  | .ok fs => .ok (some { frames := fs, heap := m.heap s })

/-- `get_current_local_loc` (step.rs:565-569). -/
def currentLocalLoc (s : σ) : Option (Inst × Loc) :=
  (localFrames m s).getLast?.map (fun f => (f.2.2.inst, f.2.2.loc))

/-- `caller_frame_loc` (step.rs:577-579). `get(len.wrapping_sub(2))`: nothing for fewer than two. -/
def callerLoc (s : σ) : Option Loc :=
  if (localFrames m s).length < 2 then none
  else ((localFrames m s)[(localFrames m s).length - 2]?).map (fun f => f.2.2.loc)

/-- The location shown after a machine step from `s` to `s'` (step.rs:587-607).  The outer `none` is
the panic of `local_frames_after.last().unwrap()`. -/
def shownLoc (s s' : σ) : Option (Option (Inst × Loc)) :=
  let n := (localFrames m s).length
  let n' := (localFrames m s').length
  if n < n' then
    match (localFrames m s').getLast? with
    | none => none
    | some f => some (some (f.2.2.inst, m.header f.2.2.inst))
  else if n' < n then
    match callerLoc m s with
    | some loc =>
      match (localFrames m s').getLast? with
      | none => none
      | some f => some (some (f.2.2.inst, loc))
    | none => some (currentLocalLoc m s)
  else some (currentLocalLoc m s)

/-- How `step`/`eval` can stop. -/
inductive End (E : Type)
  | finished
  | failed (e : E)
  | panicked
  deriving DecidableEq, Repr

/-- `eval` with the loop of `step` inlined (step.rs:562-620, 644-664): one machine step per round; `none`
if the fuel runs out.  The steps come first, then how the execution ended. -/
def eval : Nat → σ → Option (List (MStep Inst Loc Vars Heap) × End E)
  | 0, _ => none
  | fuel + 1, s =>
    match m.next s with
    | .error e => some ([], .failed e)
    | .ok (s', more) =>
      match shownLoc m s s' with
      | none => some ([], .panicked)
      | some loc? =>
        let built : Except E (Option (MStep Inst Loc Vars Heap)) :=
          match loc? with
          | none => .ok none
          | some loc => buildStep m s' loc
        match built with
        | .error e => some ([], .failed e)
        | .ok st =>
          if more then
            match eval fuel s' with
            | none => none
            | some (steps, end_) => some (st.toList ++ steps, end_)
          else some (st.toList, .finished)

/-- `beautify_error` and the result of `eval` (step.rs:622-641, 657-663): an error that is undefined
behaviour is shown, any other makes the whole evaluation fail. -/
def report (isUb : E → Bool) : List (MStep Inst Loc Vars Heap) × End E →
    Option (List (MStep Inst Loc Vars Heap) × Option E)
  | (steps, .finished) => some (steps, none)
  | (steps, .failed e) => if isUb e then some (steps, some e) else none
  | (_, .panicked) => none
end

end Verif.Trace
