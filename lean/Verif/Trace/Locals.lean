import Verif.Trace.Model
import Verif.Value.Model

/-!
# Model of which variables a step shows

Models `crates/aquascope/src/interpreter/step.rs`: `mem_is_initialized` (294-327), `test_local` (329-421),
`find_locals` (423-444), and `build_stack`/`build_frame` (225-292, 446-457) with the variables read by
`Verif.Value` and the moves recorded by `Verif.Trace.Model`.

The interpreted program is a parameter: for every variable its declaration, its state, its layout and the
operand that reading it starts from.
-/
namespace Verif.Trace.Locals

open Verif.Value

/-! ## Initialised memory -/

mutual
/-- The layout of a variable's value (`TyAndLayout`), by `FieldsShape`: `Primitive`, `Array`, `Arbitrary`,
`Union`.  A layout with several variants (an enum) is `Arbitrary` with one field, the tag; `payload` are the
fields of the variant that the value has, which the code does not look at. -/
inductive Lay
  | scalar (size : Nat)
  | array (elem : Lay) (count : Nat)
  | fields (fs : LayFields) (size : Nat)
  | enum (tagOff tagSize : Nat) (payload : LayFields) (size : Nat)
  | union (size : Nat)
/-- Fields with their offsets. -/
inductive LayFields
  | nil
  | cons (offset : Nat) (lay : Lay) (rest : LayFields)
end

/-- `layout.size`. -/
def Lay.size : Lay → Nat
  | .scalar n => n
  | .array e c => e.size * c
  | .fields _ n => n
  | .enum _ _ _ n => n
  | .union n => n

/-- The ranges of the fields (step.rs:309-319). -/
def LayFields.ranges : LayFields → List (Nat × Nat)
  | .nil => []
  | .cons off l rest => (off, l.size) :: rest.ranges

/-- `init_mask.is_range_initialized(range).is_ok()` (step.rs:323-326): every byte of the range is
initialised.  Bytes beyond the end of the allocation are not. -/
def rangeInit (init : Nat → Bool) (r : Nat × Nat) : Bool :=
  (List.range r.2).all (fun i => init (r.1 + i))

/-- `mem_is_initialized` (step.rs:294-327); `none`: the `unimplemented!` for unions. -/
def memIsInitialized (lay : Lay) (allocSize : Nat) (init : Nat → Bool) : Option Bool :=
  match lay with
  | .scalar _ => some (rangeInit init (0, allocSize))
  | .array _ _ => some (rangeInit init (0, allocSize))
  | .fields fs _ => some (fs.ranges.all (rangeInit init))
  | .enum off n _ _ => some (rangeInit init (off, n))
  | .union _ => none

/-! ## Variables -/

/-- `LocalState::as_mplace_or_imm` (step.rs:376-380): dead; a value without address, initialised or not; in
memory. -/
inductive State
  | dead
  | uninit
  | value
  | memory (a : AllocId)
  deriving DecidableEq, Repr

/-- A variable of a frame: whether its type is unit, its printed place (`Place::to_string`), its state,
its layout (`layout_of_local`, also as seen by the address locator) and the operand read
(`local_at_frame_to_op`). -/
structure Var where
  isUnit : Bool
  name : Option String
  state : State
  layout : Except Err (Lay × Ty)
  op : Except Err Op

/-- An entry of `var_debug_info`: a place (variable and number of projections), or a constant. -/
inductive Debug
  | place (l : Nat) (projections : Nat)
  | const
  deriving DecidableEq, Repr

/-- A frame of the user's crate: the variables, `_0` (the return place) first, and the debug info of its
body. -/
structure Body where
  vars : List Var
  debug : List Debug

/-- Memory as `test_local` sees it: kind and size of allocations, and which bytes are initialised. -/
structure World where
  mem : Mem
  init : AllocId → Nat → Bool

/-- `has_debug_info` (step.rs:349-364). -/
def hasDebugInfo (debug : List Debug) (l : Nat) : Bool :=
  (debug.filterMap (fun
    | .place p 0 => some p
    | .place _ (_ + 1) => none
    | .const => none)).any (fun p => l == p)

/-- The name under which a variable is shown, if it may be shown (step.rs:336-374). -/
def shownName (b : Body) (l : Nat) (v : Var) : Option String :=
  if l = 0 then
    if v.isUnit then none else some "(return)"
  else if hasDebugInfo b.debug l then
    match v.name with
    | some n => some n
    | none => some "(tmp)"
  else none

/-- What `test_local` finds: the variable with name and operand, and the stack slot it records. -/
structure Found where
  name : String
  op : Op
  slot : Option (AllocId × Ty)

/-- `test_local` (step.rs:329-421).  An allocation that is not in the allocation map is a panic
(`unwrap`). -/
def testLocal (st : World) (b : Body) (l : Nat) (v : Var) : Except Err (Option Found) :=
  match shownName b l v with
  | none => .ok none
  | some name =>
    match v.state with
    | .dead => .ok none
    | state =>
      match v.layout with
      | .error e => .error e
      | .ok (lay, ty) =>
        let finish (slot : Option (AllocId × Ty)) : Except Err (Option Found) :=
          match v.op with
          | .error e => .error e
          | .ok op => .ok (some { name, op, slot })
        match state with
        | .dead => .ok none
        | .uninit => if lay.size = 0 then finish none else .ok none
        | .value => finish none
        | .memory a =>
          match st.mem.kind a with
          | none => .error .panic
          | some _ =>
            match memIsInitialized lay (st.mem.size a) (st.init a) with
            | none => .error .panic
            | some false => .ok none
            | some true => finish (some (a, ty))

/-- The slots: `MemoryMap::stack_slots` (step.rs:99-106). -/
abbrev Slots := AllocId → Option (Nat × String × Ty)

/-- `stack_slots.insert` (step.rs:412-414). -/
def record (slots : Slots) (k : Nat) (f : Found) : Slots :=
  match f.slot with
  | none => slots
  | some (a, ty) => fun b => if b = a then some (k, f.name, ty) else slots b

/-- The loop over the variables of one frame (step.rs:430-440), from variable `l` on. -/
def findFrame (st : World) (b : Body) (k : Nat) :
    Nat → List Var → Slots → Except Err (List (Nat × String × Op) × Slots)
  | _, [], slots => .ok ([], slots)
  | l, v :: vs, slots =>
    match testLocal st b l v with
    | .error e => .error e
    | .ok none => findFrame st b k (l + 1) vs slots
    | .ok (some f) =>
      match findFrame st b k (l + 1) vs (record slots k f) with
      | .error e => .error e
      | .ok (fs, slots) => .ok ((l, f.name, f.op) :: fs, slots)

/-- `find_locals` (step.rs:423-444): the user's frames in order; `k` is the position among them. -/
def findLocals (st : World) :
    Nat → List Body → Slots → Except Err (List (List (Nat × String × Op)) × Slots)
  | _, [], slots => .ok ([], slots)
  | k, b :: bs, slots =>
    match findFrame st b k 0 b.vars slots with
    | .error e => .error e
    | .ok (fs, slots) =>
      match findLocals st (k + 1) bs slots with
      | .error e => .error e
      | .ok (fss, slots) => .ok (fs :: fss, slots)

/-! ## The stack of a step -/

/-- `MLocal` (step.rs:38-44). -/
structure MLocal where
  name : String
  value : MValue
  movedPaths : List (List PSeg)

/-- The moved paths of a variable (step.rs:254-278): recorded places are whole variables
(`Place::from_local`, step.rs:551), so that their projections are empty. -/
def movedPaths (moved : List Nat) (l : Nat) : List (List PSeg) :=
  if moved.contains l then [[]] else []

/-- The variables of a frame in `build_frame` (step.rs:261-284). -/
def buildVars (mem : Mem) (fuel : Nat) (moved : List Nat) : List (Nat × String × Op) → M (List MLocal)
  | [] => pure []
  | (l, n, o) :: xs => do
    let v ← readOp (readPtr mem fuel) [] o
    let vs ← buildVars mem fuel moved xs
    pure ({ name := n, value := v, movedPaths := movedPaths moved l } :: vs)

/-- `build_frame` for each frame in `build_stack` (step.rs:446-457): `idx` are the positions of the user's
frames in the whole stack.  A position without a set of moved places is an index panic (step.rs:119). -/
def buildStackVars (mem : Mem) (fuel : Nat) (mp : MovedPlaces) :
    List Nat → List (List (Nat × String × Op)) → M (List (List MLocal))
  | i :: idx, xs :: xss =>
    match placesAt mp i with
    | none => throw .panic
    | some moved => do
      let f ← buildVars mem fuel moved xs
      let fs ← buildStackVars mem fuel mp idx xss
      pure (f :: fs)
  | _, _ => pure []

/-- The variables and the heap of a step (`build_step`, step.rs:463-480). -/
def stepVars (st : World) (fuel : Nat) (mp : MovedPlaces) (frames : List (Nat × Body)) :
    Except Err (List (List MLocal) × List MValue) :=
  match findLocals st 0 (frames.map (·.2)) (fun _ => none) with
  | .error e => .error e
  | .ok (fss, slots) =>
    match buildStackVars st.mem fuel mp (frames.map (·.1)) fss (startMap slots) with
    | .ok vs s => .ok (vs, s.heap)
    | .error e _ => .error e

end Verif.Trace.Locals
