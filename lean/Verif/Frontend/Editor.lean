import Verif.Serve.Model
/-!
# The editor as a state machine

Models what is on the page and how it changes: `Editor` (`frontend/packages/aquascope-editor/src/lib.tsx:95-362`),
the playground's buttons (`frontend/packages/aquascope-standalone/src/index.tsx:110-146`) and the refresh button of an
embedded block (`frontend/packages/aquascope-embed/src/main.tsx:265-267`).

Simplifications.
* A document is a value of an arbitrary type `C`. What is drawn is given by the document that was sent to the server
  for it.
* Answers arrive in any order, at any time, or never.
* `Fit.fresh c d`: the decorations of an answer for `c` can be made while the document is `d`; otherwise an exception
  ends the operation (a line that does not exist). `Fit.again c d`: the same for drawing stored decorations once more.
* An answer for the permissions with errors for some bodies is an `ok` answer. Hidden lines are left out; tabs and error
  cards are in `Live/Cards`.
-/
namespace Verif.Frontend.Editor

/-- A request that has been sent: the document and, for permissions, the boxes for steps and boundaries; for the
interpreter, `shouldFail` in the configuration. -/
inductive Req (C : Type) where
  | perms (code : C) (steps bounds : Bool)
  | interp (code : C) (shouldFail : Bool)
  deriving DecidableEq, Repr

/-- `ok`: `success` with a result; `err`: `success` with an `Err` result; `failed`: not `success`;
`none`: the reply is not JSON, or there is none, and the promise is rejected. -/
inductive Reply
  | ok
  | err
  | failed
  | none
  deriving DecidableEq, Repr

/-- What is on the page. `decos`: the stored decorations (lib.tsx:119). -/
structure Page (C : Type) where
  doc : C
  decos : Option C
  steps : Option C
  bounds : Option C
  marks : Option C
  panel : Option C
  banner : Bool
  stderr : Option C
  pending : List (Req C)
  deriving DecidableEq, Repr

inductive Event (C : Type) where
  /-- the document is changed to `c` -/
  | edit (c : C)
  /-- the playground's permissions button, with its boxes -/
  | perms (steps bounds : Bool)
  /-- the playground's interpreter button; `passes`: the borrow checker box is ticked -/
  | interp (passes : Bool)
  /-- the refresh button of an embedded block with these operations -/
  | refresh (perms interp : Bool)
  /-- the answer to the pending request number `i` -/
  | answer (i : Nat) (r : Reply)
  deriving DecidableEq, Repr

structure Fit (C : Type) where
  fresh : C → C → Bool
  again : C → C → Bool

def isPerms {C : Type} : Req C → Bool
  | .perms .. => true
  | .interp .. => false

/-- `renderPermissions(view, decos, cfg)` (permissions.tsx:56-75). -/
def draw {C : Type} (s : Page C) (c : C) (st bd : Bool) : Page C :=
  { s with steps := if st then some c else none, bounds := if bd then some c else none }

/-- The public `renderPermissions` after a failed answer (lib.tsx:224-234). -/
def redraw {C : Type} (f : Fit C) (s : Page C) (st bd : Bool) : Page C :=
  match s.decos with
  | none => s
  | some d => if f.again d s.doc then draw s d st bd else s

/-- `renderOperation` once the answer is there (lib.tsx:294-361); `playground`: called through the public
`renderPermissions`. -/
def receive {C : Type} (f : Fit C) (playground : Bool) (s : Page C) : Req C → Reply → Page C
  | _, .none => s
  | .perms c st bd, .failed =>
    let t := { s with stderr := some c }
    if playground then redraw f t st bd else t
  | .perms c st bd, _ =>
    let t := { s with stderr := some c }
    if f.fresh c s.doc then draw { t with decos := some c } c st bd else t
  | .interp c _, .failed => { s with stderr := some c }
  | .interp c sf, .err => { s with stderr := some c, banner := s.banner || sf }
  | .interp c sf, .ok =>
    let t := { s with stderr := some c, banner := s.banner || sf }
    if f.fresh c s.doc then { t with marks := some c, panel := some c } else t

/-- One event. `playground`: the page is the playground, not an embedded block. -/
def step {C : Type} (f : Fit C) (playground : Bool) (s : Page C) : Event C → Page C
  -- `resetMarkedRangesOnEdit` (lib.tsx:95-107)
  | .edit c => { s with doc := c, steps := none, bounds := none, marks := none }
  -- a button is disabled while its request is pending (index.tsx:110-123)
  | .perms st bd =>
    if s.pending.any isPerms then s else { s with pending := s.pending ++ [.perms s.doc st bd] }
  | .interp passes =>
    if s.pending.any (fun r => !isPerms r) then s
    else { s with pending := s.pending ++ [.interp s.doc (!passes)] }
  -- `renderOperation(operation, {})` (main.tsx:265-267)
  | .refresh p i =>
    { s with pending := s.pending ++ ((if p then [Req.perms s.doc false false] else []) ++
        (if i then [Req.interp s.doc false] else [])) }
  | .answer i r =>
    match s.pending[i]? with
    | none => s
    | some q => receive f playground { s with pending := s.pending.eraseIdx i } q r

def run {C : Type} (f : Fit C) (playground : Bool) (s : Page C) (es : List (Event C)) : Page C :=
  es.foldl (step f playground) s

/-- A page that has just been opened. -/
def start {C : Type} (c : C) : Page C := ⟨c, none, none, none, none, none, false, none, []⟩

/-! ## The borrow checker box -/

open Verif.Serve

/-- The body sent by the interpreter button (index.tsx:133-140, lib.tsx:241-259). -/
def interpRequest (code : Text) (passes : Bool) : Request :=
  ⟨code, some (.obj [(shouldFailKey, .bool (!passes))])⟩

end Verif.Frontend.Editor
