/-!
# Keys typed into an embedded editor

Model of `suppressKeyEvents` (frontend/packages/aquascope-embed/src/setup.ts:36-54), which is part of the set-up of every embedded
editor (setup.ts:56-63): while an editor has the focus, a listener at the root element of the page keeps keys from the listeners
of the book (turning pages with the arrow keys, searching with `s`).

Simplifications.
* Dispatch of events in the browser, from memory: the nodes above the target are visited downwards for listeners that capture,
  then upwards for the others; after a node with a listener that stops the event no further node is visited.  Nodes on the way to
  the target are numbered from the window (0), the document (1) and the root element (2) downwards; listeners elsewhere do not
  matter.
* All editors share one value `setup`, and so one function `captureKeyboard`; a function is a listener of a node at most once.
* When the focus moves, the editor that loses it gets `focusout` before the one that gets it gets `focusin`.
-/
namespace Verif.Keys

/-- A listener for keys. -/
structure Listener where
  /-- where it is, from the window downwards -/
  node : Nat
  /-- whether it captures -/
  early : Bool
  /-- whether it stops the event -/
  stops : Bool
  /-- which it is -/
  name : Nat
  deriving DecidableEq, Repr

/-- The listeners that run, for the nodes to be visited. -/
def visit (ls : List Listener) (early : Bool) : List Nat → List Listener × Bool
  | [] => ([], false)
  | n :: ns =>
    let here := ls.filter (fun l => l.node = n ∧ l.early = early)
    if here.any (·.stops) then (here, true)
    else
      let r := visit ls early ns
      (here ++ r.1, r.2)

/-- The listeners that a key with this target runs: downwards, and upwards if it has not been stopped. -/
def dispatch (ls : List Listener) (target : Nat) : List Listener :=
  let down := visit ls true (List.range (target + 1))
  if down.2 then down.1 else down.1 ++ (visit ls false (List.range (target + 1)).reverse).1

/-- `captureKeyboard`, a listener of the root element that does not capture (setup.ts:37,40-44). -/
def captureKeyboard : Listener := ⟨2, false, true, 0⟩

/-- The page. -/
structure Page where
  /-- the editor with the focus -/
  focus : Option Nat
  /-- the listeners for keys -/
  listeners : List Listener
  deriving DecidableEq, Repr

/-- `addEventListener`. -/
def add (l : Listener) (ls : List Listener) : List Listener := if l ∈ ls then ls else ls ++ [l]

/-- `removeEventListener`. -/
def remove (l : Listener) (ls : List Listener) : List Listener := ls.filter (· ≠ l)

/-- An editor gets the focus (setup.ts:39-45). -/
def Page.focusin (p : Page) (e : Nat) : Page := { focus := some e, listeners := add captureKeyboard p.listeners }

/-- An editor loses the focus (setup.ts:46-52). -/
def Page.focusout (p : Page) : Page := { focus := none, listeners := remove captureKeyboard p.listeners }

inductive Event
  /-- the focus moves to an editor, or to something else -/
  | move (to : Option Nat)
  /-- the editor with the focus is taken from the page and gets no `focusout` -/
  | vanish
  deriving DecidableEq, Repr

def Page.step (p : Page) : Event → Page
  | .move to =>
    let p := if p.focus.isSome then p.focusout else p
    match to with
    | some e => p.focusin e
    | none => p
  | .vanish => { p with focus := none }

/-- The page after some events, with the listeners of the book. -/
def run (book : List Listener) (es : List Event) : Page := es.foldl Page.step ⟨none, book⟩

/-- The listeners of the book that a key runs after some events. -/
def heard (book : List Listener) (es : List Event) (target : Nat) : List Listener :=
  (dispatch (run book es).listeners target).filter (· ≠ captureKeyboard)

end Verif.Keys
