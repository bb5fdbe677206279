/-!
# Model of the controls of the blocks of a page

Models the pop-ups of a block (`frontend/packages/aquascope-embed/src/main.tsx:31-174,202-213`) and its buttons
(`frontend/packages/aquascope-editor/src/lib.tsx:68-93,181-187`).

Simplifications.
* The page is drawn again after every event, before the next one (React does so for clicks).  An effect whose
  dependency has changed is undone and then done again.
* A block has two pop-ups, the one for reports and the one with help, and it has both or none; the buttons that are
  present are parameters (`Conf`).
* Functions that are registered as listeners are numbers; each opening makes a new one.
* The text of an editor is a list of lines; what an edit does to it is a parameter of the event.
* `window.telemetry.log` returns; what it does with a report is not modelled.
* A button that is not on the page cannot be clicked: such events do nothing.
-/
namespace Verif.Controls

abbrev Text := List Char

/-- What the page is made from. -/
structure Conf where
  /-- `data-code` of a block -/
  code : Nat → Text
  /-- whether a block has the two pop-ups (main.tsx:205-213) -/
  info : Nat → Bool
  /-- whether a block has the button for hidden lines (lib.tsx:314) -/
  eye : Nat → Bool
  /-- whether the text of a block can be changed (lib.tsx:144-145) -/
  editable : Nat → Bool

inductive Which
  | report
  | help
  deriving DecidableEq, Repr

abbrev Key := Nat × Which

/-- `ContextProvider` (main.tsx:60-113): the state, and the listener its effect has registered. -/
structure Popup where
  isOpen : Bool
  listener : Option Nat
  deriving DecidableEq, Repr

structure Page where
  popup : Key → Popup
  /-- the listeners for keys at the root element, in the bubbling phase -/
  listeners : List Nat
  fresh : Nat
  /-- `hidden` of `HideButton` -/
  hidden : Nat → Bool
  /-- whether the editor has the class `show-hidden` -/
  shows : Nat → Bool
  lines : Nat → List Text
  clipboard : Option Text
  reports : List (Text × Text)

/-- Lines of a text, as CodeMirror splits it: at `\r\n`, `\r` and `\n`. -/
def split : Text → List Text
  | [] => [[]]
  | '\r' :: '\n' :: r => [] :: split r
  | '\r' :: r => [] :: split r
  | '\n' :: r => [] :: split r
  | c :: r => match split r with
    | [] => [[c]]
    | l :: ls => (c :: l) :: ls

/-- `join("\n")`. -/
def join : List Text → Text
  | [] => []
  | [l] => l
  | l :: ls => l ++ '\n' :: join ls

def set {α : Type} {β : Type} [DecidableEq α] (f : α → β) (a : α) (b : β) : α → β :=
  fun x => if x = a then b else f x

/-- The page after loading. -/
def Page.init (c : Conf) : Page where
  popup := fun _ => ⟨false, none⟩
  listeners := []
  fresh := 0
  hidden := fun _ => true
  shows := fun _ => false
  lines := fun b => split (c.code b)
  clipboard := none
  reports := []

/-- The effect of `useCaptureMdbookShortcuts` is undone (main.tsx:50-55). -/
def Page.cleanup (p : Page) (k : Key) : Page :=
  match (p.popup k).listener with
  | none => p
  | some n => { p with
      listeners := p.listeners.filter (fun m => !decide (m = n))
      popup := set p.popup k { p.popup k with listener := none } }

/-- The effect of `useCaptureMdbookShortcuts` (main.tsx:31-58). -/
def Page.effect (p : Page) (k : Key) : Page :=
  if (p.popup k).isOpen then { p with
    listeners := p.listeners ++ [p.fresh]
    fresh := p.fresh + 1
    popup := set p.popup k { p.popup k with listener := some p.fresh } }
  else p

/-- `setOpen` (main.tsx:69,88,104) and drawing again. -/
def Page.setOpen (p : Page) (k : Key) (o : Bool) : Page :=
  if (p.popup k).isOpen = o then p
  else
    let p := { p with popup := set p.popup k { p.popup k with isOpen := o } }
    (p.cleanup k).effect k

inductive Event
  /-- the button of a pop-up -/
  | button (k : Key)
  /-- the cross in a pop-up -/
  | cross (k : Key)
  /-- the form of the report of a block, with the text entered -/
  | submit (b : Nat) (feedback : Text)
  | eye (b : Nat)
  | copy (b : Nat)
  | edit (b : Nat) (text : Text)
  deriving DecidableEq, Repr

/-- `HideButton` (lib.tsx:81-93). -/
def Page.toggleHidden (p : Page) (b : Nat) : Page :=
  let h := !p.hidden b
  { p with hidden := set p.hidden b h, shows := set p.shows b (!h) }

def Page.step (c : Conf) (p : Page) : Event → Page
  | .button k => if c.info k.1 then p.setOpen k (!(p.popup k).isOpen) else p
  | .cross k => if c.info k.1 && (p.popup k).isOpen then p.setOpen k false else p
  | .submit b feedback =>
    -- main.tsx:117-125
    if c.info b && (p.popup (b, .report)).isOpen then
      ({ p with reports := p.reports ++ [(c.code b, feedback)] }).setOpen (b, .report) false
    else p
  | .eye b => if c.eye b then p.toggleHidden b else p
  | .copy b => { p with clipboard := some (join (p.lines b)) }
  | .edit b text => if c.editable b then { p with lines := set p.lines b (split text) } else p

def run (c : Conf) (evs : List Event) : Page := evs.foldl (Page.step c) (Page.init c)

/-- Whether a key pressed anywhere reaches listeners at the document: those at the root element come first and stop
the event (main.tsx:34-48). -/
def Page.keyReachesBook (p : Page) : Bool := p.listeners.isEmpty

/-- `getCurrentCode` (lib.tsx:195-197), which is what is sent to the server. -/
def Page.currentCode (p : Page) (b : Nat) : Text := join (p.lines b)

/-- The class of the icon (lib.tsx:90). -/
def Page.icon (p : Page) (b : Nat) : String := if p.hidden b then "fa-eye" else "fa-eye-slash"

/-- Whether a line marked as hidden is shown (styles.scss:314-321). -/
def Page.showsHidden (p : Page) (b : Nat) : Bool := p.shows b

end Verif.Controls
