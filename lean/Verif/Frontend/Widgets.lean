/-!
# Which elements the editor keeps when a new answer is shown

Model of `makeDecorationField` (frontend/packages/aquascope-editor/src/editor-utils/misc.tsx:311-325) with the two
kinds of widgets, `PermissionStepLineWidget` (editor-utils/stepper.tsx:385-451) and `BoundaryPointWidget`
(editor-utils/boundaries.tsx:143-187).

CodeMirror calls `toDOM` for a widget only if the same field had no widget at the same position for which `eq` holds;
otherwise the element that is already there stays. (From memory of the library, whose source is not in this sandbox. Two
widgets of one field at the same position, and changes of another field at this position, are not modelled.)

Simplifications: what a widget draws is a value of any type; positions are numbers; the order of the widgets of a field
is left out.
-/
namespace Verif.Frontend.Widgets

/-- A widget in the editor: where it is, the widget object, and what its element shows. -/
structure Item (W C : Type) where
  pos : Nat
  widget : W
  dom : C
  deriving DecidableEq, Repr

/-- What happens to a field: the text is edited (`tr.changes`, a widget inside a deleted piece goes away), or new
widgets are set (`setEffect`). -/
inductive Event (W : Type)
  | edit (map : Nat → Option Nat)
  | set (new : List (Nat × W))

variable {W C : Type}

/-- The element for a new widget: the old one if `eq` holds, a new one otherwise. -/
def element (eq : W → W → Bool) (draw : W → C) (old : List (Item W C)) (p : Nat) (w : W) : C :=
  match old.find? (fun i => i.pos == p && eq i.widget w) with
  | some i => i.dom
  | none => draw w

/-- The field after an event (misc.tsx:315-321). -/
def update (eq : W → W → Bool) (draw : W → C) (s : List (Item W C)) : Event W → List (Item W C)
  | .edit map => s.filterMap fun i => (map i.pos).map fun p => { i with pos := p }
  | .set new => new.map fun n => ⟨n.1, n.2, element eq draw s n.1 n.2⟩

/-- The field after a history; it starts empty (misc.tsx:314). -/
def run (eq : W → W → Bool) (draw : W → C) (es : List (Event W)) : List (Item W C) :=
  es.foldl (update eq draw) []

/-- A step widget: the number of the line it was made for, and its tables. -/
structure StepW (T : Type) where
  line : Nat
  tables : T
  deriving DecidableEq, Repr

/-- `PermissionStepLineWidget.eq` (stepper.tsx:400-403): only the line is compared. -/
def StepW.eq {T : Type} (a b : StepW T) : Bool := a.line == b.line

/-- A boundary widget: the identity of the location object, which `===` compares, and the boundary. -/
structure BoundW (B : Type) where
  location : Nat
  boundary : B
  deriving DecidableEq, Repr

/-- `BoundaryPointWidget.eq` (boundaries.tsx:164-167). -/
def BoundW.eq {B : Type} (a b : BoundW B) : Bool := a.location == b.location

/-- The step tables. -/
def runSteps {T : Type} (es : List (Event (StepW T))) : List (Item (StepW T) T) := run StepW.eq StepW.tables es

/-- The boundaries. -/
def runBounds {B : Type} (es : List (Event (BoundW B))) : List (Item (BoundW B) B) := run BoundW.eq BoundW.boundary es

end Verif.Frontend.Widgets
