import Verif.Embed.Model
/-!
# The editor as a component of another page

Model of `EditorComponent` (frontend/packages/aquascope-editor/src/lib.tsx:364-395) and of `Editor.destroy` (lib.tsx:236-238), on
top of `Editor.renderOperation` (`Embed/Model`).

Simplifications.
* The values of `steps` and `permissions` are JSON values, or missing.
* With a response at hand `renderOperation` waits for nothing, so the operations run one after the other.
* React, from memory: an effect with an empty list of dependencies runs when the component is first shown, and is undone when it
  is removed together with its element; in strict mode it is undone and run again while the element stays.
* `destroy` removes the code from its container; the containers of the buttons and of the diagram stay where they are.
-/
namespace Verif.Embed
open Verif.Block Verif.Preproc

/-- `EditorComponentProps` without the set-up (lib.tsx:364-369). -/
structure Props where
  code : List Char
  steps : Option Json := none
  permissions : Option Json := none

/-- `{horizontal: "true"}` (lib.tsx:378-380). -/
def stepsConfig (k : List Char) : Option (List Char) := if k = kHorizontal then some kTrue else none

/-- `{stepper: "true", boundaries: "true"}` (lib.tsx:385-388). -/
def permissionsConfig (k : List Char) : Option (List Char) :=
  if k = kStepper then some kTrue else if k = kBoundaries then some kTrue else none

/-- The arguments of `renderOperation`: a response and options, no annotations. -/
def given (code op : List Char) (response : Json) (config : List Char → Option (List Char)) : Html :=
  { code := code, annotations := {}, operations := [op], responses := fun o => if o = op then some response else none,
    config := config }

/-- `if (props.x) editor.renderOperation(op, {response: props.x, config})` (lib.tsx:375-381, 382-389). -/
def operate (D : Draws) (code op : List Char) (config : List Char → Option (List Char)) (x : Option Json) (e : Ed) : Ed :=
  match x with
  | none => e
  | some j => if falsy (some j) then e else e.renderOperation D (given code op j config) op

/-- The effect (lib.tsx:373-389). -/
def openComponent (D : Draws) (p : Props) : Ed :=
  operate D p.code opPermissions permissionsConfig p.permissions
    (operate D p.code opInterpreter stepsConfig p.steps { code := p.code })

/-- What is in the element of the component. -/
structure Slot where
  /-- the editor and the values for which it was made -/
  live : Option (Props × Ed) := none
  /-- editors that were destroyed, whose containers are still there -/
  left : List Ed := []

inductive Happens
  /-- the component is rendered with these values -/
  | render (p : Props)
  /-- its effect is undone and run again in the same element -/
  | again
  /-- it is removed with its element -/
  | unmount

def Slot.step (D : Draws) (s : Slot) : Happens → Slot
  | .render p => match s.live with
    | none => { live := some (p, openComponent D p), left := [] }
    | some _ => s
  | .again => match s.live with
    | none => s
    | some (p, e) => { live := some (p, openComponent D p), left := s.left ++ [e] }
  | .unmount => {}

end Verif.Embed
