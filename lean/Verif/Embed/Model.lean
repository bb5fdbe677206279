import Verif.Preproc.Model
/-!
# The blocks of a page in the browser, and the options of a block

Models `initAquascopeBlocks` (frontend/packages/aquascope-embed/src/main.tsx:176-269) for the elements written by the
preprocessor, and `Editor.renderOperation` with a response that is already there
(frontend/packages/aquascope-editor/src/lib.tsx:261-361). The element is `Preproc.Html`.

Simplifications.
* Writing an attribute as JSON into HTML and reading it back is the identity (proved of a model of the texts: C115).
* `Draws` says whether drawing a response throws (`renderInterpreter`, interpreter.tsx:818-856, and
  `makePermissionsDecorations`, permissions.tsx:25-54); what is drawn is the response itself.
* Hidden lines are recorded once per operation; a line that does not exist is not modelled.
* Rendering a React root that was unmounted throws ("Cannot update an unmounted root").
* An exception inside `renderOperation`, which is asynchronous, rejects its promise and goes no further.
* The reports about bodies before an element of the permissions answer that is not an object are left out.
* A number that is written differently from zero but is too small to be told from it counts as different from zero.
-/
namespace Verif.Embed
open Verif.Block Verif.Preproc

/-- "true". -/
def kTrue : List Char := ['t', 'r', 'u', 'e']
/-- "false". -/
def kFalse : List Char := ['f', 'a', 'l', 's', 'e']
/-- "Ok". -/
def kOk : List Char := ['O', 'k']
/-- "hideCode". -/
def kHideCode : List Char := ['h', 'i', 'd', 'e', 'C', 'o', 'd', 'e']
/-- "horizontal". -/
def kHorizontal : List Char := ['h', 'o', 'r', 'i', 'z', 'o', 'n', 't', 'a', 'l']
/-- "concreteTypes". -/
def kConcreteTypes : List Char := ['c', 'o', 'n', 'c', 'r', 'e', 't', 'e', 'T', 'y', 'p', 'e', 's']
/-- "stepper". -/
def kStepper : List Char := ['s', 't', 'e', 'p', 'p', 'e', 'r']
/-- "boundaries". -/
def kBoundaries : List Char := ['b', 'o', 'u', 'n', 'd', 'a', 'r', 'i', 'e', 's']
/-- "interpreter". -/
def opInterpreter : List Char := ['i', 'n', 't', 'e', 'r', 'p', 'r', 'e', 't', 'e', 'r']
/-- "permissions". -/
def opPermissions : List Char := ['p', 'e', 'r', 'm', 'i', 's', 's', 'i', 'o', 'n', 's']

/-- `if (config?.k)` for a property that is a string or missing. -/
def truthy : Option (List Char) → Bool
  | none => false
  | some v => !v.isEmpty

/-- `String(cfg?.k) === "true"` (permissions.tsx:63-64); a missing property gives "undefined". -/
def isTrue (v : Option (List Char)) : Bool := v == some kTrue

/-- The number is zero. -/
def zeroText (s : List Char) : Bool :=
  (s.takeWhile (fun c => c != 'e' && c != 'E')).all (fun c => c == '0' || c == '.' || c == '-')

/-- `!response` for a value read from JSON, or `undefined`. -/
def falsy : Option Json → Bool
  | none => true
  | some .null => true
  | some (.bool b) => !b
  | some (.num s) => zeroText s
  | some (.str s) => s.isEmpty
  | some (.arr _) => false
  | some (.obj _) => false

/-- Something drawn by an operation. -/
inductive Drawing
  /-- the diagram of a trace; `marked`: the places of the markers in the code -/
  | diagram (trace : Json) (marked : List Nat) (horizontal concrete : Bool)
  /-- the permission results drawn, with or without steps and boundaries -/
  | perms (results : List Json) (steps bounds : Bool)

/-- One block on the page. `unmounted`: the code and the buttons have been removed. `reports`: what was given to
`reportStdErr` (`none` is `undefined`). `asked`: operations for which the server was asked. -/
structure Ed where
  code : List Char
  banner : Bool := false
  eye : Bool := false
  hidden : List Nat := []
  unmounted : Bool := false
  drawn : List Drawing := []
  reports : List (Option Json) := []
  asked : List (List Char) := []
  rejected : List (List Char) := []

/-- Whether drawing a response throws. -/
structure Draws where
  trace : List Char → Json → List Nat → Bool
  perms : List Char → List Json → Annotations.Annots → Bool

/-- `"Ok" in response`: `none` if this throws, since the value is not an object. An array has no such key. -/
def okIn : Json → Option (Option Json)
  | .obj fs => some (fs.lookup kOk)
  | .arr _ => some none
  | _ => none

/-- `"Ok" in res` for all elements: the values of the good ones and the errors of the others. `none`: not an object
(lib.tsx:346-352). -/
def splitResults : List Json → Option (List Json × List (Option Json))
  | [] => some ([], [])
  | j :: js =>
    match okIn j with
    | none => none
    | some v =>
      match splitResults js with
      | none => none
      | some (good, bad) =>
        match v with
        | some x => some (x :: good, bad)
        | none => some (good, j.get kErr :: bad)

/-- The steps common to all operations (lib.tsx:310-319): hidden lines and the banner. -/
def Ed.common (e : Ed) (h : Html) : Ed :=
  let e := if h.annotations.hiddenLines ≠ [] then
    { e with hidden := e.hidden ++ h.annotations.hiddenLines, eye := true } else e
  if truthy (h.config kShouldFail) then { e with banner := true } else e

/-- `Editor.renderInterpreter` (lib.tsx:261-278). -/
def Ed.renderInterpreter (D : Draws) (e : Ed) (h : Html) (trace : Json) : Ed :=
  let e := if truthy (h.config kHideCode) then { e with unmounted := true } else e
  if D.trace h.code trace h.annotations.stateLocations then
    { e with drawn := e.drawn ++ [.diagram trace h.annotations.stateLocations (truthy (h.config kHorizontal))
        (truthy (h.config kConcreteTypes))] }
  else { e with rejected := e.rejected ++ [opInterpreter] }

/-- `renderOperation(operation, {response: responses[operation], config, annotations})` (lib.tsx:280-361). -/
def Ed.renderOperation (D : Draws) (h : Html) (e : Ed) (op : List Char) : Ed :=
  match h.responses op with
  | none => { e with asked := e.asked ++ [op] }
  | some j =>
    if falsy (some j) then { e with asked := e.asked ++ [op] } else
    let e := e.common h
    -- `this.renderMeta()` (lib.tsx:321)
    if e.unmounted then { e with rejected := e.rejected ++ [op] } else
    if op = opInterpreter then
      match okIn j with
      | none => { e with rejected := e.rejected ++ [op] }
      | some (some trace) => e.renderInterpreter D h trace
      | some none => { e with reports := e.reports ++ [j.get kErr] }
    else if op = opPermissions then
      match j with
      | .arr js =>
        match splitResults js with
        | none => { e with rejected := e.rejected ++ [op] }
        | some (good, bad) =>
          let e := { e with reports := e.reports ++ bad }
          if D.perms h.code good h.annotations then
            { e with drawn := e.drawn ++ [.perms good (isTrue (h.config kStepper)) (isTrue (h.config kBoundaries))] }
          else { e with rejected := e.rejected ++ [op] }
      | _ => { e with rejected := e.rejected ++ [op] }
    else e

/-- One element (main.tsx:178-268); `none`: "Missing data-code attribute", thrown because the code is empty
(main.tsx:202-203). -/
def openBlock (D : Draws) (h : Html) : Option Ed :=
  if h.code.isEmpty then none
  else some (h.operations.foldl (Ed.renderOperation D h) { code := h.code })

/-- `initAquascopeBlocks`: the loop over the elements of the page (main.tsx:176-269). An exception ends it. The
blocks that were opened, and whether all were. -/
def openPage (D : Draws) : List Html → List Ed × Bool
  | [] => ([], true)
  | h :: hs =>
    match openBlock D h with
    | none => ([], false)
    | some e => (e :: (openPage D hs).1, (openPage D hs).2)

end Verif.Embed
