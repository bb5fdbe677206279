import Verif.Wire.Trace
import Verif.Steps.Model
import Verif.Permissions.Model
import Verif.Flow.Model
import Verif.Embed.Model
/-!
# The results of the analysis as JSON

The `Serialize` implementations of the types of an `AnalysisOutput` (`crates/aquascope/src/analysis/mod.rs:47-74, 237-269`,
`boundaries/mod.rs:211-232`, `permissions/mod.rs:69-116, 155-167`, `permissions/flow.rs:106-124`, `stepper/mod.rs:53-67,
93-105, 136-175`), the `Result`s around them (`crates/aquascope_front/src/plugin.rs:128-160`), and how the page takes them
apart (`frontend/packages/aquascope-editor/src/lib.tsx:320-361`, `editor-utils/misc.tsx:156-204`, `stepper.tsx:40-330`,
`boundaries.tsx:30-203`).

Simplifications.
* A hash map is the list of its entries in the order in which they are written.  The page goes through the properties of such
  an object in the order of the numbers (`for … in`, for property names that are numbers below 2^32 - 1).
* The page does not check types; values of other types than expected are refused here.
-/
namespace Verif.Wire
open Verif.Preproc (Json kErr kBuildError)
open Verif.Steps (Step DataDiff PermsDiff)
open Verif.Permissions (Perms Data)
open Verif.Frontend (Pos)
open Verif.Embed (kOk)

/-! ## Names -/

def fBodyRange : List Char := ['b', 'o', 'd', 'y', '_', 'r', 'a', 'n', 'g', 'e']
def fBoundaries : List Char := ['b', 'o', 'u', 'n', 'd', 'a', 'r', 'i', 'e', 's']
def fLoanPoints : List Char := ['l', 'o', 'a', 'n', '_', 'p', 'o', 'i', 'n', 't', 's']
def fLoanRegions : List Char := ['l', 'o', 'a', 'n', '_', 'r', 'e', 'g', 'i', 'o', 'n', 's']
def fMovePoints : List Char := ['m', 'o', 'v', 'e', '_', 'p', 'o', 'i', 'n', 't', 's']
def fMoveRegions : List Char := ['m', 'o', 'v', 'e', '_', 'r', 'e', 'g', 'i', 'o', 'n', 's']
def fExpected : List Char := ['e', 'x', 'p', 'e', 'c', 't', 'e', 'd']
def fActual : List Char := ['a', 'c', 't', 'u', 'a', 'l']
def fData : List Char := ['d', 'a', 't', 'a']
def fExpectingFlow : List Char := ['e', 'x', 'p', 'e', 'c', 't', 'i', 'n', 'g', '_', 'f', 'l', 'o', 'w']
def fIsViolation : List Char := ['i', 's', '_', 'v', 'i', 'o', 'l', 'a', 't', 'i', 'o', 'n']
def fFlowContext : List Char := ['f', 'l', 'o', 'w', '_', 'c', 'o', 'n', 't', 'e', 'x', 't']
def fKind : List Char := ['k', 'i', 'n', 'd']
def fRead : List Char := ['r', 'e', 'a', 'd']
def fWrite : List Char := ['w', 'r', 'i', 't', 'e']
def fDrop : List Char := ['d', 'r', 'o', 'p']
def fTypeDroppable : List Char := ['t', 'y', 'p', 'e', '_', 'd', 'r', 'o', 'p', 'p', 'a', 'b', 'l', 'e']
def fTypeWriteable : List Char := ['t', 'y', 'p', 'e', '_', 'w', 'r', 'i', 't', 'e', 'a', 'b', 'l', 'e']
def fTypeCopyable : List Char := ['t', 'y', 'p', 'e', '_', 'c', 'o', 'p', 'y', 'a', 'b', 'l', 'e']
def fIsLive : List Char := ['i', 's', '_', 'l', 'i', 'v', 'e']
def fPathUninit : List Char := ['p', 'a', 't', 'h', '_', 'u', 'n', 'i', 'n', 'i', 't', 'i', 'a', 'l', 'i', 'z', 'e', 'd']
def fPathMoved : List Char := ['p', 'a', 't', 'h', '_', 'm', 'o', 'v', 'e', 'd']
def fLoanRead : List Char := ['l', 'o', 'a', 'n', '_', 'r', 'e', 'a', 'd', '_', 'r', 'e', 'f', 'i', 'n', 'e', 'd']
def fLoanWrite : List Char := ['l', 'o', 'a', 'n', '_', 'w', 'r', 'i', 't', 'e', '_', 'r', 'e', 'f', 'i', 'n', 'e', 'd']
def fLoanDrop : List Char := ['l', 'o', 'a', 'n', '_', 'd', 'r', 'o', 'p', '_', 'r', 'e', 'f', 'i', 'n', 'e', 'd']
def fPermissions : List Char := ['p', 'e', 'r', 'm', 'i', 's', 's', 'i', 'o', 'n', 's']
def fState : List Char := ['s', 't', 'a', 't', 'e']
def fFrom : List Char := ['f', 'r', 'o', 'm']
def fTo : List Char := ['t', 'o']
def fRefinerPoint : List Char := ['r', 'e', 'f', 'i', 'n', 'e', 'r', '_', 'p', 'o', 'i', 'n', 't']
def fRefinedRanges : List Char := ['r', 'e', 'f', 'i', 'n', 'e', 'd', '_', 'r', 'a', 'n', 'g', 'e', 's']
def fMsg : List Char := ['m', 's', 'g']
def vHigh : List Char := ['H', 'i', 'g', 'h']
def vLow : List Char := ['L', 'o', 'w']
def vNone : List Char := ['N', 'o', 'n', 'e']
def vLoan : List Char := ['L', 'o', 'a', 'n']
def vMove : List Char := ['M', 'o', 'v', 'e']
def vAnalysisError : List Char := ['A', 'n', 'a', 'l', 'y', 's', 'i', 's', 'E', 'r', 'r', 'o', 'r']
def vMissing : List Char := ['M', 'i', 's', 's', 'i', 'n', 'g', 'U', 'n', 'i', 'v', 'e', 'r', 's', 'a', 'l', 'C', 'o', 'n', 's', 't', 'r', 'a', 'i', 'n', 't']
def vOutlives : List Char := ['L', 'o', 'c', 'a', 'l', 'O', 'u', 't', 'l', 'i', 'v', 'e', 's', 'U', 'n', 'i', 'v', 'e', 'r', 's', 'a', 'l']
def vInvalidated : List Char := ['L', 'o', 'c', 'a', 'l', 'I', 'n', 'v', 'a', 'l', 'i', 'd', 'a', 't', 'e', 'd', 'A', 't', 'E', 'x', 'i', 't']
def vOkFlow : List Char := ['O', 'k']

/-! ## The parts of a result -/

/-- `FlowBoundary` (boundaries/mod.rs:211-219). -/
structure WFlow where
  isViolation : Bool
  context : Range
  kind : Flow.Kind
  deriving DecidableEq

/-- `PermissionsBoundary` (boundaries/mod.rs:222-232); `byte_location` is not written. -/
structure WBoundary where
  location : Pos
  expected : Perms
  actual : Perms
  data : Data
  flow : Option WFlow
  deriving DecidableEq

/-- `PermissionsStepTable` (stepper/mod.rs:52-59). -/
structure WTable where
  source : Range
  target : Range
  rows : List (List Char × DataDiff)
  deriving DecidableEq

/-- `PermissionsLineDisplay` (stepper/mod.rs:61-67). -/
structure WLine where
  location : Range
  tables : List WTable
  deriving DecidableEq

/-- `Refiner` (permissions/mod.rs:154-160). -/
inductive WRefiner
  | loan (key : Nat)
  | move (key : Nat)
  deriving DecidableEq

/-- `RefinementRegion` (permissions/mod.rs:162-168). -/
structure WRegion where
  refiner : WRefiner
  ranges : List Range
  deriving DecidableEq

/-- `AnalysisOutput` (analysis/mod.rs:259-269). -/
structure WOutput where
  body : Range
  boundaries : List WBoundary
  steps : List WLine
  loanPoints : List (Nat × Range)
  loanRegions : List (Nat × WRegion)
  movePoints : List (Nat × Range)
  moveRegions : List (Nat × WRegion)
  deriving DecidableEq

/-- `AquascopeError` (analysis/mod.rs:237-244). -/
inductive WError
  | build (range : Option Range)
  | analysis (msg : List Char)
  deriving DecidableEq

/-! ## Writing -/

/-- `#[serde(skip_serializing_if = "Option::is_none")]`. -/
def optField {α : Type} (k : List Char) (f : α → Json) : Option α → List (List Char × Json)
  | none => []
  | some x => [(k, f x)]

def permsJson (p : Perms) : Json := .obj [(fRead, .bool p.read), (fWrite, .bool p.write), (fDrop, .bool p.drop)]

def dataJson (d : Data) : Json :=
  .obj ([(fTypeDroppable, .bool d.typeDroppable), (fTypeWriteable, .bool d.typeWriteable), (fTypeCopyable, .bool d.typeCopyable),
    (fIsLive, .bool d.isLive), (fPathUninit, .bool d.pathUninitialized)]
    ++ optField fPathMoved natJson d.pathMoved ++ optField fLoanRead natJson d.loanReadRefined
    ++ optField fLoanWrite natJson d.loanWriteRefined ++ optField fLoanDrop natJson d.loanDropRefined)

/-- A variant without data is its name. -/
def flowKindJson : Flow.Kind → Json
  | .missingUniversalConstraint => .str vMissing
  | .localOutlivesUniversal => .str vOutlives
  | .localInvalidatedAtExit => .str vInvalidated
  | .ok => .str vOkFlow

def flowJson (f : WFlow) : Json :=
  .obj [(fIsViolation, .bool f.isViolation), (fFlowContext, rangeJson f.context), (fKind, flowKindJson f.kind)]

def boundaryJson (b : WBoundary) : Json :=
  .obj ([(fLocation, posJson b.location), (fExpected, permsJson b.expected), (fActual, permsJson b.actual), (fData, dataJson b.data)]
    ++ optField fExpectingFlow flowJson b.flow)

/-- `ValueStep`: the tag is one of the fields (stepper/mod.rs:93-105). -/
def valueStepJson {α : Type} (f : α → Json) : Step α → Json
  | .high v => tagged vHigh (f v)
  | .low => tagOnly vLow
  | .none v => .obj ((kType, .str vNone) :: optField kValue f v)

def permsDiffJson (d : PermsDiff) : Json :=
  .obj [(fRead, valueStepJson .bool d.read), (fWrite, valueStepJson .bool d.write), (fDrop, valueStepJson .bool d.drop)]

def diffJson (d : DataDiff) : Json :=
  .obj [(fIsLive, valueStepJson .bool d.isLive), (fTypeDroppable, valueStepJson .bool d.typeDroppable),
    (fTypeWriteable, valueStepJson .bool d.typeWriteable), (fPathMoved, valueStepJson natJson d.pathMoved),
    (fPathUninit, valueStepJson .bool d.pathUninitialized), (fLoanRead, valueStepJson natJson d.loanReadRefined),
    (fLoanWrite, valueStepJson natJson d.loanWriteRefined), (fLoanDrop, valueStepJson natJson d.loanDropRefined),
    (fPermissions, permsDiffJson d.permissions)]

def rowJson (r : List Char × DataDiff) : Json := .arr [.str r.1, diffJson r.2]

def tableJson (t : WTable) : Json :=
  .obj [(fFrom, rangeJson t.source), (fTo, rangeJson t.target), (fState, .arr (t.rows.map rowJson))]

def lineJson (l : WLine) : Json := .obj [(fLocation, rangeJson l.location), (fState, .arr (l.tables.map tableJson))]

/-- A variant with data is an object with one field. -/
def refinerJson : WRefiner → Json
  | .loan n => .obj [(vLoan, natJson n)]
  | .move n => .obj [(vMove, natJson n)]

def regionJson (r : WRegion) : Json :=
  .obj [(fRefinerPoint, refinerJson r.refiner), (fRefinedRanges, .arr (r.ranges.map rangeJson))]

/-- A hash map with numbers as keys: serde_json writes the keys as strings. -/
def mapJson {α : Type} (f : α → Json) (m : List (Nat × α)) : Json := .obj (m.map fun e => (Nat.toDigits 10 e.1, f e.2))

def outputJson (o : WOutput) : Json :=
  .obj [(fBodyRange, rangeJson o.body), (fBoundaries, .arr (o.boundaries.map boundaryJson)), (fSteps, .arr (o.steps.map lineJson)),
    (fLoanPoints, mapJson rangeJson o.loanPoints), (fLoanRegions, mapJson regionJson o.loanRegions),
    (fMovePoints, mapJson rangeJson o.movePoints), (fMoveRegions, mapJson regionJson o.moveRegions)]

def errorJson : WError → Json
  | .build r => .obj [(kType, .str kBuildError), (fRange, optJson rangeJson r)]
  | .analysis m => .obj [(kType, .str vAnalysisError), (fMsg, .str m)]

/-- `Result`. -/
def resJson {α : Type} (f : α → Json) : Except WError α → Json
  | .ok x => .obj [(kOk, f x)]
  | .error e => .obj [(kErr, errorJson e)]

/-- What is printed for `permissions`: the results of all bodies (plugin.rs:121-131, 157-160). -/
def outputsJson (rs : List (Except WError WOutput)) : Json := .arr (rs.map (resJson outputJson))

/-! ## Reading -/

/-- A property that may be missing. -/
def optProp {α : Type} (f : Json → Option α) (j : Json) (k : List Char) : Option (Option α) :=
  match prop j k with
  | none => some none
  | some v => (f v).map some

def asPerms (j : Json) : Option Perms :=
  match (prop j fRead).bind asBool, (prop j fWrite).bind asBool, (prop j fDrop).bind asBool with
  | some read, some write, some drop => some { read, write, drop }
  | _, _, _ => none

def asData (j : Json) : Option Data :=
  match (prop j fTypeDroppable).bind asBool, (prop j fTypeWriteable).bind asBool, (prop j fTypeCopyable).bind asBool,
    (prop j fIsLive).bind asBool, (prop j fPathUninit).bind asBool, optProp asNat j fPathMoved, optProp asNat j fLoanRead,
    optProp asNat j fLoanWrite, optProp asNat j fLoanDrop with
  | some typeDroppable, some typeWriteable, some typeCopyable, some isLive, some pathUninitialized, some pathMoved,
    some loanReadRefined, some loanWriteRefined, some loanDropRefined =>
    some { typeDroppable, typeWriteable, typeCopyable, isLive, pathUninitialized, pathMoved, loanReadRefined, loanWriteRefined,
           loanDropRefined }
  | _, _, _, _, _, _, _, _, _ => none

def asFlowKind (j : Json) : Option Flow.Kind :=
  match asStr j with
  | some t =>
    if t = vMissing then some .missingUniversalConstraint else if t = vOutlives then some .localOutlivesUniversal
    else if t = vInvalidated then some .localInvalidatedAtExit else if t = vOkFlow then some .ok else none
  | none => none

def asFlow (j : Json) : Option WFlow :=
  match (prop j fIsViolation).bind asBool, (prop j fFlowContext).bind asRange, (prop j fKind).bind asFlowKind with
  | some isViolation, some context, some kind => some { isViolation, context, kind }
  | _, _, _ => none

/-- `makeDecorations` of boundaries (boundaries.tsx:30-203). -/
def asBoundary (j : Json) : Option WBoundary :=
  match (prop j fLocation).bind asPos, (prop j fExpected).bind asPerms, (prop j fActual).bind asPerms, (prop j fData).bind asData,
    optProp asFlow j fExpectingFlow with
  | some location, some expected, some actual, some data, some flow => some { location, expected, actual, data, flow }
  | _, _, _, _, _ => none

/-- `value.type` and `value.value` (stepper.tsx:40-330). -/
def asValueStep {α : Type} (f : Json → Option α) (j : Json) : Option (Step α) :=
  match tagOf j with
  | some t =>
    if t = vHigh then ((prop j kValue).bind f).map .high
    else if t = vLow then some .low
    else if t = vNone then (optProp f j kValue).map .none
    else none
  | none => none

def asPermsDiff (j : Json) : Option PermsDiff :=
  match (prop j fRead).bind (asValueStep asBool), (prop j fWrite).bind (asValueStep asBool), (prop j fDrop).bind (asValueStep asBool) with
  | some read, some write, some drop => some { read, write, drop }
  | _, _, _ => none

def asDiff (j : Json) : Option DataDiff :=
  match (prop j fIsLive).bind (asValueStep asBool), (prop j fTypeDroppable).bind (asValueStep asBool),
    (prop j fTypeWriteable).bind (asValueStep asBool), (prop j fPathMoved).bind (asValueStep asNat),
    (prop j fPathUninit).bind (asValueStep asBool), (prop j fLoanRead).bind (asValueStep asNat),
    (prop j fLoanWrite).bind (asValueStep asNat), (prop j fLoanDrop).bind (asValueStep asNat),
    (prop j fPermissions).bind asPermsDiff with
  | some isLive, some typeDroppable, some typeWriteable, some pathMoved, some pathUninitialized, some loanReadRefined,
    some loanWriteRefined, some loanDropRefined, some permissions =>
    some { isLive, typeDroppable, typeWriteable, pathMoved, pathUninitialized, loanReadRefined, loanWriteRefined,
           loanDropRefined, permissions }
  | _, _, _, _, _, _, _, _, _ => none

def asRow (j : Json) : Option (List Char × DataDiff) :=
  (asPair j).bind fun p => (asStr p.1).bind fun k => (asDiff p.2).map fun d => (k, d)

def asTable (j : Json) : Option WTable :=
  match (prop j fFrom).bind asRange, (prop j fTo).bind asRange, ((prop j fState).bind asArr).bind (·.mapM asRow) with
  | some source, some target, some rows => some { source, target, rows }
  | _, _, _ => none

def asLine (j : Json) : Option WLine :=
  match (prop j fLocation).bind asRange, ((prop j fState).bind asArr).bind (·.mapM asTable) with
  | some location, some tables => some { location, tables }
  | _, _ => none

def asRefiner (j : Json) : Option WRefiner :=
  match prop j vLoan with
  | some n => (asNat n).map .loan
  | none => ((prop j vMove).bind asNat).map .move

def asRegion (j : Json) : Option WRegion :=
  match (prop j fRefinerPoint).bind asRefiner, ((prop j fRefinedRanges).bind asArr).bind (·.mapM asRange) with
  | some refiner, some ranges => some { refiner, ranges }
  | _, _ => none

/-- Put an entry in its place. -/
def insertKey {α : Type} (e : Nat × α) : List (Nat × α) → List (Nat × α)
  | [] => [e]
  | f :: l => if e.1 ≤ f.1 then e :: f :: l else f :: insertKey e l

/-- The order in which `for … in` goes through the properties. -/
def sortKeys {α : Type} : List (Nat × α) → List (Nat × α)
  | [] => []
  | e :: l => insertKey e (sortKeys l)

/-- The properties of an object whose names are numbers (misc.tsx:166-204). -/
def asMap {α : Type} (f : Json → Option α) (j : Json) : Option (List (Nat × α)) :=
  ((asObj j).bind (·.mapM fun x => (asNat (.num x.1)).bind fun n => (f x.2).map fun v => (n, v))).map sortKeys

def asOutput (j : Json) : Option WOutput :=
  match (prop j fBodyRange).bind asRange, ((prop j fBoundaries).bind asArr).bind (·.mapM asBoundary),
    ((prop j fSteps).bind asArr).bind (·.mapM asLine), (prop j fLoanPoints).bind (asMap asRange),
    (prop j fLoanRegions).bind (asMap asRegion), (prop j fMovePoints).bind (asMap asRange),
    (prop j fMoveRegions).bind (asMap asRegion) with
  | some body, some boundaries, some steps, some loanPoints, some loanRegions, some movePoints, some moveRegions =>
    some { body, boundaries, steps, loanPoints, loanRegions, movePoints, moveRegions }
  | _, _, _, _, _, _, _ => none

def asError (j : Json) : Option WError :=
  match tagOf j with
  | some t =>
    if t = kBuildError then ((prop j fRange).bind (asOpt asRange)).map .build
    else if t = vAnalysisError then ((prop j fMsg).bind asStr).map .analysis
    else none
  | none => none

/-! ## The limit of nesting -/

mutual
/-- How deep arrays and objects are nested. -/
def depth : Json → Nat
  | .arr xs => depths xs + 1
  | .obj fs => fdepths fs + 1
  | _ => 0
def depths : List Json → Nat
  | [] => 0
  | x :: xs => max (depth x) (depths xs)
def fdepths : List (List Char × Json) → Nat
  | [] => 0
  | f :: fs => max (fdepth f) (fdepths fs)
def fdepth : List Char × Json → Nat
  | (_, v) => depth v
end

/-- `serde_json::from_str`: `RecursionLimitExceeded` at the 128th level.  (`JSON.parse` has no such limit.) -/
def parse (s : List Char) : Option Json := (read s).filter fun j => depth j ≤ 127

/-- What `println!` writes. -/
def printed (j : Json) : List Char := write j ++ ['\n']

/-- The way of the answers through the book builder: what the analyser printed for each operation is parsed, the answers
together are written, perhaps cached, and parsed again (preprocessor.rs:103-104, 127, 148-149). -/
def bookResponses (outs : List (List Char × List Char)) : Option (List (List Char × Json)) :=
  (outs.mapM fun x => (parse x.2).map fun j => (x.1, j)).bind fun rs =>
    (parse (trimEnd (write (.obj rs)))).bind asObj

end Verif.Wire
