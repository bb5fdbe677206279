import Verif.Wire.Page
import Verif.Frontend.Trace
import Verif.Frontend.Values
import Verif.Trace.Locals
/-!
# A trace as JSON

The `Serialize` implementations of the types of a trace (`crates/aquascope/src/interpreter/mvalue.rs:24-142`,
`step.rs:38-95`; `CharRange` of `rustc_utils`), and how the page takes the JSON apart
(`frontend/packages/aquascope-editor/src/editor-utils/interpreter.tsx:52-440, 675-780`).

Simplifications.
* The texts of floats, and reading them, are parameters (`Floats`).  What is not finite is written as `null`, on which the
  page throws when it draws the value; here reading is refused.
* The page does not check types; values of other types than expected are refused here.
* Whole numbers are read exactly; that the page keeps 53 bits of them is in `Frontend.Values`.
* Positions in text: `CharRange` has `start` and `end`, each with `line` and `column` (misc.tsx:327-328).
-/
namespace Verif.Wire
open Verif.Preproc (Json)
open Verif.Value (MValue MSeg MKind PSeg Prim)
open Verif.Trace.Locals (MLocal)
open Verif.Frontend (Pos)

/-! ## Names -/

def vBool : List Char := ['B', 'o', 'o', 'l']
def vChar : List Char := ['C', 'h', 'a', 'r']
def vUint : List Char := ['U', 'i', 'n', 't']
def vInt : List Char := ['I', 'n', 't']
def vFloat : List Char := ['F', 'l', 'o', 'a', 't']
def vTuple : List Char := ['T', 'u', 'p', 'l', 'e']
def vArray : List Char := ['A', 'r', 'r', 'a', 'y']
def vAll : List Char := ['A', 'l', 'l']
def vOnly : List Char := ['O', 'n', 'l', 'y']
def vAdt : List Char := ['A', 'd', 't']
def vPointer : List Char := ['P', 'o', 'i', 'n', 't', 'e', 'r']
def vUnallocated : List Char := ['U', 'n', 'a', 'l', 'l', 'o', 'c', 'a', 't', 'e', 'd']
def vStack : List Char := ['S', 't', 'a', 'c', 'k']
def vHeap : List Char := ['H', 'e', 'a', 'p']
def vField : List Char := ['F', 'i', 'e', 'l', 'd']
def vIndex : List Char := ['I', 'n', 'd', 'e', 'x']
def vSubslice : List Char := ['S', 'u', 'b', 's', 'l', 'i', 'c', 'e']
def vString : List Char := ['S', 't', 'r', 'i', 'n', 'g']
def vVec : List Char := ['V', 'e', 'c']
def vBox : List Char := ['B', 'o', 'x']
def vSuccess : List Char := ['S', 'u', 'c', 'c', 'e', 's', 's']
def vError : List Char := ['E', 'r', 'r', 'o', 'r']
def vUseAfterFree : List Char := ['P', 'o', 'i', 'n', 't', 'e', 'r', 'U', 's', 'e', 'A', 'f', 't', 'e', 'r', 'F', 'r', 'e', 'e']
def vOther : List Char := ['O', 't', 'h', 'e', 'r']
def fName : List Char := ['n', 'a', 'm', 'e']
def fVariant : List Char := ['v', 'a', 'r', 'i', 'a', 'n', 't']
def fFields : List Char := ['f', 'i', 'e', 'l', 'd', 's']
def fAllocKind : List Char := ['a', 'l', 'l', 'o', 'c', '_', 'k', 'i', 'n', 'd']
def fPath : List Char := ['p', 'a', 't', 'h']
def fSegment : List Char := ['s', 'e', 'g', 'm', 'e', 'n', 't']
def fParts : List Char := ['p', 'a', 'r', 't', 's']
def fRange : List Char := ['r', 'a', 'n', 'g', 'e']
def fAllocId : List Char := ['a', 'l', 'l', 'o', 'c', '_', 'i', 'd']
def fFrame : List Char := ['f', 'r', 'a', 'm', 'e']
def fLocal : List Char := ['l', 'o', 'c', 'a', 'l']
def fIndex : List Char := ['i', 'n', 'd', 'e', 'x']
def fLen : List Char := ['l', 'e', 'n']
def fMovedPaths : List Char := ['m', 'o', 'v', 'e', 'd', '_', 'p', 'a', 't', 'h', 's']
def fBodySpan : List Char := ['b', 'o', 'd', 'y', '_', 's', 'p', 'a', 'n']
def fLocation : List Char := ['l', 'o', 'c', 'a', 't', 'i', 'o', 'n']
def fLocals : List Char := ['l', 'o', 'c', 'a', 'l', 's']
def fFrames : List Char := ['f', 'r', 'a', 'm', 'e', 's']
def fStack : List Char := ['s', 't', 'a', 'c', 'k']
def fHeap : List Char := ['h', 'e', 'a', 'p']
def fLocations : List Char := ['l', 'o', 'c', 'a', 't', 'i', 'o', 'n', 's']
def fSteps : List Char := ['s', 't', 'e', 'p', 's']
def fResult : List Char := ['r', 'e', 's', 'u', 'l', 't']
def fStart : List Char := ['s', 't', 'a', 'r', 't']
def fEnd : List Char := ['e', 'n', 'd']
def fLine : List Char := ['l', 'i', 'n', 'e']
def fColumn : List Char := ['c', 'o', 'l', 'u', 'm', 'n']

/-! ## The parts of a trace -/

/-- `CharRange`. -/
structure Range where
  start : Pos
  stop : Pos
  deriving DecidableEq, Repr

/-- `MFrame` (step.rs:46-53). -/
structure WFrame where
  name : List Char
  body : Range
  location : Range
  locals : List MLocal

/-- `MStep`, with `MStack` and `MHeap` (step.rs:55-72). -/
structure WStep where
  frames : List WFrame
  heap : List MValue

/-- `MResult`, with `MUndefinedBehavior` (step.rs:74-88). -/
inductive WResult
  | success
  | useAfterFree (id : Nat)
  | other (msg : List Char)
  deriving DecidableEq, Repr

/-- `MTrace` (step.rs:90-95). -/
structure WTrace where
  steps : List WStep
  result : WResult

/-- The texts of finite floats. -/
structure Floats where
  text : Nat → List Char
  back : List Char → Option Nat

/-! ## Writing -/

/-- `#[serde(tag = "type", content = "value")]`. -/
def tagged (t : List Char) (v : Json) : Json := .obj [(kType, .str t), (kValue, v)]

/-- The same, of a variant without content. -/
def tagOnly (t : List Char) : Json := .obj [(kType, .str t)]

/-- `Option`: nothing is `null`. -/
def optJson {α : Type} (f : α → Json) : Option α → Json
  | none => .null
  | some x => f x

def intJson (i : Int) : Json := .num (if i < 0 then '-' :: Nat.toDigits 10 i.natAbs else Nat.toDigits 10 i.natAbs)

def primJson (F : Floats) : Prim → Json
  | .bool b => tagged vBool (.bool b)
  | .char c => tagged vChar (natJson c)
  | .uint n => tagged vUint (natJson n)
  | .int i => tagged vInt (intJson i)
  | .float bits => tagged vFloat (if Frontend.finite bits then .num (F.text bits) else .null)

/-- `MMemorySegment` (mvalue.rs:24-30). -/
def segJson : MSeg → Json
  | .stack f l => tagged vStack (.obj [(fFrame, natJson f), (fLocal, .str l.toList)])
  | .heap i => tagged vHeap (.obj [(fIndex, natJson i)])

/-- `MPathSegment` (mvalue.rs:32-39). -/
def partJson : PSeg → Json
  | .field i => tagged vField (natJson i)
  | .index i => tagged vIndex (natJson i)
  | .subslice lo hi => tagged vSubslice (.arr [natJson lo, natJson hi])

/-- `MHeapAllocKind` (mvalue.rs:95-102). -/
def kindJson : MKind → Json
  | .string n => tagged vString (.obj [(fLen, natJson n)])
  | .vec n => tagged vVec (.obj [(fLen, natJson n)])
  | .box => tagOnly vBox

mutual
/-- `MValue`, with `Abbreviated` and `MPath` (mvalue.rs:41-56, 114-142). -/
def valueJson (F : Floats) : MValue → Json
  | .prim p => primJson F p
  | .tuple vs => tagged vTuple (.arr (valuesJson F vs))
  | .all vs => tagged vArray (tagged vAll (.arr (valuesJson F vs)))
  | .only vs l => tagged vArray (tagged vOnly (.arr [.arr (valuesJson F vs), valueJson F l]))
  | .adt n v fs k => tagged vAdt (.obj [(fName, .str n.toList), (fVariant, optJson (fun s => .str s.toList) v),
      (fFields, .arr (fieldsJson F fs)), (fAllocKind, optJson kindJson k)])
  | .pointer s ps r => tagged vPointer (.obj [(fPath, .obj [(fSegment, segJson s), (fParts, .arr (ps.map partJson))]),
      (fRange, optJson natJson r)])
  | .unallocated id => tagged vUnallocated (.obj [(fAllocId, optJson natJson id)])
def valuesJson (F : Floats) : List MValue → List Json
  | [] => []
  | v :: vs => valueJson F v :: valuesJson F vs
def fieldsJson (F : Floats) : List (String × MValue) → List Json
  | [] => []
  | f :: fs => fieldJson F f :: fieldsJson F fs
def fieldJson (F : Floats) : String × MValue → Json
  | (k, v) => .arr [.str k.toList, valueJson F v]
end

def posJson (p : Pos) : Json := .obj [(fLine, natJson p.line), (fColumn, natJson p.column)]

def rangeJson (r : Range) : Json := .obj [(fStart, posJson r.start), (fEnd, posJson r.stop)]

/-- `MLocal` (step.rs:38-44). -/
def localJson (F : Floats) (l : MLocal) : Json :=
  .obj [(fName, .str l.name.toList), (kValue, valueJson F l.value),
    (fMovedPaths, .arr (l.movedPaths.map fun p => .arr (p.map partJson)))]


def frameJson (F : Floats) (f : WFrame) : Json :=
  .obj [(fName, .str f.name), (fBodySpan, rangeJson f.body), (fLocation, rangeJson f.location),
    (fLocals, .arr (f.locals.map (localJson F)))]

def stepJson (F : Floats) (s : WStep) : Json :=
  .obj [(fStack, .obj [(fFrames, .arr (s.frames.map (frameJson F)))]), (fHeap, .obj [(fLocations, .arr (valuesJson F s.heap))])]

def resultJson : WResult → Json
  | .success => tagOnly vSuccess
  | .useAfterFree id => tagged vError (tagged vUseAfterFree (.obj [(fAllocId, natJson id)]))
  | .other m => tagged vError (tagged vOther (.str m))

def traceJson (F : Floats) (t : WTrace) : Json :=
  .obj [(fSteps, .arr (t.steps.map (stepJson F))), (fResult, resultJson t.result)]

/-! ## Reading -/

def asBool : Json → Option Bool
  | .bool b => some b
  | _ => none

def asInt : Json → Option Int
  | .num ('-' :: s) => (asNat (.num s)).map fun n => -(n : Int)
  | j => (asNat j).map fun n => (n : Int)

def asFloat (F : Floats) : Json → Option Nat
  | .num s => F.back s
  | _ => none

/-- A value that may be `null`. -/
def asOpt {α : Type} (f : Json → Option α) : Json → Option (Option α)
  | .null => some none
  | j => (f j).map some

def asText (j : Json) : Option String := (asStr j).map String.ofList

/-- The `type` of a tagged value. -/
def tagOf (j : Json) : Option (List Char) := (prop j kType).bind asStr

def asSeg (j : Json) : Option MSeg :=
  match tagOf j, prop j kValue with
  | some t, some v =>
    if t = vHeap then ((prop v fIndex).bind asNat).map .heap
    else match (prop v fFrame).bind asNat, (prop v fLocal).bind asText with
      | some f, some l => some (.stack f l)
      | _, _ => none
  | _, _ => none

def asPart (j : Json) : Option PSeg :=
  match tagOf j, prop j kValue with
  | some t, some v =>
    if t = vIndex then (asNat v).map .index
    else if t = vField then (asNat v).map .field
    else if t = vSubslice then
      match nats v with
      | some [lo, hi] => some (.subslice lo hi)
      | _ => none
    else none
  | _, _ => none

def asKind (j : Json) : Option MKind :=
  match tagOf j with
  | some t =>
    if t = vString then (((prop j kValue).bind (prop · fLen)).bind asNat).map .string
    else if t = vVec then (((prop j kValue).bind (prop · fLen)).bind asNat).map .vec
    else if t = vBox then some .box
    else none
  | none => none

/-- The two elements of a pair. -/
def asPair (j : Json) : Option (Json × Json) :=
  match j with
  | .arr [a, b] => some (a, b)
  | _ => none

/-- `ValueView` and its parts (interpreter.tsx:79-345); the number bounds the depth. -/
def asValue (F : Floats) : Nat → Json → Option MValue
  | 0, _ => none
  | n + 1, j =>
    match tagOf j, prop j kValue with
    | some t, some v =>
      if t = vBool then (asBool v).map fun b => .prim (.bool b)
      else if t = vUint then (asNat v).map fun n => .prim (.uint n)
      else if t = vInt then (asInt v).map fun n => .prim (.int n)
      else if t = vFloat then (asFloat F v).map fun n => .prim (.float n)
      else if t = vChar then (asNat v).map fun n => .prim (.char n)
      else if t = vTuple then ((asArr v).bind (·.mapM (asValue F n))).map .tuple
      else if t = vAdt then
        match (prop v fName).bind asText, (prop v fVariant).bind (asOpt asText),
          ((prop v fFields).bind asArr).bind (·.mapM fun x =>
            (asPair x).bind fun p => (asText p.1).bind fun k => (asValue F n p.2).map fun w => (k, w)),
          (prop v fAllocKind).bind (asOpt asKind) with
        | some name, some variant, some fields, some kind => some (.adt name variant fields kind)
        | _, _, _, _ => none
      else if t = vPointer then
        match ((prop v fPath).bind (prop · fSegment)).bind asSeg,
          (((prop v fPath).bind (prop · fParts)).bind asArr).bind (·.mapM asPart), (prop v fRange).bind (asOpt asNat) with
        | some s, some ps, some r => some (.pointer s ps r)
        | _, _, _ => none
      else if t = vArray then
        match tagOf v, prop v kValue with
        | some a, some w =>
          if a = vAll then ((asArr w).bind (·.mapM (asValue F n))).map .all
          else (asPair w).bind fun p => ((asArr p.1).bind (·.mapM (asValue F n))).bind fun vs =>
            (asValue F n p.2).map fun l => .only vs l
        | _, _ => none
      else if t = vUnallocated then ((prop v fAllocId).bind (asOpt asNat)).map .unallocated
      else none
    | _, _ => none

def asPos (j : Json) : Option Pos :=
  match (prop j fLine).bind asNat, (prop j fColumn).bind asNat with
  | some l, some c => some ⟨l, c⟩
  | _, _ => none

def asRange (j : Json) : Option Range :=
  match (prop j fStart).bind asPos, (prop j fEnd).bind asPos with
  | some a, some b => some ⟨a, b⟩
  | _, _ => none

/-- `LocalsView` (interpreter.tsx:347-376). -/
def asLocal (F : Floats) (n : Nat) (j : Json) : Option MLocal :=
  match (prop j fName).bind asText, (prop j kValue).bind (asValue F n),
    ((prop j fMovedPaths).bind asArr).bind (·.mapM fun p => (asArr p).bind (·.mapM asPart)) with
  | some name, some value, some movedPaths => some { name, value, movedPaths }
  | _, _, _ => none

/-- `FrameView` (interpreter.tsx:378-396). -/
def asFrame (F : Floats) (n : Nat) (j : Json) : Option WFrame :=
  match (prop j fName).bind asStr, (prop j fBodySpan).bind asRange, (prop j fLocation).bind asRange,
    ((prop j fLocals).bind asArr).bind (·.mapM (asLocal F n)) with
  | some name, some body, some location, some locals => some { name, body, location, locals }
  | _, _, _, _ => none

/-- `StackView`, `HeapView` (interpreter.tsx:398-428). -/
def asStep (F : Floats) (n : Nat) (j : Json) : Option WStep :=
  match (((prop j fStack).bind (prop · fFrames)).bind asArr).bind (·.mapM (asFrame F n)),
    (((prop j fHeap).bind (prop · fLocations)).bind asArr).bind (·.mapM (asValue F n)) with
  | some frames, some heap => some { frames, heap }
  | _, _ => none

/-- `InterpreterView` (interpreter.tsx:712-760). -/
def asResult (j : Json) : Option WResult :=
  match tagOf j with
  | some t =>
    if t = vError then
      match (prop j kValue).bind tagOf, (prop j kValue).bind (prop · kValue) with
      | some u, some v => if u = vUseAfterFree then ((prop v fAllocId).bind asNat).map .useAfterFree else (asStr v).map .other
      | _, _ => none
    else some .success
  | none => none

def asTrace (F : Floats) (n : Nat) (j : Json) : Option WTrace :=
  match ((prop j fSteps).bind asArr).bind (·.mapM (asStep F n)), (prop j fResult).bind asResult with
  | some steps, some result => some { steps, result }
  | _, _ => none

/-- A trace from JSON; the length of the text is a bound for the depth. -/
def traceOf (F : Floats) (j : Json) : Option WTrace := asTrace F (write j).length j

/-- A trace from a text. -/
def readTrace (F : Floats) (s : List Char) : Option WTrace := (read s).bind (traceOf F)

end Verif.Wire
