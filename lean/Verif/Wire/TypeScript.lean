import Verif.Wire.Analysis
/-!
# The types for which the page is compiled

The page is written against types of TypeScript that the library `ts-rs` makes from the Rust types
(`#[derive(TS)] #[ts(export)]`; `frontend/packages/aquascope-editor/src/types.ts:1-57` imports them).  Here are the Rust types
as they are declared (`Rs`), what `ts-rs` (versions 6 and 7) makes of them (`toTs`), and which JSON has such a type
(`check`).

Simplifications.
* `ts-rs` is described from memory: `u64` and `i64` become `bigint`, the other numbers `number`; `Option` becomes a union with
  `null`, and with `skip_serializing_if = "Option::is_none"` a property that may be missing; a hash map becomes a `Record`.
* Names of types are replaced by the types; only `MValue`, which occurs in itself, remains (`self`).  Generic types are
  given with their arguments.
* An object may have no other properties than those of its type (TypeScript would allow them).
-/
namespace Verif.Wire
open Verif.Preproc (Json kErr kBuildError)
open Verif.Embed (kOk)

/-! ## Types of Rust -/

/-- How a variant is told apart: `#[serde(tag = "type", content = "value")]`, `#[serde(tag = "type")]`, nothing. -/
inductive Mode | adjacent | internal | external
  deriving DecidableEq, Repr

mutual
inductive Rs
  | bool | u32 | usize | u64 | i64 | f64 | string
  | vec (t : Rs)
  | opt (t : Rs)
  /-- a hash map whose keys are numbers -/
  | map (t : Rs)
  | pair (a b : Rs)
  | struct (fs : RsFields)
  | enum (m : Mode) (vs : RsVariants)
  /-- the type `MValue` -/
  | self
/-- Fields, and whether they have `skip_serializing_if = "Option::is_none"`. -/
inductive RsFields
  | nil
  | cons (name : List Char) (skip : Bool) (t : Rs) (r : RsFields)
/-- Variants without data, with one part (or a pair), and with named fields. -/
inductive RsVariants
  | nil
  | unit (name : List Char) (r : RsVariants)
  | one (name : List Char) (t : Rs) (r : RsVariants)
  | named (name : List Char) (fs : RsFields) (r : RsVariants)
end

/-! ## Types of TypeScript -/

mutual
inductive Ts
  | null | boolean | number | bigint | string
  | lit (s : List Char)
  | array (t : Ts)
  | pair (a b : Ts)
  | record (t : Ts)
  | obj (fs : TsFields)
  | union (as : TsAlts)
  | self
/-- Properties, and whether they may be missing. -/
inductive TsFields
  | nil
  | cons (name : List Char) (optional : Bool) (t : Ts) (r : TsFields)
inductive TsAlts
  | nil
  | cons (t : Ts) (r : TsAlts)
end

mutual
/-- What `ts-rs` makes of a type. -/
def toTs : Rs → Ts
  | .bool => .boolean
  | .u32 => .number
  | .usize => .number
  | .u64 => .bigint
  | .i64 => .bigint
  | .f64 => .number
  | .string => .string
  | .vec t => .array (toTs t)
  | .opt t => .union (.cons (toTs t) (.cons .null .nil))
  | .map t => .record (toTs t)
  | .pair a b => .pair (toTs a) (toTs b)
  | .struct fs => .obj (toTsFields fs)
  | .enum m vs => .union (toTsVariants m vs)
  | .self => .self
def toTsFields : RsFields → TsFields
  | .nil => .nil
  | .cons n true (.opt t) r => .cons n true (toTs t) (toTsFields r)
  | .cons n _ t r => .cons n false (toTs t) (toTsFields r)
def toTsVariants (m : Mode) : RsVariants → TsAlts
  | .nil => .nil
  | .unit n r => .cons (match m with
      | .external => .lit n
      | _ => .obj (.cons kType false (.lit n) .nil)) (toTsVariants m r)
  | .one n t r => .cons (match m with
      | .external => .obj (.cons n false (toTs t) .nil)
      | _ => .obj (.cons kType false (.lit n) (.cons kValue false (toTs t) .nil))) (toTsVariants m r)
  | .named n fs r => .cons (match m with
      | .adjacent => .obj (.cons kType false (.lit n) (.cons kValue false (.obj (toTsFields fs)) .nil))
      | .internal => .obj (.cons kType false (.lit n) (toTsFields fs))
      | .external => .obj (.cons n false (.obj (toTsFields fs)) .nil)) (toTsVariants m r)
end

/-! ## Values of a type -/

/-- Whether the type has a property of this name. -/
def TsFields.has (k : List Char) : TsFields → Bool
  | .nil => false
  | .cons n _ _ r => decide (n = k) || r.has k

mutual
/-- Whether a value, as `JSON.parse` gives it, has a type.  `lax`: numbers are taken for `bigint`s (no JSON text is one).
`rec`: the values of `self`. -/
def check (lax : Bool) (rec : Json → Bool) : Ts → Json → Bool
  | .null, j => (match j with | .null => true | _ => false)
  | .boolean, j => (match j with | .bool _ => true | _ => false)
  | .number, j => (match j with | .num _ => true | _ => false)
  | .bigint, j => (match j with | .num _ => lax | _ => false)
  | .string, j => (match j with | .str _ => true | _ => false)
  | .lit s, j => (match j with | .str t => decide (t = s) | _ => false)
  | .array t, j => (match j with | .arr xs => xs.all (check lax rec t) | _ => false)
  | .pair a b, j => (match j with | .arr [x, y] => check lax rec a x && check lax rec b y | _ => false)
  | .record t, j => (match j with | .obj l => l.all (fun e => e.1.all Char.isDigit && check lax rec t e.2) | _ => false)
  | .obj fs, j => (match j with | .obj l => checkFields lax rec fs l && l.all (fun e => fs.has e.1) | _ => false)
  | .union as, j => checkAlts lax rec as j
  | .self, j => rec j
def checkFields (lax : Bool) (rec : Json → Bool) : TsFields → List (List Char × Json) → Bool
  | .nil, _ => true
  | .cons n o t r, l => (match l.lookup n with
      | some v => check lax rec t v
      | none => o) && checkFields lax rec r l
def checkAlts (lax : Bool) (rec : Json → Bool) : TsAlts → Json → Bool
  | .nil, _ => false
  | .cons t r, j => check lax rec t j || checkAlts lax rec r j
end

/-! ## The exported types -/

/-- `MMemorySegment`, `MPathSegment`, `MPath` (mvalue.rs:24-46). -/
def segRs : Rs := .enum .adjacent (.named vStack (.cons fFrame false .usize (.cons fLocal false .string .nil))
  (.named vHeap (.cons fIndex false .usize .nil) .nil))

def partRs : Rs := .enum .adjacent (.one vField .usize (.one vIndex .usize (.one vSubslice (.pair .usize .usize) .nil)))

def pathRs : Rs := .struct (.cons fSegment false segRs (.cons fParts false (.vec partRs) .nil))

/-- `Abbreviated` (mvalue.rs:50-56). -/
def abbreviatedRs (t : Rs) : Rs := .enum .adjacent (.one vAll (.vec t) (.one vOnly (.pair (.vec t) t) .nil))

/-- `MHeapAllocKind` (mvalue.rs:95-102). -/
def kindRs : Rs := .enum .adjacent (.named vString (.cons fLen false .u64 .nil)
  (.named vVec (.cons fLen false .u64 .nil) (.unit vBox .nil)))

/-- `MValue` (mvalue.rs:114-142). -/
def valueRs : Rs := .enum .adjacent
  (.one vBool .bool (.one vChar .usize (.one vUint .u64 (.one vInt .i64 (.one vFloat .f64
  (.one vTuple (.vec .self) (.one vArray (abbreviatedRs .self)
  (.named vAdt (.cons fName false .string (.cons fVariant false (.opt .string)
    (.cons fFields false (.vec (.pair .string .self)) (.cons fAllocKind false (.opt kindRs) .nil))))
  (.named vPointer (.cons fPath false pathRs (.cons fRange false (.opt .u64) .nil))
  (.named vUnallocated (.cons fAllocId false (.opt .usize) .nil) .nil))))))))))

/-- `CharPos` and `CharRange` of `rustc_utils`. -/
def posRs : Rs := .struct (.cons fLine false .usize (.cons fColumn false .usize .nil))

def rangeRs : Rs := .struct (.cons fStart false posRs (.cons fEnd false posRs .nil))

/-- `MLocal`, `MFrame`, `MStack`, `MHeap`, `MStep` (step.rs:38-72). -/
def localRs : Rs := .struct (.cons fName false .string (.cons kValue false .self
  (.cons fMovedPaths false (.vec (.vec partRs)) .nil)))

def frameRs : Rs := .struct (.cons fName false .string (.cons fBodySpan false rangeRs (.cons fLocation false rangeRs
  (.cons fLocals false (.vec localRs) .nil))))

def stepRs : Rs := .struct (.cons fStack false (.struct (.cons fFrames false (.vec frameRs) .nil))
  (.cons fHeap false (.struct (.cons fLocations false (.vec .self) .nil)) .nil))

/-- `MUndefinedBehavior`, `MResult`, `MTrace` (step.rs:74-95). -/
def resultRs : Rs := .enum .adjacent (.unit vSuccess (.one vError (.enum .adjacent
  (.named vUseAfterFree (.cons fAllocId false .usize .nil) (.one vOther .string .nil))) .nil))

def traceRs : Rs := .struct (.cons fSteps false (.vec stepRs) (.cons fResult false resultRs .nil))

/-- `Permissions`, `PermissionsData` (permissions/mod.rs:69-116); keys of loans and moves (analysis/mod.rs:48-58). -/
def permsRs : Rs := .struct (.cons fRead false .bool (.cons fWrite false .bool (.cons fDrop false .bool .nil)))

def dataRs : Rs := .struct (.cons fTypeDroppable false .bool (.cons fTypeWriteable false .bool (.cons fTypeCopyable false .bool
  (.cons fIsLive false .bool (.cons fPathUninit false .bool (.cons fPathMoved true (.opt .u32)
  (.cons fLoanRead true (.opt .u32) (.cons fLoanWrite true (.opt .u32) (.cons fLoanDrop true (.opt .u32) .nil)))))))))

/-- `FlowEdgeKind` (flow.rs:106-124), `FlowBoundary`, `PermissionsBoundary` (boundaries/mod.rs:211-232). -/
def flowKindRs : Rs := .enum .external (.unit vOutlives (.unit vMissing (.unit vInvalidated (.unit vOkFlow .nil))))

def flowRs : Rs := .struct (.cons fIsViolation false .bool (.cons fFlowContext false rangeRs (.cons fKind false flowKindRs .nil)))

def boundaryRs : Rs := .struct (.cons fLocation false posRs (.cons fExpected false permsRs (.cons fActual false permsRs
  (.cons fData false dataRs (.cons fExpectingFlow true (.opt flowRs) .nil)))))

/-- `ValueStep` (stepper/mod.rs:93-105), `PermissionsDiff`, `PermissionsDataDiff` (stepper/mod.rs:136-175). -/
def valueStepRs (t : Rs) : Rs := .enum .internal (.named vHigh (.cons kValue false t .nil) (.unit vLow
  (.named vNone (.cons kValue true (.opt t) .nil) .nil)))

def permsDiffRs : Rs := .struct (.cons fRead false (valueStepRs .bool) (.cons fWrite false (valueStepRs .bool)
  (.cons fDrop false (valueStepRs .bool) .nil)))

def diffRs : Rs := .struct (.cons fIsLive false (valueStepRs .bool) (.cons fTypeDroppable false (valueStepRs .bool)
  (.cons fTypeWriteable false (valueStepRs .bool) (.cons fPathMoved false (valueStepRs .u32)
  (.cons fPathUninit false (valueStepRs .bool) (.cons fLoanRead false (valueStepRs .u32)
  (.cons fLoanWrite false (valueStepRs .u32) (.cons fLoanDrop false (valueStepRs .u32)
  (.cons fPermissions false permsDiffRs .nil)))))))))

/-- `PermissionsStepTable`, `PermissionsLineDisplay` (stepper/mod.rs:52-67). -/
def tableRs : Rs := .struct (.cons fFrom false rangeRs (.cons fTo false rangeRs
  (.cons fState false (.vec (.pair .string diffRs)) .nil)))

def lineRs : Rs := .struct (.cons fLocation false rangeRs (.cons fState false (.vec tableRs) .nil))

/-- `Refiner`, `RefinementRegion` (permissions/mod.rs:154-168). -/
def refinerRs : Rs := .enum .external (.one vLoan .u32 (.one vMove .u32 .nil))

def regionRs : Rs := .struct (.cons fRefinerPoint false refinerRs (.cons fRefinedRanges false (.vec rangeRs) .nil))

/-- `AnalysisOutput`, `AquascopeError` (analysis/mod.rs:60-74, 237-269). -/
def outputRs : Rs := .struct (.cons fBodyRange false rangeRs (.cons fBoundaries false (.vec boundaryRs)
  (.cons fSteps false (.vec lineRs) (.cons fLoanPoints false (.map rangeRs) (.cons fLoanRegions false (.map regionRs)
  (.cons fMovePoints false (.map rangeRs) (.cons fMoveRegions false (.map regionRs) .nil)))))))

def errorRs : Rs := .enum .internal (.named kBuildError (.cons fRange false (.opt rangeRs) .nil)
  (.named vAnalysisError (.cons fMsg false .string .nil) .nil))

/-- `AquascopeAnnotations` and its parts (annotations.rs:10-54). -/
def matcherRs : Rs := .enum .adjacent (.one kLiteral .string (.one kRegex .string .nil))

def annotsRs : Rs := .struct (.cons kHiddenLines false (.vec .usize)
  (.cons kInterp false (.struct (.cons kStateLocations false (.vec .usize) .nil))
  (.cons kStepper false (.struct (.cons kFocusedLines false (.vec .usize) (.cons kFocusedPaths false (.map (.vec matcherRs)) .nil)))
  (.cons kBoundaries false (.struct (.cons kFocusedLines false (.vec .usize) .nil)) .nil))))

/-- The values of type `MValue` with at most `n` levels. -/
def isValue (lax : Bool) : Nat → Json → Bool
  | 0, _ => false
  | n + 1, j => check lax (isValue lax n) (toTs valueRs) j

/-- A value has an exported type; `MValue`s may have any number of levels. -/
def HasType (lax : Bool) (t : Rs) (j : Json) : Prop := ∃ n, check lax (isValue lax n) (toTs t) j = true

end Verif.Wire
