import Verif.Wire.Html
/-!
# From a block to its element, and from the element to the data of the page

`process_code` (`crates/mdbook-aquascope/src/preprocessor.rs:131-173`) from the answers on, and the start of
`initAquascopeBlocks` (`frontend/packages/aquascope-embed/src/main.tsx:176-250`).

Hash maps are written in an order that is not known: a list of their entries is a parameter.  The page makes no checks of the
types of what it reads; here values of other types are refused.
-/
namespace Verif.Wire
open Verif.Preproc (Json Html Responses configMap)
open Verif.Block (Block)
open Verif.Annotations (Annots PathMatcher)

/-! ## Names -/

def kClass : List Char := ['c', 'l', 'a', 's', 's']
def kEmbed : List Char := ['a', 'q', 'u', 'a', 's', 'c', 'o', 'p', 'e', '-', 'e', 'm', 'b', 'e', 'd']
def kCode : List Char := ['c', 'o', 'd', 'e']
def kAnnotations : List Char := ['a', 'n', 'n', 'o', 't', 'a', 't', 'i', 'o', 'n', 's']
def kOperations : List Char := ['o', 'p', 'e', 'r', 'a', 't', 'i', 'o', 'n', 's']
def kResponses : List Char := ['r', 'e', 's', 'p', 'o', 'n', 's', 'e', 's']
def kConfig : List Char := ['c', 'o', 'n', 'f', 'i', 'g']
def kNoInteract : List Char := ['n', 'o', '-', 'i', 'n', 't', 'e', 'r', 'a', 'c', 't']
def kNoInteractProp : List Char := ['n', 'o', 'I', 'n', 't', 'e', 'r', 'a', 'c', 't']
def kHiddenLines : List Char := ['h', 'i', 'd', 'd', 'e', 'n', '_', 'l', 'i', 'n', 'e', 's']
def kInterp : List Char := ['i', 'n', 't', 'e', 'r', 'p']
def kStateLocations : List Char := ['s', 't', 'a', 't', 'e', '_', 'l', 'o', 'c', 'a', 't', 'i', 'o', 'n', 's']
def kStepper : List Char := ['s', 't', 'e', 'p', 'p', 'e', 'r']
def kFocusedLines : List Char := ['f', 'o', 'c', 'u', 's', 'e', 'd', '_', 'l', 'i', 'n', 'e', 's']
def kFocusedPaths : List Char := ['f', 'o', 'c', 'u', 's', 'e', 'd', '_', 'p', 'a', 't', 'h', 's']
def kBoundaries : List Char := ['b', 'o', 'u', 'n', 'd', 'a', 'r', 'i', 'e', 's']
def kType : List Char := ['t', 'y', 'p', 'e']
def kValue : List Char := ['v', 'a', 'l', 'u', 'e']
def kLiteral : List Char := ['L', 'i', 't', 'e', 'r', 'a', 'l']
def kRegex : List Char := ['R', 'e', 'g', 'e', 'x']

/-! ## Writing -/

/-- A number. -/
def natJson (n : Nat) : Json := .num (Nat.toDigits 10 n)

/-- `Serialize for PathMatcher` (annotations.rs:18-24). -/
def matcherJson : PathMatcher → Json
  | .literal s => .obj [(kType, .str kLiteral), (kValue, .str s)]
  | .regex s => .obj [(kType, .str kRegex), (kValue, .str s)]

/-- `Serialize for AquascopeAnnotations` (annotations.rs:26-54); `paths` are the entries of `focused_paths`. -/
def annotsJson (a : Annots) (paths : List (Nat × List PathMatcher)) : Json :=
  .obj [(kHiddenLines, .arr (a.hiddenLines.map natJson)),
    (kInterp, .obj [(kStateLocations, .arr (a.stateLocations.map natJson))]),
    (kStepper, .obj [(kFocusedLines, .arr (a.stepperLines.map natJson)),
      (kFocusedPaths, .obj (paths.map fun e => (Nat.toDigits 10 e.1, .arr (e.2.map matcherJson))))]),
    (kBoundaries, .obj [(kFocusedLines, .arr (a.boundaryLines.map natJson))])]

/-- The orders of the hash maps of a block. -/
structure Entries where
  responses : List (List Char × Json)
  config : List (List Char × List Char)
  paths : List (Nat × List PathMatcher)

/-- The attributes of the element (preprocessor.rs:152-169). -/
def blockAttrs (b : Block) (e : Entries) : List (List Char × List Char) :=
  [(kClass, kEmbed), dataAttr kCode (.str b.code), dataAttr kAnnotations (annotsJson b.annotations e.paths),
    dataAttr kOperations (.arr (b.operations.map .str)), dataAttr kResponses (.obj e.responses),
    dataAttr kConfig (.obj (e.config.map fun x => (x.1, .str x.2))), dataAttr kNoInteract (.bool true)]

/-- `trim_end` on the text of the answers (preprocessor.rs:151). -/
def trimEnd (s : List Char) : List Char := (s.reverse.dropWhile Char.isWhitespace).reverse

/-! ## Reading -/

def asStr : Json → Option (List Char)
  | .str s => some s
  | _ => none

def asArr : Json → Option (List Json)
  | .arr xs => some xs
  | _ => none

def asObj : Json → Option (List (List Char × Json))
  | .obj fs => some fs
  | _ => none

/-- A number, if it is a natural one. -/
def asNat : Json → Option Nat
  | .num s => if s.all Char.isDigit then some (Nat.ofDigitChars 10 s 0) else none
  | _ => none

def asMatcher : Json → Option PathMatcher
  | .obj fs =>
    match (fs.lookup kType).bind asStr, (fs.lookup kValue).bind asStr with
    | some t, some v => if t = kLiteral then some (.literal v) else if t = kRegex then some (.regex v) else none
    | _, _ => none
  | _ => none

/-- The property of an object. -/
def prop (j : Json) (k : List Char) : Option Json := (asObj j).bind (·.lookup k)

/-- The numbers in an array. -/
def nats (j : Json) : Option (List Nat) := (asArr j).bind (·.mapM asNat)

/-- One entry of `focused_paths`; as a property name a number is its decimal text (stepper.tsx:423). -/
def asEntry (x : List Char × Json) : Option (List (Nat × PathMatcher)) :=
  match asNat (.num x.1), (asArr x.2).bind (·.mapM asMatcher) with
  | some n, some ms => some (ms.map fun m => (n, m))
  | _, _ => none

/-- The annotations, as the editor uses them (lib.tsx:310-312, interpreter.tsx:826, stepper.tsx:411-423, boundaries.tsx:176). -/
def asAnnots (j : Json) : Option Annots :=
  match (prop j kHiddenLines).bind nats, ((prop j kInterp).bind (prop · kStateLocations)).bind nats,
    ((prop j kStepper).bind (prop · kFocusedLines)).bind nats,
    (((prop j kStepper).bind (prop · kFocusedPaths)).bind asObj).bind (·.mapM asEntry),
    ((prop j kBoundaries).bind (prop · kFocusedLines)).bind nats with
  | some h, some s, some l, some p, some b =>
    some { hiddenLines := h, stateLocations := s, stepperLines := l, stepperPaths := p.flatten, boundaryLines := b }
  | _, _, _, _, _ => none

/-- A data attribute that must be there. -/
def required (attrs : List (List Char × List Char)) (key : List Char) : Option Json := (maybeParse (dataset attrs key)).join

/-- What the page finds in an element, and whether the program is fixed (main.tsx:184-245). -/
def readPage (attrs : List (List Char × List Char)) : Option (Html × Bool) :=
  match (required attrs kCode).bind asStr, (required attrs kAnnotations).bind asAnnots,
    ((required attrs kOperations).bind asArr).bind (·.mapM asStr), (required attrs kResponses).bind asObj,
    (required attrs kConfig).bind asObj, maybeParse (dataset attrs kNoInteractProp) with
  | some code, some annotations, some operations, some responses, some config, some readOnly =>
    some ({ code, annotations, operations, responses := fun op => responses.lookup op,
            config := fun k => (config.lookup k).bind asStr },
          match readOnly with
          | some (.bool true) => true
          | _ => false)
  | _, _, _, _, _, _ => none

end Verif.Wire
