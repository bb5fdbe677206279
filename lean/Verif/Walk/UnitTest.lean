import Verif.Segments.Check
import Verif.HirSteps.Model
import Verif.TestRun.Model
/-!
# Model of the unit tests of the steps

Models `compile_and_run` and `test_valid_segmented_mir` (`crates/aquascope/src/analysis/stepper/hir_steps.rs:785-843`), with
`compile_normal`, `compile` and `for_each_body` (`crates/aquascope/src/test_utils.rs:464-515`).

Simplifications.
* The compiler is a parameter, as in `Verif.TestRun`: it stops before `after_analysis`, or gives the bodies one after the
  other, among which it may stop with a fatal error.  `catch_fatal_errors` takes that for an ordinary end.
* The text of a panic of the compiler or of the analysis, and what is printed of an error of `freeze`, are parameters.
* `HirStepPoints::make` does not fail (hir_steps.rs:145-168), so its `expect` is left out.
-/
namespace Verif.Walk

open Verif.Cfg Verif.Segments Verif.HirSteps

/-- How the test of a body panics (hir_steps.rs:799-817). -/
inductive Msg
  | unsupported
  | internal
  | freeze
  | invalid
  | crash (e : Err)
  deriving DecidableEq, Repr

/-- The texts of the panics.  (What is behind `Failed to freeze SegmentedMirBuilder` is a parameter.) -/
def Msg.text (crashed : Err → List Char) (unfinished : List Char) : Msg → List Char
  | .unsupported => ['u', 'n', 's', 'u', 'p', 'p', 'o', 'r', 't', 'e', 'd', ' ', 'f', 'e', 'a', 't', 'u', 'r', 'e']
  | .internal => ['i', 'n', 't', 'e', 'r', 'n', 'a', 'l', ' ', 'e', 'r', 'r', 'o', 'r']
  | .freeze => unfinished
  | .invalid => ['i', 'n', 'v', 'a', 'l', 'i', 'd', ' ', 's', 'm', 'i', 'r']
  | .crash e => crashed e

/-- A function as the compiler hands it over. -/
structure Fn where
  b : Body
  E : Env
  value : Expr

/-- The callback for a body (hir_steps.rs:788-817). -/
def Fn.test (x : Fn) : Option Msg :=
  match visitBody x.E x.value V.make with
  | .error e => some (.crash e)
  | .ok v =>
    if v.unsupported ≠ 0 then some .unsupported
    else if v.fatal ≠ [] then some .internal
    else match v.st.freeze with
      | .error _ => some .freeze
      | .ok f => match validate x.b f with
        | .error _ => some .invalid
        | .ok _ => none

/-- What a panic is made of: by the test itself, or by the compiler. -/
inductive Panic
  | test (m : Msg)
  | compiler
  deriving DecidableEq, Repr

/-- `for_each_body` (test_utils.rs:464-478). -/
def eachBody : List (TestRun.Part Fn) → Option Panic
  | [] => none
  | .fatal :: _ => none
  | .panic :: _ => some .compiler
  | .got x :: r => match x.test with
    | some m => some (.test m)
    | none => eachBody r

/-- `compile_and_run` (hir_steps.rs:785-818); `none` if the compiler stops before the callback. -/
def compileAndRun : Option (List (TestRun.Part Fn)) → Option Panic
  | none => none
  | some bodies => eachBody bodies

/-- The three forms of `test_valid_segmented_mir` (hir_steps.rs:822-843). -/
inductive Form
  | plain
  | shouldPanic
  | panicsWith (s : List Char)
  deriving DecidableEq, Repr

/-- Whether the test passes; `#[should_panic(expected = s)]` wants `s` within the text. -/
def Form.passes (text : Panic → List Char) (bodies : Option (List (TestRun.Part Fn))) : Form → Bool
  | .plain => (compileAndRun bodies).isNone
  | .shouldPanic => (compileAndRun bodies).isSome
  | .panicsWith s => match compileAndRun bodies with
    | none => false
    | some p => TestRun.containsText s (text p)

end Verif.Walk
