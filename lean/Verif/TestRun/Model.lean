import Verif.Annotations.Model
import Verif.TestSource.Model
/-!
# Model of the test runner

Models `load_test_from_file`, `test_refinements_in_file`, `test_boundaries_in_file`, `test_steps_in_file`,
`test_interpreter_in_file`, `run_in_dir`, `for_each_body`, `compile` and `TestCallbacks`
(`crates/aquascope/src/test_utils.rs:191-593`) and the four tests in `crates/aquascope/tests/`.

Simplifications.
* A test passes if it returns and fails if it panics.
* The compiler is a parameter: for a program it says whether it comes to `after_analysis` at all, and if so, what becomes
  of each body.  A fatal error of the compiler unwinds with a special value, which `catch_fatal_errors` of `rustc_driver`
  takes for an ordinary end; it lets every other panic through.
* What a body says about a range is a parameter: there is no place, or one with these permissions, or one of the
  assertions about the machine code fails (test_utils.rs:239-262).
* `insta::assert_yaml_snapshot!` with a given name panics unless a snapshot of this name is stored and equal.  It does not
  change what is stored (it writes a separate file).  What is compared is sorted first (tests/boundaries.rs:12,
  tests/stepper.rs:13-23); this is part of the value of a body here.
* That the directory of the standard library for the interpreter is found (test_utils.rs:401-404) is assumed.
-/
namespace Verif.TestRun

open Verif.TestSource

/-! ## The compiler -/

/-- What becomes of a body. -/
inductive Part (α : Type)
  | got (a : α)
  /-- a fatal error of the compiler -/
  | fatal
  | panic
  deriving DecidableEq, Repr

/-- How the callback ends. -/
inductive End
  | ok
  | fatal
  | panic
  deriving DecidableEq, Repr

/-- For a program, the bodies in order (`for_each_body`, test_utils.rs:472-487), or `none` if the compiler stops before
`after_analysis`. -/
abbrev Compiler (α : Type) := List Char → Option (List (Part α))

/-- `compile` (test_utils.rs:501-529): whether it returns.  Its result is ignored, and a fatal error is only a result. -/
def returns : Option End → Bool
  | none => true
  | some .ok => true
  | some .fatal => true
  | some .panic => false

/-! ## Annotated permissions -/

/-- What a body says about a range. -/
inductive Look
  | elsewhere
  | found (p : Perms)
  | panic
  deriving DecidableEq, Repr

def Look.fine (m : Mark) : Look → Bool
  | .elsewhere => true
  | .found p => p == m.perms
  | .panic => false

def Look.here : Look → Bool
  | .elsewhere => false
  | _ => true

/-- The callback of `test_refinements_in_file` (test_utils.rs:218-290). -/
def refine : List (Part (Mark → Look)) → List Mark → End
  | [], expected => if expected.isEmpty then .ok else .panic
  | .fatal :: _, _ => .fatal
  | .panic :: _, _ => .panic
  | .got b :: r, expected =>
    if expected.all (fun m => (b m).fine m) then refine r (expected.filter (fun m => !(b m).here)) else .panic

/-- `test_refinements_in_file` (test_utils.rs:213-296); the file is `none` if it cannot be read or is not UTF-8. -/
def refinements (ws : Char → Bool) (opn close : List Char) (c : Compiler (Mark → Look)) : Option (List Char) → Bool
  | none => false
  | some src =>
    match splitTestSource ws opn close src with
    | .error _ => false
    | .ok (clean, marks) => returns ((c clean).map fun bodies => refine bodies marks)

/-! ## Snapshots -/

/-- `CFG_HASH` (test_utils.rs:85) -/
def cfgHash : List Char := ['/', '/', '/', '/', '!']
def showFlows : List Char := ['s', 'h', 'o', 'w', '-', 'f', 'l', 'o', 'w', 's']

/-- `str::contains`. -/
def containsText (x : List Char) : List Char → Bool
  | [] => x.isPrefixOf []
  | c :: r => x.isPrefixOf (c :: r) || containsText x r

/-- `cfg.show_flows.unwrap_or(false)` (test_utils.rs:203-211,322). -/
def flowsOf (src : List Char) : Bool :=
  (Annotations.lines src).any fun l => cfgHash.isPrefixOf l && containsText showFlows l

/-- The names of snapshots (tests/boundaries.rs:10, tests/stepper.rs:10). -/
def snapName (tag file : List Char) : List Char := tag ++ '@' :: file

/-- The callbacks of `test_boundaries_in_file` and `test_steps_in_file` (test_utils.rs:320-331,352-386), for bodies with
their names. -/
def snaps {V : Type} [DecidableEq V] (store : List Char → Option V) (file : List Char) : List (Part (List Char × V)) → End
  | [] => .ok
  | .fatal :: _ => .fatal
  | .panic :: _ => .panic
  | .got (tag, v) :: r => if store (snapName tag file) = some v then snaps store file r else .panic

/-- `test_boundaries_in_file` (test_utils.rs:312-336); the analysis is told whether to show flows. -/
def boundaries {V : Type} [DecidableEq V] (store : List Char → Option V) (c : Bool → Compiler (List Char × V))
    (file : List Char) : Option (List Char) → Bool
  | none => false
  | some src => returns ((c (flowsOf src) src).map (snaps store file))

/-- `test_steps_in_file` (test_utils.rs:338-393). -/
def steps {V : Type} [DecidableEq V] (store : List Char → Option V) (c : Compiler (List Char × V))
    (file : List Char) : Option (List Char) → Bool
  | none => false
  | some src => returns ((c src).map (snaps store file))

/-- `test_interpreter_in_file` (test_utils.rs:395-413): the program as a whole; an error of the interpreter is a panic. -/
def interpreter {V : Type} [DecidableEq V] (store : List Char → Option V) (c : List Char → Option (Part V))
    (file : List Char) : Option (List Char) → Bool
  | none => false
  | some src => returns ((c src).map fun
    | .got v => if store file = some v then .ok else .panic
    | .fatal => .fatal
    | .panic => .panic)

/-! ## A directory -/

/-- An entry of the directory. -/
inductive Entry
  | file (name : List Char)
  | unreadable
  | notUtf8
  deriving DecidableEq, Repr

/-- Whether the variable `ONLY` lets a test through (test_utils.rs:436-440). -/
def selected (only : Option (List Char)) (name : List Char) : Bool :=
  match only with
  | none => true
  | some x => x.isPrefixOf name

/-- The loop of `run_in_dir` (test_utils.rs:428-452): whether some test failed; `none` if the loop itself panics. -/
def scan (only : Option (List Char)) (test : List Char → Bool) : List Entry → Option Bool
  | [] => some false
  | .unreadable :: _ => none
  | .notUtf8 :: _ => none
  | .file name :: r =>
    if selected only name
    then (scan only test r).map (fun failed => !test name || failed)
    else scan only test r

/-- `run_in_dir` (test_utils.rs:415-470); `only` is the variable `ONLY`. -/
def runInDir (only : Option (List Char)) (test : List Char → Bool) : Option (List Entry) → Bool
  | none => false
  | some es =>
    match scan only test es with
    | none => false
    | some failed => !failed

end Verif.TestRun
