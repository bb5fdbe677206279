/-!
# Model of the error tracker and of the compiler plugin

Models `crates/aquascope/src/errors/mod.rs`, `AquascopeAnalysis::run`
(`crates/aquascope/src/analysis/mod.rs:266-312`), the callbacks of `crates/aquascope_front/src/plugin.rs` and
`InterpretCallbacks` (`crates/aquascope/src/interpreter/mod.rs:72-136`).

Simplifications.
* Bodies, ranges, messages and results are numbers or parameters.
* The compiler is a record (`Compiler`): the bodies `find_bodies` returns, which bodies are checked during the
  analysis of a body, which diagnostics the check of a body emits, and how each analysis ends.  Checks are
  queries: each runs once, when it is first needed.
* Expansion information of a span is its `source_callsite`, a parameter.
* Thread-local state is one state: the callbacks run on one thread.
-/
namespace Verif.Driver

/-! ## The error tracker -/

structure Span where
  lo : Nat
  hi : Nat
  deriving DecidableEq, Repr

/-- `DiagnosticInfo` (errors/mod.rs:14-18). -/
structure Diag where
  span : Span
  isError : Bool
  deriving DecidableEq, Repr

/-- `BODY_DIAGNOSTICS` and `CURRENT_BODY` (errors/mod.rs:9-12). -/
structure Tracker where
  diags : List Diag
  current : Option Nat
  deriving DecidableEq, Repr

def Tracker.init : Tracker := ⟨[], none⟩

/-- `track_diagnostic` (errors/mod.rs:20-34). -/
def Tracker.emit (t : Tracker) (d : Diag) : Tracker := { t with diags := t.diags ++ [d] }

/-- `track_body_diagnostics` (errors/mod.rs:47-63). -/
def Tracker.track (_t : Tracker) (body : Nat) : Tracker := ⟨[], some body⟩

/-- `errors_exist` (errors/mod.rs:65-67). -/
def Tracker.errorsExist (t : Tracker) : Bool := !t.diags.isEmpty

/-- `Iterator::min_by_key` on the start: the first of the least elements. -/
def minByLo : List Span → Option Span
  | [] => none
  | s :: r => some (r.foldl (fun best x => if x.lo < best.lo then x else best) s)

/-- `get_span_of_first_error` (errors/mod.rs:69-86); `none`: the assertion (or its `unwrap`) panics. -/
def Tracker.firstError (t : Tracker) (body : Nat) : Option (Option Span) :=
  if t.current = some body then
    some (minByLo (t.diags.filterMap (fun d => if d.isError then some d.span else none)))
  else none

/-- What happens to the tracker between two questions. -/
inductive Event where
  | emit (d : Diag)
  | track (body : Nat)
  deriving DecidableEq, Repr

def Tracker.step (t : Tracker) : Event → Tracker
  | .emit d => t.emit d
  | .track b => t.track b

def Tracker.run (t : Tracker) (h : List Event) : Tracker := h.foldl Tracker.step t

/-- `SpanExt::as_local` as used in boundaries/mod.rs:809-810 and table_builder.rs:226-227. -/
def asLocal (callsite : Span → Span) (outer s : Span) : Option Span :=
  if outer.lo ≤ s.lo ∧ s.hi ≤ outer.hi then some s
  else
    let c := callsite s
    if outer.lo ≤ c.lo ∧ c.hi ≤ outer.hi then some c else none

/-! ## The analysis of one body -/

/-- How the analysis of a body ends: with an entry of the output, with a fatal compiler error, or with a
panic. -/
inductive Outcome (α : Type) where
  | ok (a : α)
  | buildError (range : Nat)
  | analysisError (msg : Nat)
  | fatal
  | panic
  deriving DecidableEq, Repr

/-- The parts of `AquascopeAnalysis::run`; `none` in `permissions`: it panics. -/
structure Parts (β σ : Type) where
  tainted : Bool
  range : Nat
  /-- `compute_permission_boundaries`, given the first error -/
  boundaries : Option Span → Except Nat β
  /-- `compute_permission_steps`, given the first error -/
  steps : Option Span → Except Nat σ

/-- `AquascopeAnalysis::run` (analysis/mod.rs:266-312); `err`: the first error in the body.  The points and
regions of loans and moves are left out. -/
def Parts.run {β σ : Type} (p : Parts β σ) (err : Option Span) : Outcome (β × σ) :=
  if p.tainted then .buildError p.range
  else match p.boundaries err with
    | .error m => .analysisError m
    | .ok b => match p.steps err with
      | .error m => .analysisError m
      | .ok s => .ok (b, s)

/-! ## The callbacks of the permissions command -/

structure Compiler (α : Type) where
  /-- `find_bodies` -/
  bodies : List Nat
  /-- the bodies checked during the analysis of a body, in this order -/
  needs : Nat → List Nat
  /-- what the check of a body emits -/
  diags : Nat → List Diag
  /-- the end of the analysis of a body, given the answer of the tracker -/
  outcome : Nat → Option Span → Outcome α

/-- Compiler state during the callback: the tracker and the bodies checked so far. -/
structure St where
  tracker : Tracker
  checked : List Nat
  deriving DecidableEq, Repr

/-- A query: the first time, the check runs and emits. -/
def St.check {α : Type} (c : Compiler α) (s : St) (q : Nat) : St :=
  if q ∈ s.checked then s
  else ⟨(c.diags q).foldl Tracker.emit s.tracker, s.checked ++ [q]⟩

/-- One round of the loop of `after_expansion` (plugin.rs:227-249). -/
def St.analyse {α : Type} (c : Compiler α) (s : St) (body : Nat) : St × Outcome α :=
  let s := { s with tracker := s.tracker.track body }
  let s := (c.needs body).foldl (St.check c) s
  match s.tracker.firstError body with
  | none => (s, .panic)
  | some e => (s, c.outcome body e)

/-- What reaches the standard output: the array of results, or nothing because the process panics. -/
inductive Printed (α : Type) where
  | results (l : List α)
  | crash
  deriving DecidableEq, Repr

/-- `after_expansion` with `catch_fatal_errors` and `postprocess` (plugin.rs:106-181,228-252): a fatal error ends
the loop and is dropped; a panic ends the process. -/
def loop {α : Type} (c : Compiler α) (s : St) (out : List (Outcome α)) : List Nat → Printed (Outcome α)
  | [] => .results out
  | b :: r =>
    match s.analyse c b with
    | (_, .fatal) => .results out
    | (_, .panic) => .crash
    | (s', o) => loop c s' (out ++ [o]) r

/-- `AquascopePlugin::run` for permissions (plugin.rs:111-133).  `expands` is false if the compiler stops with an
error before the callback. -/
def runPermissions {α : Type} (c : Compiler α) (expands : Bool) : Printed (Outcome α) :=
  if expands then loop c ⟨.init, []⟩ [] c.bodies else .results []

/-! ## The callbacks of the interpreter command -/

/-- The end of a compilation that is to be interpreted. -/
inductive Interp (τ : Type) where
  /-- errors of the borrow checker only -/
  | borrowErrors (τ : Except Nat τ)
  /-- other errors -/
  | otherErrors
  | fine (τ : Except Nat τ)
  deriving Repr

/-- `InterpretCallbacks` (interpreter/mod.rs:72-136): without `should_fail`, errors stop the compiler before
`after_analysis`; with it, the borrow checker reports none. -/
def interpCallbackResult {τ : Type} (shouldFail : Bool) : Interp τ → Option (Except Nat τ)
  | .fine r => some r
  | .borrowErrors r => if shouldFail then some r else none
  | .otherErrors => none

/-- `AquascopePlugin::run` for the interpreter (plugin.rs:134-145): `result.unwrap()`, and every error becomes a
build error without a range. -/
def runInterpreter {τ : Type} (shouldFail : Bool) (i : Interp τ) : Printed (Option τ) :=
  match interpCallbackResult shouldFail i with
  | none => .crash
  | some (.error _) => .results [none]
  | some (.ok t) => .results [some t]

end Verif.Driver
