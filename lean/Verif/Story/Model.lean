import Verif.Trace.Props
import Verif.Mapper.Trace
/-!
# Model of the whole interpreter

Models `interpret` of `crates/aquascope/src/interpreter/mod.rs:26-71`: the evaluation (`Verif.Trace`, step.rs), then the
two groupings (`Verif.Mapper`). Functions are numbers, a location of the machine is a location of the MIR or a span.

Simplifications: those of the two parts. The log output (mod.rs:30-42, 48-57) is left out. The name of a function and
the span of its body, which are part of a frame, are functions of the instance.
-/
namespace Verif.Story
open Verif.Cfg

/-- The machine of `Verif.Trace` with the locations of `Verif.Mapper`. -/
abbrev Machine (σ E Vars Heap : Type) := Trace.Machine σ E Nat (Loc ⊕ Mapper.Span) Vars Heap

section
variable {σ E Vars Heap : Type}

/-- A recorded frame (`MFrame<MirLoc>`, step.rs:46-51) as the grouping sees it. -/
def toFrame (f : Trace.MFrame Nat (Loc ⊕ Mapper.Span) Vars) : Group.Frame Mapper.MirLoc (Nat × Vars) :=
  { location := (f.locInst, f.loc), payload := (f.inst, f.vars) }

/-- A recorded step (`MStep<MirLoc>`, step.rs:67-70) as the grouping sees it. -/
def toStep (s : Trace.MStep Nat (Loc ⊕ Mapper.Span) Vars Heap) : Group.Step Mapper.MirLoc (Nat × Vars) Heap :=
  { frames := s.frames.map toFrame, heap := s.heap }

/-- `interpret` (mod.rs:26-71). `none`: the fuel runs out, the evaluation fails with an error that is not undefined
behaviour, or a panic. -/
def interpret (m : Machine σ E Vars Heap) (isUb : E → Bool) (fns : Nat → Mapper.Fn) (order : Nat → List Nat)
    (S : Mapper.Spans) (fuel : Nat) (s : σ) : Option (Group.Trace Mapper.Span (Nat × Vars) Heap (Option E)) :=
  match Trace.eval m fuel s with
  | none => none
  | some r =>
    match Trace.report isUb r with
    | none => none
    | some (steps, result) => Mapper.interpretTrace fns order S { steps := steps.map toStep, result }
end

end Verif.Story
