import Verif.Pipeline.Runs
import Verif.Pipeline.SourceExample
/-!
# C108: a run that goes through a loop twice
-/
namespace Verif.Pipeline

open Verif.Cfg Verif.Segments Verif.Steps Verif.HirSteps

/-- Each location comes right after the one before. -/
def follows (b : Body) : Loc → List Loc → Bool
  | _, [] => true
  | l, l' :: w => (nextsOf b l).contains l' && follows b l' w

theorem follows_run {b : Body} {o : Loc} : ∀ (w v : List Loc) (l : Loc), Run b o v l → follows b l w = true →
    Run b o (v ++ w) ((l :: w).getLast (List.cons_ne_nil _ _))
  | [], v, l, h, _ => by rw [List.append_nil]; exact h
  | l' :: w, v, l, h, hf => by
    rw [follows, Bool.and_eq_true] at hf
    have hn : Next b l l' := mem_nextsOf.1 (List.contains_iff_mem.1 hf.1)
    have := follows_run w (v ++ [l']) l' (.next h hn) hf.2
    rw [List.append_assoc] at this
    exact this

namespace SourceLoop

/-- The body of the loop runs twice, once with each arm of the `if`; then the loop is left. -/
def twice : List Loc :=
  [⟨0, 1⟩, ⟨1, 0⟩, ⟨2, 0⟩, ⟨3, 0⟩, ⟨3, 1⟩, ⟨4, 0⟩, ⟨4, 1⟩, ⟨6, 0⟩, ⟨6, 1⟩, ⟨6, 2⟩, ⟨7, 0⟩, ⟨7, 1⟩,
    ⟨1, 0⟩, ⟨2, 0⟩, ⟨3, 0⟩, ⟨3, 1⟩, ⟨4, 0⟩, ⟨4, 1⟩, ⟨5, 0⟩, ⟨5, 1⟩, ⟨5, 2⟩, ⟨7, 0⟩, ⟨7, 1⟩,
    ⟨1, 0⟩, ⟨2, 0⟩, ⟨3, 0⟩, ⟨3, 1⟩, ⟨8, 0⟩, ⟨8, 1⟩, ⟨8, 2⟩, ⟨8, 3⟩, ⟨8, 4⟩, ⟨8, 5⟩]

example : Run prog.body startLoc twice ⟨8, 5⟩ :=
  follows_run twice [] startLoc .nil (by decide)

end SourceLoop

end Verif.Pipeline
