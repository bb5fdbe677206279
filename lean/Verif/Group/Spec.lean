import Verif.Group.Model
import Batteries.Data.List.Basic
/-!
# Specification of step grouping
-/
namespace Verif.Group.Spec
open Verif.Group

variable {L L₁ L₂ P H R K α : Type}

/-- `s'` is `s` with every location mapped and everything else unchanged. -/
def MapsTo (f : L₁ → Option L₂) (s : Step L₁ P H) (s' : Step L₂ P H) : Prop :=
  List.Forall₂ (fun fr fr' => f fr.location = some fr'.location ∧ fr.payload = fr'.payload)
    s.frames s'.frames ∧ s.heap = s'.heap

/-- `out` are the mapped steps of `steps` in order, without those that have an unmappable frame. -/
inductive Mapped (f : L₁ → Option L₂) : List (Step L₁ P H) → List (Step L₂ P H) → Prop
  | nil : Mapped f [] []
  | keep {s s' ss out} : MapsTo f s s' → Mapped f ss out → Mapped f (s :: ss) (s' :: out)
  | drop {s ss out} : (∃ fr ∈ s.frames, f fr.location = none) → Mapped f ss out →
      Mapped f (s :: ss) out

/-- The location of the innermost function of a step. -/
def Top (s : Step L P H) (l : L) : Prop := ∃ init fr, s.frames = init ++ [fr] ∧ fr.location = l

/-- The steps of `g` all have top location `l`. -/
def Run (l : L) (g : List (Step L P H)) : Prop := g ≠ [] ∧ ∀ s ∈ g, Top s l

/-- `runs`, a list of locations with the steps at each, is the division of `xs` into maximal runs of
consecutive steps with the same top location. -/
inductive MaximalRuns : List (Step L P H) → List (L × List (Step L P H)) → Prop
  | nil : MaximalRuns [] []
  | last {l g} : Run l g → MaximalRuns g [(l, g)]
  | cons {l g l' g' xs rest} : Run l g → l ≠ l' → MaximalRuns xs ((l', g') :: rest) →
      MaximalRuns (g ++ xs) ((l, g) :: (l', g') :: rest)

end Verif.Group.Spec
