import Verif.Frontend.Trace
/-!
# What the markers of a trace should show
-/
namespace Verif.Frontend

/-- The mark lies in the function the step is in, and after the start of the step's location. -/
def Covers (doc : List Char) (mark : Nat) (s : TStep) : Prop :=
  ∃ f, s.frames.getLast? = some f ∧ ∃ a b c, linecol doc f.bodyStart = some a ∧ linecol doc f.bodyEnd = some b ∧
    linecol doc f.locStart = some c ∧ a ≤ mark ∧ mark ≤ b ∧ c < mark

/-- Step `i` is the last one before the mark. -/
def Latest (doc : List Char) (steps : List TStep) (mark i : Nat) : Prop :=
  (∃ s, steps[i]? = some s ∧ Covers doc mark s) ∧
    ∀ (j : Nat) (s : TStep), i < j → steps[j]? = some s → ¬ Covers doc mark s

/-- Every step has a frame, and the ranges of its last frame are in the document. -/
def InDoc (doc : List Char) (s : TStep) : Prop :=
  ∃ f, s.frames.getLast? = some f ∧ (∃ a, linecol doc f.bodyStart = some a) ∧
    (∃ a, linecol doc f.bodyEnd = some a) ∧ (∃ a, linecol doc f.locStart = some a) ∧
    ∃ a, linecol doc f.locEnd = some a

end Verif.Frontend
