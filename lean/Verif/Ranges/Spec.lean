import Verif.Ranges.Model
/-!
# What merging ranges should do
-/
namespace Verif.Ranges

/-- The characters of a range. -/
def Range.HasChar (r : Range) (x : Nat) : Prop := r.lo ≤ x ∧ x < r.hi

/-- The cursor positions of a range (between characters, both ends included). -/
def Range.HasPos (r : Range) (x : Nat) : Prop := r.lo ≤ x ∧ x ≤ r.hi

def CoversChar (l : List Range) (x : Nat) : Prop := ∃ r ∈ l, r.HasChar x
def CoversPos (l : List Range) (x : Nat) : Prop := ∃ r ∈ l, r.HasPos x

/-- Sorted, and no two ranges touch or overlap. -/
def Apart (l : List Range) : Prop := l.Pairwise (fun a b => a.hi < b.lo)

/-- A range whose end is not before its start. -/
def Range.Valid (r : Range) : Prop := r.lo ≤ r.hi

/-- A range with at least one character. -/
def Range.NonEmpty (r : Range) : Prop := r.lo < r.hi

/-- The two merged lists are the same set of characters and positions, in canonical form. -/
def Merged (l out : List Range) : Prop :=
  Apart out ∧ (∀ r ∈ out, r.Valid) ∧ (∀ x, CoversChar out x ↔ CoversChar l x) ∧
    (∀ x, CoversPos out x ↔ CoversPos l x)

end Verif.Ranges
