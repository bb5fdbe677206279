import Verif.Facts.Model
/-!
# Specification of the permission facts, in terms of execution paths
-/
namespace Verif.Facts.Spec

/-- Consecutive points are connected. -/
def Walk (edges : List (Nat × Nat)) : List Nat → Prop
  | [] => True
  | [_] => True
  | p :: q :: r => (p, q) ∈ edges ∧ Walk edges (q :: r)

/-- A path overlapping `path` is assigned at `point`. -/
def AssignedAt (i : Input) (path point : Nat) : Prop :=
  ∃ other, (other, point) ∈ i.assigned ∧ i.conflict other path = true

/-- There is an execution path from move number `mv` to `point` on which no path overlapping the moved
one is assigned in between. -/
def Reaches (i : Input) (mv point : Nat) : Prop :=
  ∃ path source between, i.moves[mv]? = some (path, source) ∧
    Walk i.cfgEdge (source :: (between ++ [point])) ∧ ∀ q ∈ between, ¬ AssignedAt i path q

/-- Moving `path₀` affects `path`: a part of it, or a whole it is a part of. -/
def Touches (i : Input) (mv path : Nat) : Prop :=
  ∃ path₀ source, i.moves[mv]? = some (path₀, source) ∧ (path ∈ i.interior path₀ ∨ path ∈ i.parents path₀)

/-- `path` is `desc` or a whole that `desc` is a part of. -/
inductive Ancestor (i : Input) (desc : Nat) : Nat → Prop
  | self : Ancestor i desc desc
  | up {c p} : Ancestor i desc c → (c, p) ∈ i.childPath → Ancestor i desc p

/-- Some predecessor of `point` leaves `path`, or a part of it, maybe uninitialised. -/
def MaybeUninit (i : Input) (path point : Nat) : Prop :=
  ∃ pred desc, (pred, point) ∈ i.cfgEdge ∧ (pred, desc) ∈ i.uninitExit ∧ Ancestor i desc path

/-- `loan` is live at `point` and its borrowed path overlaps `path`. -/
def LiveOverlap (i : Input) (loan path point : Nat) : Prop :=
  loan ∈ i.issued ∧ (loan, point) ∈ i.loanLive ∧ path ∈ i.paths ∧ i.conflict (i.borrowed loan) path = true

/-- The largest key satisfying a predicate. -/
def IsMax (P : Nat → Prop) (k : Nat) : Prop := P k ∧ ∀ j, P j → j ≤ k

end Verif.Facts.Spec
