import Verif.Cfg.Model
/-!
# What the graph helpers should answer
-/
namespace Verif.Cfg

open Verif.Graph

/-- The block takes part in normal control flow. -/
def Kept (b : Body) (n : Nat) : Prop :=
  ∃ d, b[n]? = some d ∧ d.cleanup = false ∧ d.term ≠ .unreachable

/-- The edge was added by the compiler for the borrow checker only. -/
def ImaginaryEdge (b : Body) (a t : Nat) : Prop := ∃ d r, b[a]? = some d ∧ d.term = .falseEdge r t ∧ r ≠ t

/-- An edge of the original graph. -/
def Edge (b : Body) (a t : Nat) : Prop := ∃ d, b[a]? = some d ∧ t ∈ d.term.targets

/-- Targets exist, and clean-up code leads only to clean-up code (validity of MIR). -/
structure Valid (b : Body) : Prop where
  targets : ∀ a t, Edge b a t → t < b.length
  cleanup : ∀ a d t e, b[a]? = some d → d.cleanup = true → b[t]? = some e → Edge b a t → e.cleanup = true
  nonempty : 0 < b.length

/-- `d` post-dominates `node`: every exit can be reached and every path to every exit passes `d`. -/
def PostDominates (succ : Nat → List Nat) (exits : List Nat) (node d : Nat) : Prop :=
  ∀ x ∈ exits, Reach succ node x ∧ ∀ l, Path succ node x l → d ∈ l

/-- `d` dominates `node`: the node can be reached from the start and every path to it passes `d`. -/
def Dominates (succ : Nat → List Nat) (d node : Nat) : Prop :=
  Reach succ 0 node ∧ ∀ l, Path succ 0 node l → d ∈ l

/-- A gathered location that belongs to real code: not an empty false-edge block, and not in a block that
is unreachable by construction. -/
def RealLoc (b : Body) (l : Loc) : Prop :=
  (∀ d, b[l.block]? = some d → ¬ (d.stmts = 0 ∧ ((∃ r i, d.term = .falseEdge r i) ∨ ∃ r, d.term = .falseUnwind r))) ∧
  ∃ d, b[l.block]? = some d ∧ d.term ≠ .unreachable

end Verif.Cfg
