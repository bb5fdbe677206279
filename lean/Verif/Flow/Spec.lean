import Verif.Flow.Model
/-!
# What the flow analysis should answer
-/
namespace Verif.Flow

/-- Data of region `a` can flow into `b` through the body's constraints. -/
inductive FlowsInto (i : Input) (a : Nat) : Nat → Prop
  | refl : FlowsInto i a a
  | step {b c} : FlowsInto i a b → (b, c) ∈ i.constraints → FlowsInto i a c

/-- Two regions are in the same component. -/
def Same (i : Input) (a b : Nat) : Prop := FlowsInto i a b ∧ FlowsInto i b a

/-- The region occurs in the body's constraints. -/
def Occurs (i : Input) (r : Nat) : Prop := ∃ e ∈ i.constraints, r = e.1 ∨ r = e.2

/-- The regions chosen by the caller: the declared ones that occur in the body, and those of the return
type. -/
def Caller (i : Input) (p : Nat) : Prop := (p ∈ i.placeholder ∧ Occurs i p) ∨ p ∈ i.returnRegions

/-- The regions of borrows of local data. -/
def Local (i : Input) (l : Nat) : Prop := (l, false) ∈ i.borrows

/-- A chain of declared relations from `a` to `b`, each satisfying `ok`, between regions taken up to
equality of components. -/
inductive Chain (i : Input) (ok : Nat × Nat → Prop) (a : Nat) : Nat → Prop
  | refl {b} : Same i a b → Chain i ok a b
  | step {b c d e} : Chain i ok a b → Same i b c → (c, d) ∈ i.known → ok (c, d) → Same i d e →
      Chain i ok a e

/-- A declared relation between regions that both occur in the body. -/
def Used (i : Input) (e : Nat × Nat) : Prop := Occurs i e.1 ∧ Occurs i e.2

/-- Local data would flow into a caller's region. -/
def LocalEscapes (i : Input) (frm to : Nat) : Prop :=
  (∃ l, Local i l ∧ FlowsInto i l frm) ∧ ∃ p, Caller i p ∧ Same i p to

/-- Some caller region that flows into the source is not declared to outlive some caller region of the
target. -/
def Undeclared (i : Input) (frm to : Nat) : Prop :=
  ∃ p q, Caller i p ∧ Caller i q ∧ FlowsInto i p frm ∧ FlowsInto i q to ∧ ¬ Chain i (Used i) p q

/-- A dangling local flows out. -/
def DanglingOut (i : Input) (frm : Nat) : Prop :=
  ∃ l d, Local i l ∧ FlowsInto i l frm ∧ d ∈ i.dangling ∧ Same i l d

/-- The region is a node of the body's graph, whose nodes are all numbers up to the largest region that occurs
in a constraint. -/
def InGraph (i : Input) (r : Nat) : Prop := ∃ e ∈ i.constraints, r ≤ e.1 ∨ r ≤ e.2

/-- The constraint makes data flow into a caller's region where it must not, and a constraint of the
expression itself ends in one of its two regions. -/
def Bad (i : Input) (specific : List (Nat × Nat)) (e : Nat × Nat) : Prop :=
  (∃ p, Caller i p ∧ Same i p e.2) ∧
  ¬ (Same i e.1 e.2 ∨ (¬ LocalEscapes i e.1 e.2 ∧ ¬ Undeclared i e.1 e.2 ∧ ¬ DanglingOut i e.1)) ∧
  ∃ g ∈ specific, g.2 = e.1 ∨ g.2 = e.2

/-- The regions that borrowck must have put in the graph for the analysis not to panic. -/
def KnownRegions (i : Input) : Prop :=
  (∀ r ∈ i.returnRegions, InGraph i r) ∧ (∀ l, Local i l → InGraph i l) ∧ (∀ d ∈ i.dangling, InGraph i d)

end Verif.Flow
