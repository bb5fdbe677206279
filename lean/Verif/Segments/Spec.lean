import Verif.Segments.Model
/-!
# Specification of segmented bodies
-/
namespace Verif.Segments

open Verif.Cfg Verif.Graph

/-- What a finished body would contain now. -/
def St.view (s : St) : Frozen := ⟨s.colls, s.branches, s.segs, s.scopeGraph⟩

/-- Where a branch that is met at `l` leaves control: at its join point, or, without one, it stays. -/
def Branch.leaves (b : Branch) (l : Loc) : Loc := if b.reachTo = b.reachFrom then l else b.reachTo

/-- A list of parts joins end to start, from `l` to `e`. -/
inductive Joined (f : Frozen) : Loc → List CF → Loc → Prop
  | nil (l) : Joined f l [] l
  | linear {sid s rest e} : f.segs[sid]? = some s → Joined f s.to rest e →
      Joined f s.from (.linear sid :: rest) e
  | branch {l bid b rest e} : f.branches[bid]? = some b →
      (∀ sid ∈ b.splits, ∃ s, f.segs[sid]? = some s ∧ s.from = l) →
      Joined f (b.leaves l) rest e → Joined f l (.branch bid :: rest) e

/-- The histories of the builder: the public operations, with the insertions split into their elementary
steps.  The list records the implicitly opened branches with their parents.  Only branches that the caller
opened can be closed (the others have no name outside). -/
inductive Run (secondWins : Bool) (m : Mapper) : St → List (Nat × Nat) → Prop
  | make : Run secondWins m St.make []
  | openScope {s g id s'} : Run secondWins m s g → s.openScope = .ok (id, s') → Run secondWins m s' g
  | closeScope {s g id s'} : Run secondWins m s g → s.closeScope id = .ok s' → Run secondWins m s' g
  | openBranch {s g l f bid s'} : Run secondWins m s g → s.openBranch m l f = .ok (bid, s') →
      Run secondWins m s' g
  | closeBranch {s g bid s'} : Run secondWins m s g → (∀ p, (bid, p) ∉ g) → s.closeBranch bid = .ok s' →
      Run secondWins m s' g
  | child {s g l p loc s'} : Run secondWins m s g → s.findSuitable m l = .nonLinear p loc →
      s.openChild secondWins m p loc = .ok s' → Run secondWins m s' (g ++ [(s.branches.length, p)])
  | linear {s g l b i scope} (span : Nat) : Run secondWins m s g → s.findSuitable m l = .linear b i →
      s.currentScope = .ok scope → Run secondWins m (s.insertTo b i (s.insertEnd m b l) span scope) g

/-- The implicit descendants of a branch (itself included). -/
inductive Desc (g : List (Nat × Nat)) (r : Nat) : Nat → Prop
  | refl : Desc g r r
  | child {p c} : Desc g r p → (c, p) ∈ g → Desc g r c

/-- A branch is never its own join point. -/
def Mapper.Proper (m : Mapper) : Prop := ∀ b, m.lpd b ≠ some b

/-- The blocks met from `b` on, following unique successors: the `i`-th one. -/
def chain (m : Mapper) (b : Nat) : Nat → Option Nat
  | 0 => some b
  | i + 1 => match chain m b i with
    | none => none
    | some x => match m.succ x with
      | [t] => some t
      | _ => none

/-- All identifiers a finished body contains refer to existing entries. -/
def Complete (f : Frozen) : Prop :=
  0 < f.colls.length ∧
  (∀ c ∈ f.colls, ∀ part ∈ c.data, match part with
    | .linear sid => sid < f.segs.length
    | .branch bid => bid < f.branches.length) ∧
  ∀ b ∈ f.branches, (∀ sid ∈ b.splits, sid < f.segs.length) ∧ (∀ cid ∈ b.nested, cid < f.colls.length)

end Verif.Segments
