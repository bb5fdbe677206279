import Verif.Boundaries.Checked
/-!
# C111: an example, and uses that are accepted although a letter is missing
-/
namespace Verif.Boundaries

open Verif.Permissions (Perms Place)
open Verif.Cfg (Loc)
open Verif.Facts.Spec

/-! ## `{ let r = &mut v; v.push(1); take(r) }` -/

/-- No two-phase borrows, and bases are the places themselves. -/
def strict (w : Whole) : Checker := ⟨fun _ _ => false, fun _ => false, fun _ _ => true, w.path⟩

theorem strict_based (w : Whole) : Based w (strict w) := ⟨fun _ _ h => h, fun _ _ h => h⟩

/-- The call is rejected, the other two uses are not; C111 speaks of all three. -/
example : Rejected demo (strict demo) .mutBorrow ⟨0, 1⟩ ⟨1, []⟩ ∧
    ¬ Rejected demo (strict demo) .mutBorrow ⟨0, 0⟩ ⟨1, []⟩ ∧ ¬ Rejected demo (strict demo) .move ⟨0, 2⟩ ⟨2, []⟩ ∧
    Plain demo (strict demo) .mutBorrow ⟨0, 1⟩ ⟨1, []⟩ ∧ demo.boundaries.map (·.isViolation) = [false, true, false] := by
  have hlive : ∀ loan path, LiveOverlap demo.facts loan path 0 → False := by
    rintro loan path ⟨h1, h2, _⟩
    have h2 : (loan, 0) ∈ [1, 2, 3, 4].map (fun p => ((0 : Nat), p)) := h2
    simp at h2
  have hpath : ∀ loan point, LiveOverlap demo.facts loan 2 point → False := by
    rintro loan point ⟨_, _, _, h⟩
    revert h
    show ((1 : Nat) == 2) = true → False
    decide
  refine ⟨.mutLent (loan := 0) ⟨by decide, by decide, by decide, by decide⟩ (.inl rfl), ?_, ?_, ?_, by decide +kernel⟩
  · intro h
    cases h with
    | moved _ h _ => obtain ⟨_, _, h, _⟩ := h; cases h
    | uninit _ h => obtain ⟨_, _, _, h, _⟩ := h; cases h
    | readLent h => rcases h with h | h | h <;> cases h
    | mutLent h _ => exact hlive _ _ h
    | notMutable _ h => cases h
  · intro h
    cases h with
    | moved _ h _ => obtain ⟨_, _, h, _⟩ := h; cases h
    | uninit _ h => obtain ⟨_, _, _, h, _⟩ := h; cases h
    | readLent h => rcases h with h | h | h <;> cases h
    | moveLent h => exact hpath _ _ h
    | notMutable h _ => rcases h with h | h <;> cases h
    | notOwned h => cases h
  · exact ⟨fun _ _ => rfl, fun _ => rfl, nofun, nofun, nofun, nofun⟩

/-! ## Where the borrow checker is more lenient -/

/-- A body with one use, at the location `⟨0, 1⟩`. -/
def oneUse (root : Expr) (stmt : Stmt) (path : Nat) (facts : Facts.Input) : Whole :=
  { demo with
    root := root
    src := ⟨fun n => ⟨10 * n, 10 * n + 5⟩, fun _ => none⟩
    hirToMir := [(4, [⟨0, 1⟩])]
    parents := fun _ => []
    stmtAt := fun l => if l = ⟨0, 1⟩ then stmt else .other
    path := fun _ => path
    facts := facts
    out := (Facts.derive 10 facts).getD emptyOut }

theorem oneUse_fits {root : Expr} {stmt : Stmt} {path : Nat} {facts : Facts.Input}
    (h : (Facts.derive 10 facts).isSome = true) : Fits (oneUse root stmt path facts) noFlows where
  derived := ⟨10, by
    show _ = some ((Facts.derive 10 facts).getD emptyOut)
    cases h' : Facts.derive 10 facts with
    | none => rw [h'] at h; cases h
    | some o => exact h'⟩
  flows := demo_fits.flows
  constraints := rfl
  inBody := by
    intro k ls h l hl
    simp only [oneUse, List.mem_singleton, Prod.mk.injEq] at h
    obtain ⟨_, rfl⟩ := h
    rw [List.mem_singleton.1 hl]
    exact Nat.zero_lt_one
  order := fun m => List.Perm.refl m

/-- The borrow checker accepts a use at which a letter is missing. -/
def Lenient (w : Whole) (k : Checker) (use : Use) (p : Place) : Prop :=
  Fits w noFlows ∧ Based w k ∧ (∃ node lhs ctx sp x, UseIn w.src w.root.node.id w.root node lhs use ctx sp ∧
    Requires use x ∧ w.find ⟨node, lhs, x⟩ = some (w.start ⟨0, 1⟩, p)) ∧
  ¬ Rejected w k use ⟨0, 1⟩ p ∧ ∃ b, w.boundaries = [b] ∧ b.isViolation = true

/-- **Disagreement.** `v.push(v.len())`: the loan of the push is pending when the length is asked for, so that the
program is accepted; the stack at the inner `v` says that it cannot be read. -/
theorem C111_two_phase : ∃ w k, Lenient w k .sharedBorrow ⟨1, []⟩ ∧ k.pending 0 ⟨0, 1⟩ = true := by
  refine ⟨oneUse (.methodCall ⟨3, none, false, false⟩ false (.var ⟨4, some false, false, false⟩) [])
      (.assign ⟨3, []⟩ [⟨1, []⟩]) 1 (demoFacts true [1, 2, 3, 4]),
    ⟨fun _ _ => true, fun _ => false, fun _ _ => true, fun _ => 1⟩,
    ⟨oneUse_fits (by decide +kernel), ⟨fun _ _ h => h, fun _ _ h => h⟩, ?_, ?_, ?_⟩, rfl⟩
  · exact ⟨.var ⟨4, some false, false, false⟩, false, 3, ⟨40, 45⟩, ⟨true, false, false⟩,
      .receiver (.inr ⟨rfl, rfl⟩) ⟨trivial, nofun⟩, C29_expected.2.1, by decide +kernel⟩
  · intro h
    cases h with
    | moved _ h _ => obtain ⟨_, _, h, _⟩ := h; cases h
    | uninit _ h => obtain ⟨_, _, _, h, _⟩ := h; cases h
    | readLent _ _ _ _ h => cases h
    | notMutable h _ => rcases h with h | h <;> cases h
  · exact ⟨⟨45, 45, ⟨true, false, false⟩, ⟨false, false, false⟩, none⟩, by decide +kernel, by decide⟩

/-- **Disagreement.** `let s = &v; v.push(s.len())`: the mutable borrow of `v` is made while `s` is of use, but activated
when it is no more, so that the program is accepted; the stack at `v` says that it cannot be written. -/
theorem C111_reserved : ∃ w k, Lenient w k .mutBorrow ⟨1, []⟩ ∧ w.facts.isMutLoan 0 = false := by
  refine ⟨oneUse (.methodCall ⟨3, none, false, false⟩ false (.var ⟨4, some true, false, false⟩) [])
      (.assign ⟨3, []⟩ [⟨1, []⟩]) 1 (demoFacts false [1, 2, 3, 4]),
    ⟨fun _ _ => false, fun _ => true, fun _ _ => true, fun _ => 1⟩,
    ⟨oneUse_fits (by decide +kernel), ⟨fun _ _ h => h, fun _ _ h => h⟩, ?_, ?_, ?_⟩, rfl⟩
  · exact ⟨.var ⟨4, some true, false, false⟩, false, 3, ⟨40, 45⟩, ⟨true, true, false⟩,
      .receiver (.inr ⟨rfl, rfl⟩) ⟨trivial, nofun⟩, C29_expected.2.2.1, by decide +kernel⟩
  · intro h
    cases h with
    | moved _ h _ => obtain ⟨_, _, h, _⟩ := h; cases h
    | uninit _ h => obtain ⟨_, _, _, h, _⟩ := h; cases h
    | readLent h => rcases h with h | h | h <;> cases h
    | mutLent _ h => rcases h with h | h <;> cases h
    | notMutable _ h => cases h
  · exact ⟨⟨45, 45, ⟨true, true, false⟩, ⟨true, false, false⟩, none⟩, by decide +kernel, by decide⟩

/-- **Disagreement.** `match v { _ => .. }` while `v` is mutably borrowed reads nothing and is accepted; the stack says
that `v` cannot be read. -/
theorem C111_match : ∃ w k, Lenient w k .inspect ⟨1, []⟩ ∧ w.stmtAt ⟨0, 1⟩ = .fakeRead ⟨1, []⟩ := by
  refine ⟨oneUse (.match_ ⟨3, none, false, false⟩ (.var ⟨4, none, false, false⟩) [])
      (.fakeRead ⟨1, []⟩) 1 (demoFacts true [1, 2, 3, 4]),
    ⟨fun _ _ => false, fun _ => false, fun _ _ => true, fun _ => 1⟩,
    ⟨oneUse_fits (by decide +kernel), ⟨fun _ _ h => h, fun _ _ h => h⟩, ?_, ?_, ?_⟩, rfl⟩
  · exact ⟨.var ⟨4, none, false, false⟩, false, 3, ⟨40, 45⟩, ⟨true, false, false⟩,
      .matched (.inr ⟨rfl, rfl⟩) ⟨trivial, nofun⟩, C29_expected.2.2.2.2.2.2.2, by decide +kernel⟩
  · intro h
    cases h with
    | moved _ h _ => obtain ⟨_, _, h, _⟩ := h; cases h
    | uninit _ h => obtain ⟨_, _, _, h, _⟩ := h; cases h
    | readLent _ h => exact h rfl
    | notMutable h _ => rcases h with h | h <;> cases h
  · exact ⟨⟨45, 45, ⟨true, false, false⟩, ⟨false, false, false⟩, none⟩, by decide +kernel, by decide⟩

/-- **Disagreement.** `let y = &mut **r; *r = other; use(y)`: what is lent is reached through `*r` and stays where it is,
so that the program is accepted; the stack at `*r` says that it can be neither read nor written. -/
theorem C111_behind : ∃ w k, Lenient w k .assign ⟨1, [.deref]⟩ ∧ k.shallow 0 ⟨1, [.deref]⟩ = false := by
  refine ⟨oneUse (.assign ⟨3, none, false, false⟩ (.deref ⟨4, none, false, false⟩ (.var ⟨5, none, false, false⟩)) (.lit ⟨6, none, false, false⟩))
      (.assign ⟨1, [.deref]⟩ [⟨2, []⟩]) 2 { demoFacts true [1, 2, 3, 4] with conflict := fun _ _ => true },
    ⟨fun _ _ => false, fun _ => false, fun _ _ => false, fun _ => 2⟩,
    ⟨oneUse_fits (by decide +kernel), ⟨fun _ _ h => h, fun _ _ h => h⟩, ?_, ?_, ?_⟩, rfl⟩
  · exact ⟨.deref ⟨4, none, false, false⟩ (.var ⟨5, none, false, false⟩), true, 3, ⟨40, 40⟩, ⟨true, true, false⟩,
      .through (.inr ⟨rfl, rfl⟩), C29_expected.1, by decide +kernel⟩
  · intro h
    cases h with
    | moved h => exact h rfl
    | uninit h => exact h rfl
    | baseMoved h => cases h
    | baseUninit _ h => cases h
    | readLent h => rcases h with h | h | h <;> cases h
    | assignLent _ h => cases h
    | notMutable _ h => cases h
  · exact ⟨⟨40, 40, ⟨true, true, false⟩, ⟨false, false, false⟩, none⟩, by decide +kernel, by decide⟩

/-- Facts in which `*x`, path 2, is moved at point 0; it is a part of `x`, path 1. -/
def boxFacts : Facts.Input :=
  { demoFacts false [] with moves := [(2, 0)], interior := fun n => if n = 1 then [1, 2] else [n], parents := fun n => if n = 2 then [1] else [] }

/-- **Disagreement.** `let y = *x; *x = other;` for a box `x`: the content is put back, which is accepted; the stack at
`*x` says that it can be neither read nor written. -/
theorem C111_box : ∃ w k, Lenient w k .assign ⟨1, [.deref]⟩ ∧ w.facts.loanLive = [] ∧ k.base ⟨1, [.deref]⟩ = 1 := by
  refine ⟨oneUse (.assign ⟨3, none, false, false⟩ (.deref ⟨4, none, false, false⟩ (.var ⟨5, none, false, false⟩)) (.lit ⟨6, none, false, false⟩))
      (.assign ⟨1, [.deref]⟩ [⟨2, []⟩]) 2 boxFacts,
    ⟨fun _ _ => false, fun _ => false, fun _ _ => true, fun _ => 1⟩,
    ⟨oneUse_fits (by decide +kernel), ⟨?_, fun _ _ h => by cases h⟩, ?_, ?_, ?_⟩, rfl, rfl⟩
  · intro _ path₀ h
    have h : 1 ∈ (if path₀ = 1 then [1, 2] else [path₀]) := h
    show 2 ∈ (if path₀ = 1 then [1, 2] else [path₀])
    split at h
    · rename_i h1
      rw [if_pos h1]
      decide
    · rename_i h1
      exact absurd (List.mem_singleton.1 h).symm h1
  · exact ⟨.deref ⟨4, none, false, false⟩ (.var ⟨5, none, false, false⟩), true, 3, ⟨40, 40⟩, ⟨true, true, false⟩,
      .through (.inr ⟨rfl, rfl⟩), C29_expected.1, by decide +kernel⟩
  · intro h
    cases h with
    | moved h => exact h rfl
    | uninit h => exact h rfl
    | @baseMoved _ _ mv path₀ source h1 h2 =>
      have h1 : [((2 : Nat), (0 : Nat))][mv]? = some (path₀, source) := h1
      have h2 : 1 ∈ (if path₀ = 1 then [1, 2] else [path₀]) := h2
      match mv with
      | 0 => cases h1; simp at h2
      | mv + 1 => cases h1
    | baseUninit _ h => cases h
    | readLent h => rcases h with h | h | h <;> cases h
    | assignLent h => obtain ⟨_, h, _⟩ := h; cases h
    | notMutable _ h => cases h
  · exact ⟨⟨40, 40, ⟨true, true, false⟩, ⟨false, false, false⟩, none⟩, by decide +kernel, by decide⟩

end Verif.Boundaries
