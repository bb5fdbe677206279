import Verif.HirSteps.Fork
import Verif.Segments.Join
import Verif.HirSteps.Examples
/-!
# C82–C86, C88: what becomes of a body, with examples and counterexamples
-/
namespace Verif.HirSteps

open Verif.Cfg Verif.Segments Verif.Graph

theorem steps_of_segs {o : Outcome} {l : List (Loc × Loc × Nat)} (h : outcomeSegs o = some l) :
    ∃ f locals, o = .steps f locals ∧ f.segs.map (fun g => (g.from, g.to, g.span)) = l := by
  cases o <;> simp [outcomeSegs] at h
  exact ⟨_, _, rfl, h⟩

/-- A body is given steps if and only if it can be walked through without panic and without internal error, it has
no guard that matters, and no branch was opened that no conditional closes. -/
theorem C85_compute (b : Body) (fuel : Nat) (order : List (Loc × Nat) → List (Loc × Nat)) (value : Expr) :
    (∃ f locals, compute (.ofBody b fuel order) value = .steps f locals) ↔
      ∃ v, visitBody (.ofBody b fuel order) value V.make = .ok v ∧ v.unsupported = 0 ∧ v.fatal = [] ∧
        v.st.branches.length = v.calls.countP Call.isClose := by
  constructor
  · rintro ⟨f, locals, h⟩
    obtain ⟨v, h1, h2, h3, h4, _⟩ := compute_steps h
    exact ⟨v, h1, h2, h3, (C85_finished rfl (mapper_proper b) value h1).1 ⟨f, h4⟩⟩
  · rintro ⟨v, h1, h2, h3, h4⟩
    obtain ⟨f, hf⟩ := (C85_finished rfl (mapper_proper b) value h1).2 h4
    refine ⟨f, v.locals, ?_⟩
    unfold compute
    rw [h1]
    dsimp only
    rw [if_neg (by simp [h2]), if_neg (by simp [h3]), hf]

/-- With neither guards nor internal errors, a body without steps has an open branch left (or the builder
panicked). -/
theorem C85_not_finished (b : Body) (fuel : Nat) (order : List (Loc × Nat) → List (Loc × Nat)) (value : Expr) :
    compute (.ofBody b fuel order) value = .notFinished ↔
      ∃ v, visitBody (.ofBody b fuel order) value V.make = .ok v ∧ v.unsupported = 0 ∧ v.fatal = [] ∧
        v.st.branches.length ≠ v.calls.countP Call.isClose := by
  constructor
  · intro h
    unfold compute at h
    cases hv : visitBody (.ofBody b fuel order) value V.make with
    | error e => rw [hv] at h; exact absurd h (by simp)
    | ok v =>
      rw [hv] at h
      dsimp only at h
      split at h
      · exact absurd h (by simp)
      · split at h
        · exact absurd h (by simp)
        · rename_i h1 h2
          refine ⟨v, rfl, by simpa using h1, by simpa using h2, fun hc => ?_⟩
          obtain ⟨f, hf⟩ := (C85_finished rfl (mapper_proper b) value hv).2 hc
          rw [hf] at h
          exact absurd h (by simp)
  · rintro ⟨v, h1, h2, h3, h4⟩
    unfold compute
    rw [h1]
    dsimp only
    rw [if_neg (by simp [h2]), if_neg (by simp [h3])]
    cases hf : v.st.freeze with
    | error e => rfl
    | ok f => exact absurd ((C85_finished rfl (mapper_proper b) value h1).1 ⟨f, hf⟩) h4

/-- A body with a `let … else` inside a conditional, and one with a block as the second operand of `&&` inside a
conditional, are given no steps. -/
theorem C85_left_open : compute (plainEnv letElseBody) letElseFn = .notFinished ∧
    compute (plainEnv andBody) andFn = .notFinished := ⟨letElse_open, and_open⟩

/-- The body `if c { return; } s` is given steps, but none for `s`: its step, at the span 70, is due and missing. -/
theorem C84_lost : ∃ f locals, compute (plainEnv earlyBody) earlyFn = .steps f locals ∧
    Due.step ⟨2, 1⟩ 70 ∈ dueBody earlyBody.mapper.isSwitch earlyBody.locationSuccessor earlyFn ∧
    ∀ g ∈ f.segs, g.span ≠ 70 := by
  obtain ⟨f, locals, h, hs⟩ := steps_of_segs early_segs
  refine ⟨f, locals, h, by decide +kernel, ?_⟩
  intro g hg hsp
  have : (g.from, g.to, g.span) ∈ f.segs.map (fun g => (g.from, g.to, g.span)) := List.mem_map_of_mem hg
  rw [hs, hsp] at this
  simp at this

/-- The body `if c { return; } if d { a; } b` is refused with an internal error. -/
theorem C84_later : compute (plainEnv laterBody) laterFn = .internal [.openBranch] := later_fatal

theorem valid_early : Valid earlyBody := valid_of (by decide) (by decide)
theorem valid_plain : Valid plainBody := valid_of (by decide) (by decide)

example : Forks earlyBody.mapper.isSwitch earlyBody.locationSuccessor
    (.ite (nd (some ⟨0, 0⟩) none 3) (leaf 0 0 0 4) (blockOf (some ⟨1, 0⟩) (some ⟨1, 0⟩) 5 [stm 1 0 0 6] none) none)
      ⟨0, 1⟩ := by
  change _ = _
  decide +kernel
example : leastPostDominator earlyBody (switchOf earlyBody.mapper ⟨0, 1⟩) = some 3 := by decide +kernel

/-- C83, C88: an `if` between two statements, with all that is due. -/
example : dueBody plainBody.mapper.isSwitch plainBody.locationSuccessor plainFn =
    [.step ⟨0, 1⟩ 40, .fork ⟨0, 1⟩, .step ⟨1, 1⟩ 60, .step ⟨2, 1⟩ 20, .step ⟨3, 1⟩ 70, .step ⟨4, 0⟩ 10] := by
  decide +kernel

example : ∃ f locals, compute (plainEnv plainBody) plainFn = .steps f locals ∧
    ∃ g ∈ f.segs, g.to = ⟨0, 1⟩ ∧ g.span = 40 := by
  obtain ⟨f, locals, h, _⟩ := steps_of_segs plain_segs
  exact ⟨f, locals, h, C83_recorded valid_plain h (d1 := [])
    (d2 := [.step ⟨1, 1⟩ 60, .step ⟨2, 1⟩ 20, .step ⟨3, 1⟩ 70, .step ⟨4, 0⟩ 10]) (by decide +kernel)⟩

/-- C86: a guard. -/
example : compute (plainEnv plainBody) guardFn = .unsupported ∧
    Due.guard ∈ dueBody plainBody.mapper.isSwitch plainBody.locationSuccessor guardFn :=
  ⟨guard_unsupported, (C86_unsupported (plainEnv plainBody) guardFn).1 guard_unsupported⟩

/-- C82: the calls of a walk, and the numbers of the scopes. -/
example : ∃ v, visitBody (plainEnv plainBody) plainFn V.make = .ok v ∧ v.st.nextScope = 6 ∧ Nested 1 v.calls 6 ∧
    v.calls.length = 17 := by
  have h : (match visitBody (plainEnv plainBody) plainFn V.make with
      | .ok v => v.st.nextScope == 6 && v.calls.length == 17
      | .error _ => false) = true := by
    unfold plainFn plainIf
    unfold_visit
    decide +kernel
  cases hv : visitBody (plainEnv plainBody) plainFn V.make with
  | error e => rw [hv] at h; exact absurd h (by simp)
  | ok v =>
    rw [hv] at h
    simp only [Bool.and_eq_true, beq_iff_eq] at h
    have := (C82_scopes _ _ hv).1
    rw [h.1] at this
    exact ⟨v, rfl, h.1, this, h.2⟩

end Verif.HirSteps
