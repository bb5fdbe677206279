import Verif.Ranges.Props
/-!
# The points at which a move can be seen

Model of `is_location_operational` and `is_point_operational` (crates/aquascope/src/analysis/permissions/context.rs:173-196), which
was a parameter of `moveRegions`.

Simplifications.
* Of a statement it matters whether it is an assignment; of a terminator, whether it is `Unreachable`.
* `stmt_at` (rustc) gives the terminator for every index that is not one of a statement.
* Which location a point is of (`point_to_location`) is a parameter.
-/
namespace Verif.Ranges

/-- A basic block. -/
structure Blk where
  cleanup : Bool
  /-- for each statement, whether it is an assignment -/
  assigns : List Bool
  /-- the terminator is `Unreachable` -/
  unreachable : Bool
  deriving DecidableEq, Repr

/-- `is_empty_unreachable` of rustc: the terminator alone, and it is `Unreachable`. -/
def Blk.emptyUnreachable (b : Blk) : Bool := b.assigns.isEmpty && b.unreachable

/-- `is_location_operational` (context.rs:173-191); `none`: the block does not exist, which is a panic. -/
def operationalAt (body : List Blk) (loc : Nat × Nat) : Option Bool :=
  match body[loc.1]? with
  | none => none
  | some b => some (!b.cleanup && !b.emptyUnreachable &&
      match b.assigns[loc.2]? with
      | some assign => assign
      | none => true)

/-- `is_point_operational` (context.rs:193-196). -/
def operational (body : List Blk) (location : Nat → Nat × Nat) (p : Nat) : Bool :=
  (operationalAt body (location p)).getD false

/-! ## Specification -/

/-- Something is done at a location: it is an assignment or the end of a block, the block is not one of those that clean up after a
panic, and it is not one that only says that it is never reached. -/
def Does (body : List Blk) (loc : Nat × Nat) : Prop :=
  ∃ b, body[loc.1]? = some b ∧ b.cleanup = false ∧ (b.assigns ≠ [] ∨ b.unreachable = false) ∧
    (b.assigns[loc.2]? = some true ∨ b.assigns.length ≤ loc.2)

theorem operational_iff (body : List Blk) (location : Nat → Nat × Nat) (p : Nat) :
    operational body location p = true ↔ Does body (location p) := by
  unfold operational operationalAt Does
  generalize location p = loc
  cases hb : body[loc.1]? with
  | none => simp
  | some b =>
    simp only [Option.getD_some, Option.some.injEq, exists_eq_left', Bool.and_eq_true, Bool.not_eq_eq_eq_not, Bool.not_true,
      Blk.emptyUnreachable, Bool.and_eq_false_iff, and_assoc]
    refine and_congr_right fun _ => and_congr ?_ ?_
    · rw [← Bool.not_eq_true, List.isEmpty_iff]
    · cases ha : b.assigns[loc.2]? with
      | none =>
        rw [List.getElem?_eq_none_iff] at ha
        simp [ha]
      | some a =>
        have := (List.getElem?_eq_some_iff.1 ha).1
        simp only [Option.some.injEq]
        constructor
        · exact .inl
        · rintro (h | h)
          · exact h
          · omega

/-- **C36 (what is done).** A region of a move covers exactly the source of the points at which the move takes permissions away and
something is done, of these the ones that do not start before the move. -/
theorem C36_operational (hir : Nat → Range) (body : List Blk) (location : Nat → Nat × Nat) (moves : List (Nat × Range))
    (refined : List (Nat × List Nat)) (hhir : ∀ p, (hir p).Valid) (e : Nat × List Range)
    (he : e ∈ moveRegions hir (operational body location) moves refined) :
    ∃ points s, (e.1, points) ∈ refined ∧ (e.1, s) ∈ moves ∧ Apart e.2 ∧
      ∀ x, CoversChar e.2 x ↔ ∃ p ∈ points, Does body (location p) ∧ (hir p).HasChar x ∧ s.lo ≤ (hir p).lo := by
  obtain ⟨points, s, h1, h2, h3, h4⟩ := C36_regions hir _ moves refined hhir e he
  refine ⟨points, s, h1, h2, h3, fun x => (h4 x).trans ?_⟩
  simp only [operational_iff]

/-- A block with a `StorageLive` and an assignment, a block that cleans up, one that is never reached. -/
def Example.blocks : List Blk := [⟨false, [false, true], false⟩, ⟨true, [true], false⟩, ⟨false, [], true⟩, ⟨false, [], false⟩]

#guard [(0, 0), (0, 1), (0, 2), (1, 0), (1, 1), (2, 0), (3, 0), (4, 0)].map (operationalAt Example.blocks) =
  [some false, some true, some true, some false, some false, some false, some true, none]

example : Does Example.blocks (0, 1) ∧ ¬ Does Example.blocks (0, 0) := by
  constructor
  · rw [← operational_iff Example.blocks (fun _ => (0, 1)) 0]; decide
  · rw [← operational_iff Example.blocks (fun _ => (0, 0)) 0]; decide

end Verif.Ranges
