import Verif.Boundaries.WholeExamples
/-!
# C111: letters are missing where the borrow checker objects

The borrow checker of rustc is not in the repository.  Its rules for one use of a place are stated here as `Rejected`,
from memory of `rustc_borrowck` (`check_access_for_conflict`, `check_if_path_or_subpath_is_moved`,
`check_if_assigned_path_is_moved`, `check_access_permissions`); which loans are live is taken from the same facts that
the tool uses.
-/
namespace Verif.Boundaries

open Verif.Permissions (Perms Place)
open Verif.Cfg (Loc)
open Verif.Facts.Spec

/-- What the borrow checker knows besides the facts. -/
structure Checker where
  /-- the loan is a two-phase one and is not activated yet at the location -/
  pending : Nat → Loc → Bool
  /-- the borrow at the location is a two-phase one -/
  twoPhase : Loc → Bool
  /-- what is borrowed overlaps the place itself, and is not only reached through it -/
  shallow : Nat → Place → Bool
  /-- the path that has to be initialised to assign the place: for `*x` that of `x` -/
  base : Place → Nat

/-- The borrow checker rejects the use of the place at the location. -/
inductive Rejected (w : Whole) (k : Checker) : Use → Loc → Place → Prop
  /-- use of a moved value -/
  | moved {u l p mv} : u ≠ .assign → Touches w.facts mv (w.path p) → Reaches w.facts mv (w.start l) → Rejected w k u l p
  /-- use of a value that may not be there -/
  | uninit {u l p} : u ≠ .assign → MaybeUninit w.facts (w.path p) (w.start l) → Rejected w k u l p
  /-- assignment through a pointer that was moved -/
  | baseMoved {l p mv path₀ source} : w.facts.moves[mv]? = some (path₀, source) → k.base p ∈ w.facts.interior path₀ →
      Reaches w.facts mv (w.start l) → Rejected w k .assign l p
  /-- assignment through a pointer that may not be there -/
  | baseUninit {l p pred} : (pred, w.start l) ∈ w.facts.cfgEdge → (pred, k.base p) ∈ w.facts.uninitExit →
      Rejected w k .assign l p
  /-- reading while mutably borrowed, unless the loan is pending or nothing is really read -/
  | readLent {u l p loan} : u = .copy ∨ u = .sharedBorrow ∨ u = .inspect → w.stmtAt l ≠ .fakeRead p →
      LiveOverlap w.facts loan (w.path p) (w.start l) → w.facts.isMutLoan loan = true → k.pending loan l = false →
      Rejected w k u l p
  /-- moving while borrowed -/
  | moveLent {l p loan} : LiveOverlap w.facts loan (w.path p) (w.start l) → Rejected w k .move l p
  /-- borrowing mutably while borrowed; a two-phase borrow may be made beside shared ones -/
  | mutLent {l p loan} : LiveOverlap w.facts loan (w.path p) (w.start l) →
      w.facts.isMutLoan loan = true ∨ k.twoPhase l = false → Rejected w k .mutBorrow l p
  /-- assigning while borrowed, unless what is borrowed is only reached through the place -/
  | assignLent {l p loan} : LiveOverlap w.facts loan (w.path p) (w.start l) → k.shallow loan p = true →
      Rejected w k .assign l p
  /-- writing what is not mutable -/
  | notMutable {u l p} : u.needsWrite → w.facts.writeEnabled (w.path p) = false → Rejected w k u l p
  /-- moving what is not owned -/
  | notOwned {l p} : w.facts.dropEnabled (w.path p) = false → Rejected w k .move l p

/-- The base of a place is a whole that the place is a part of. -/
structure Based (w : Whole) (k : Checker) : Prop where
  interior : ∀ p path₀, k.base p ∈ w.facts.interior path₀ → w.path p ∈ w.facts.interior path₀
  uninit : ∀ p q, (q, k.base p) ∈ w.facts.uninitExit → (q, w.path p) ∈ w.facts.uninitExit

/-- None of the cases in which the borrow checker is more lenient: loans that are pending, two-phase borrows, matches
that read nothing, and assignments to places that were moved themselves or through which something is lent. -/
structure Plain (w : Whole) (k : Checker) (u : Use) (l : Loc) (p : Place) : Prop where
  pending : ∀ loan, LiveOverlap w.facts loan (w.path p) (w.start l) → k.pending loan l = false
  twoPhase : u = .mutBorrow → k.twoPhase l = false
  read : w.stmtAt l ≠ .fakeRead p
  shallow : u = .assign → ∀ loan, LiveOverlap w.facts loan (w.path p) (w.start l) → k.shallow loan p = true
  moved : u = .assign → ∀ mv, Touches w.facts mv (w.path p) → Reaches w.facts mv (w.start l) →
    ∃ path₀ source, w.facts.moves[mv]? = some (path₀, source) ∧ k.base p ∈ w.facts.interior path₀
  uninit : u = .assign → MaybeUninit w.facts (w.path p) (w.start l) →
    ∃ pred, (pred, w.start l) ∈ w.facts.cfgEdge ∧ (pred, k.base p) ∈ w.facts.uninitExit

/-- A letter other than that of flows is drawn as missing. -/
def Marked (icons : List (Frontend.Letter × Bool)) : Prop :=
  (Frontend.Letter.R, true) ∈ icons ∨ (Frontend.Letter.W, true) ∈ icons ∨ (Frontend.Letter.O, true) ∈ icons

section

variable {w : Whole} {i : Flow.Input} {k : Checker} {use : Use} {ctx id : Nat} {l : Loc} {p : Place}
  {icons : List (Frontend.Letter × Bool)}

theorem marked_iff (h : Tells w i use ctx id (w.start l) p icons) :
    Marked icons ↔ CannotRead w (w.start l) p ∨
      (use.needsWrite ∧ (w.facts.writeEnabled (w.path p) = false ∨ Borrowed w (w.start l) p)) ∨
      (use.needsOwn ∧ (w.facts.dropEnabled (w.path p) = false ∨ Borrowed w (w.start l) p)) := by
  unfold Marked
  rw [h.read, h.write, h.own]
  simp only [true_iff]
  grind

/-- **C111 (one use, objections are shown).** If the borrow checker rejects a use, a letter is missing in its stack. -/
theorem C111_shown (hb : Based w k) (h : Tells w i use ctx id (w.start l) p icons) (hr : Rejected w k use l p) :
    Marked icons := by
  rw [marked_iff h]
  cases hr with
  | moved _ h1 h2 => exact .inl (.inl ⟨_, h1, h2⟩)
  | uninit _ h1 => exact .inl (.inr (.inl h1))
  | baseMoved h1 h2 h3 => exact .inl (.inl ⟨_, ⟨_, _, h1, .inl (hb.interior _ _ h2)⟩, h3⟩)
  | baseUninit h1 h2 => exact .inl (.inr (.inl ⟨_, _, h1, hb.uninit _ _ h2, .self⟩))
  | readLent _ _ h1 h2 _ => exact .inl (.inr (.inr ⟨_, h1, h2⟩))
  | moveLent h1 => exact .inr (.inr ⟨rfl, .inr ⟨_, h1⟩⟩)
  | mutLent h1 _ => exact .inr (.inl ⟨.inr rfl, .inr ⟨_, h1⟩⟩)
  | assignLent h1 _ => exact .inr (.inl ⟨.inl rfl, .inr ⟨_, h1⟩⟩)
  | notMutable h1 h2 => exact .inr (.inl ⟨h1, .inl h2⟩)
  | notOwned h1 => exact .inr (.inr ⟨rfl, .inl h1⟩)

/-- **C111 (one use, what is shown is an objection).** Apart from the cases in which the borrow checker is more lenient,
a letter is missing in a stack only if the borrow checker rejects the use. -/
theorem C111_objection_partial (hp : Plain w k use l p) (h : Tells w i use ctx id (w.start l) p icons)
    (hm : Marked icons) : Rejected w k use l p := by
  rw [marked_iff h] at hm
  rcases hm with (⟨mv, h1, h2⟩ | h1 | ⟨loan, h1, h2⟩) | ⟨h1, h2 | ⟨loan, h2⟩⟩ | ⟨h1, h2 | ⟨loan, h2⟩⟩
  · by_cases hu : use = .assign
    · obtain ⟨path₀, source, h3, h4⟩ := hp.moved hu mv h1 h2
      subst hu
      exact .baseMoved h3 h4 h2
    · exact .moved hu h1 h2
  · by_cases hu : use = .assign
    · obtain ⟨pred, h3, h4⟩ := hp.uninit hu h1
      subst hu
      exact .baseUninit h3 h4
    · exact .uninit hu h1
  · cases use with
    | assign => exact .assignLent h1 (hp.shallow rfl _ h1)
    | sharedBorrow => exact .readLent (.inr (.inl rfl)) hp.read h1 h2 (hp.pending _ h1)
    | mutBorrow => exact .mutLent h1 (.inl h2)
    | move => exact .moveLent h1
    | copy => exact .readLent (.inl rfl) hp.read h1 h2 (hp.pending _ h1)
    | inspect => exact .readLent (.inr (.inr rfl)) hp.read h1 h2 (hp.pending _ h1)
  · exact .notMutable h1 h2
  · rcases h1 with rfl | rfl
    · exact .assignLent h2 (hp.shallow rfl _ h2)
    · exact .mutLent h2 (.inr (hp.twoPhase rfl))
  · obtain rfl : use = .move := h1
    exact .notOwned h2
  · obtain rfl : use = .move := h1
    exact .moveLent h2

/-- **C111 (rejected programs).** If the borrow checker rejects a use written in the source, at the place and location
found for it and not after the first error, a boundary is reported at its end with a letter missing. -/
theorem C111_rejected (hw : Fits w i) (hb : Based w k) (pos : Nat → Frontend.Pos) {node : Expr} {lhs : Bool} {sp : Span}
    {x : Perms} (h1 : UseIn w.src w.root.node.id w.root node lhs use ctx sp) (h2 : Requires use x)
    (hf : w.find ⟨node, lhs, x⟩ = some (w.start l, p))
    (he : ∀ e, w.firstError = some e → ((w.asLocal sp).getD sp).hi ≤ e)
    (hr : Rejected w k use l p) :
    ∃ b ∈ w.boundaries, b.location = ((w.asLocal sp).getD sp).hi ∧ Marked (Frontend.bndIcons (b.sent pos)) := by
  obtain ⟨b, h3, h4, h5⟩ := C98_reported hw pos h1 h2 hf fun e h => .inl (he e h)
  exact ⟨b, h3, h4, C111_shown hb h5 hr⟩

/-- **C111 (accepted programs).** If the borrow checker rejects no use of the body, and none of the uses is one of the
cases in which it is more lenient, then no letter is missing at any boundary, up to those of flows. -/
theorem C111_accepted_partial (hw : Fits w i) (pos : Nat → Frontend.Pos)
    (hp : ∀ node lhs use ctx sp x l p, UseIn w.src w.root.node.id w.root node lhs use ctx sp → Requires use x →
      w.find ⟨node, lhs, x⟩ = some (w.start l, p) → Plain w k use l p ∧ ¬ Rejected w k use l p)
    {b : Boundary} (hb : b ∈ w.boundaries) : ¬ Marked (Frontend.bndIcons (b.sent pos)) := by
  obtain ⟨node, lhs, use, ctx, sp, x, pt, p, h1, h2, h3, _, h5, _⟩ := C98_boundaries hw pos hb
  obtain ⟨_, _, l, rfl, _⟩ := C98_found hw h3
  obtain ⟨h7, h8⟩ := hp node lhs use ctx sp x l p h1 h2 h3
  exact fun hm => h8 (C111_objection_partial h7 h5 hm)

end

end Verif.Boundaries
