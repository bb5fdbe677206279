/-!
# Model of source ranges and highlighted regions

Models `crates/aquascope/src/analysis/mod.rs:142-219,322-567` and
`analysis/permissions/context.rs:442-496`.

A span is a pair of byte positions; a `CharRange` a pair of character positions.  Parameters: the span of
the HIR node of a MIR point (`location_to_hir_id`), the span of its source info, `as_local` (identity
except for code from macros), borrowck's live points.  `HashMap` iteration order is the order of the given
lists.
-/
namespace Verif.Ranges

/-- `Span` and `CharRange`. -/
structure Range where
  lo : Nat
  hi : Nat
  deriving DecidableEq, Repr

/-- `Span::is_empty`. -/
def Range.isEmpty (r : Range) : Bool := r.lo == r.hi

/-- `Span::is_dummy`. -/
def Range.isDummy (r : Range) : Bool := r.lo == 0 && r.hi == 0

/-- `Bounded::to` (mod.rs:164-166,183-189); `Span::to` of spans of one context. -/
def Range.to (a b : Range) : Range := ⟨min a.lo b.lo, max a.hi b.hi⟩

/-- `Span::overlaps`: strict. -/
def spanOverlaps (a b : Range) : Bool := decide (a.lo < b.hi) && decide (b.lo < a.hi)

/-- `Bounded for CharRange::overlaps` (mod.rs:179-181): inclusive. -/
def charOverlaps (a b : Range) : Bool := !(decide (a.hi < b.lo) || decide (b.hi < a.lo))

/-- One insertion of a stable sort by `lo`. -/
def insertByLo (x : Range) : List Range → List Range
  | [] => [x]
  | y :: r => if x.lo ≤ y.lo then x :: y :: r else y :: insertByLo x r

/-- `sort_by_key(|a| a.lo())`. -/
def sortByLo : List Range → List Range
  | [] => []
  | x :: r => insertByLo x (sortByLo r)

/-- The loop of `smooth_elements` (mod.rs:192-219). -/
def smoothLoop (overlaps : Range → Range → Bool) : Range → List Range → List Range
  | acc, [] => [acc]
  | acc, e :: r =>
    if overlaps acc e || acc.hi == e.lo then smoothLoop overlaps (acc.to e) r
    else acc :: smoothLoop overlaps e r

/-- `smooth_elements` (mod.rs:192-219). -/
def smooth (overlaps : Range → Range → Bool) (l : List Range) : List Range :=
  match sortByLo l with
  | [] => []
  | a :: r => smoothLoop overlaps a r

/-! ## Regions of borrows -/

/-- `expand` (context.rs:457-473) on the pair of the earliest and latest points; `src` is
`location_to_span` of the point. -/
def expand (src : Nat → Range) (acc : Nat × Nat) (p : Nat) : Nat × Nat :=
  (if (src p).lo < (src acc.1).lo then p else acc.1,
   if (src acc.2).hi < (src p).hi then p else acc.2)

/-- `construct_loan_regions` (context.rs:446-496) for one loan, given the points it is live at. -/
def loanRegion (src : Nat → Range) : List Nat → Option (Nat × Nat)
  | [] => none
  | p :: r => some (r.foldl (expand src) (expand src (p, p) p))

/-- `points_to_spans` (mod.rs:543-567); `hir` is the span of the HIR node of the point. -/
def pointsToSpans (hir : Nat → Range) (points : List Nat) : List Range :=
  (points.map hir).filter (fun s => !s.isEmpty && !s.isDummy)

/-- `key_to_spans` (mod.rs:485-540). -/
def keyToSpans (hir : Nat → Range) (asLocal : Range → Range) (points : List Nat) (minSpan maxSpan : Range) :
    List Range :=
  let spans := pointsToSpans hir points ++ [minSpan, maxSpan]
  smooth spanOverlaps ((spans.filter (fun s => decide (minSpan.lo ≤ s.lo) && decide (s.hi ≤ maxSpan.hi))).map
    asLocal)

/-- The body of `construct_loan_info` for one loan (mod.rs:337-399): `none` if the loan has no live point
or its own span is empty. -/
def loanRanges (src hir : Nat → Range) (asLocal : Range → Range) (loanSpan : Range) (points : List Nat) :
    Option (List Range) :=
  match loanRegion src points with
  | none => none
  | some (p0, pe) =>
    if loanSpan.isEmpty then none
    else
      let startSpan := if (src p0).lo < loanSpan.lo then loanSpan else src p0
      some (keyToSpans hir asLocal points startSpan (src pe))

/-! ## Moves -/

/-- `is_span_visible` (mod.rs:322-325). -/
def isSpanVisible (s : Range) : Bool := s.isDummy || s.isEmpty

/-- The move points of `construct_move_info` (mod.rs:425-436): keys and spans of the moves of the body. -/
def movePoints (moves : List (Nat × Range)) : List (Nat × Range) :=
  moves.filter (fun m => isSpanVisible m.2)

/-- The move regions (mod.rs:447-475): `refined` gives, for each move key that refines some place, the
points where it does; `operational` is `is_point_operational`. -/
def moveRegions (hir : Nat → Range) (operational : Nat → Bool) (moves : List (Nat × Range))
    (refined : List (Nat × List Nat)) : List (Nat × List Range) :=
  refined.filterMap fun (key, points) =>
    match (movePoints moves).find? (fun m => m.1 == key) with
    | none => none
    | some (_, s) =>
      some (key, smooth spanOverlaps
        ((pointsToSpans hir (points.filter operational)).filter (fun x => decide (s.lo ≤ x.lo))))

end Verif.Ranges
