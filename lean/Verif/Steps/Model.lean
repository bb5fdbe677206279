import Verif.Permissions.Model
/-!
# Model of permission steps and of the tables shown per line

Models `crates/aquascope/src/analysis/stepper/mod.rs:94-116,205-295` and
`prettify_permission_steps` of `stepper/table_builder.rs:204-374`.

Simplifications.
* Hash maps are association lists in their iteration order.  Input maps are lists in an arbitrary order, so
  every theorem holds for every hash order; the order of the resulting lines is the order of first insertion.
* Spans are byte ranges of one source file, given as the list of its bytes (written as characters).  `span_to_range` and `location_to_span` only relabel positions:
  the display keeps the byte position and the segment they are applied to.
* `place.to_string` only labels rows: rows keep the place.
* Whether a place is source visible is a parameter (rustc_utils).
* Logging is left out.
-/
namespace Verif.Steps

open Verif.Permissions

/-- `ValueStep` (mod.rs:94-104). -/
inductive Step (α : Type)
  | high (value : α)
  | low
  | none (value : Option α)
  deriving DecidableEq, Repr

/-- `ValueStep::is_symmetric_diff` (mod.rs:108-115). -/
def Step.isSymmetric : Step α → Step α → Bool
  | .high _, .low => true
  | .low, .high _ => true
  | .none _, .none _ => true
  | _, _ => false

/-- `ValueStep::is_empty` (mod.rs:218-222). -/
def Step.isEmpty : Step α → Bool
  | .none _ => true
  | _ => false

/-- `Difference for bool` (mod.rs:205-216). -/
def diffBool (self rhs : Bool) : Step Bool :=
  if self && !rhs then .low
  else if !self && rhs then .high true
  else .none (some self)

/-- `Difference for Option` (mod.rs:224-242). -/
def diffOption (self rhs : Option α) : Step α :=
  match self, rhs with
  | .none, .none => .none .none
  | .some _, .none => .low
  | .none, .some value => .high value
  | .some _, .some v1 => .none (.some v1)

/-- `PermissionsDiff` (mod.rs:136-155). -/
structure PermsDiff where
  read : Step Bool
  write : Step Bool
  drop : Step Bool
  deriving DecidableEq, Repr

def PermsDiff.isEmpty (d : PermsDiff) : Bool := d.read.isEmpty && d.write.isEmpty && d.drop.isEmpty

/-- `PermissionsDataDiff` (mod.rs:163-175). -/
structure DataDiff where
  isLive : Step Bool
  typeDroppable : Step Bool
  typeWriteable : Step Bool
  pathMoved : Step Nat
  pathUninitialized : Step Bool
  loanReadRefined : Step Nat
  loanWriteRefined : Step Nat
  loanDropRefined : Step Nat
  permissions : PermsDiff
  deriving DecidableEq, Repr

/-- `PermissionsDataDiff::is_empty` (mod.rs:191-193). -/
def DataDiff.isEmpty (d : DataDiff) : Bool := d.permissions.isEmpty

/-- `PermissionsDataDiff::is_symmetric_diff` (mod.rs:195-202). -/
def DataDiff.isSymmetric (a b : DataDiff) : Bool :=
  a.permissions.read.isSymmetric b.permissions.read &&
    a.permissions.write.isSymmetric b.permissions.write &&
    a.permissions.drop.isSymmetric b.permissions.drop

/-- `Difference for Permissions` (mod.rs:244-254). -/
def diffPerms (a b : Perms) : PermsDiff :=
  { read := diffBool a.read b.read, write := diffBool a.write b.write, drop := diffBool a.drop b.drop }

/-- `Difference for PermissionsData` (mod.rs:256-272). -/
def diffData (a b : Data) : DataDiff :=
  { isLive := diffBool a.isLive b.isLive
    typeDroppable := diffBool a.typeDroppable b.typeDroppable
    typeWriteable := diffBool a.typeWriteable b.typeWriteable
    loanReadRefined := diffOption a.loanReadRefined b.loanReadRefined
    loanWriteRefined := diffOption a.loanWriteRefined b.loanWriteRefined
    loanDropRefined := diffOption a.loanDropRefined b.loanDropRefined
    pathMoved := diffOption a.pathMoved b.pathMoved
    pathUninitialized := diffBool a.pathUninitialized b.pathUninitialized
    permissions := diffPerms a.permissions b.permissions }

/-- `Difference for PermissionsDomain` (mod.rs:274-295); `none`: the `unwrap` of a missing place. -/
def diffDomain [DecidableEq P] (self rhs : Domain P) : Option (List (P × DataDiff)) :=
  match self with
  | [] => some []
  | (place, p1) :: rest =>
    match rhs.get place with
    | Option.none => Option.none
    | some p2 => (diffDomain rest rhs).map ((place, diffData p1 p2) :: ·)

/-- The step at the opening brace (`first_diff` in `finalize_body`, table_builder.rs:47-67): from the bottom
domain, which has an entry for each place, to the state at the first location. -/
def entryStep [DecidableEq P] (places : List P) (first : Domain P) : Option (List (P × DataDiff)) :=
  diffDomain (places.map fun p => (p, bottomData)) first

/-! ## Lines -/

/-- `span_extend_to_line(..).shrink_to_hi()` (table_builder.rs:249): the position of the first newline at or
after the end of the span, or the end of the file. -/
def lineEnd (src : List Char) (hi : Nat) : Nat := hi + ((src.drop hi).takeWhile (· != '\n')).length

/-- `lookup_line(..).line` (table_builder.rs:268): the number of newlines before the position. -/
def lineOf (src : List Char) (pos : Nat) : Nat := (src.take pos).count '\n'

/-! ## Tables -/

/-- `PermIncludeMode` (mod.rs:29-34). -/
inductive Mode
  | changes
  | all
  deriving DecidableEq, Repr

/-- `Table` (table_builder.rs:14-20); of the span only the end is used, the segment is a number. -/
structure Table where
  hi : Nat
  segment : Nat
  data : List (Place × DataDiff)
  deriving DecidableEq, Repr

/-- `should_keep` (table_builder.rs:213-216). -/
def shouldKeep (mode : Mode) (d : DataDiff) : Bool :=
  !(decide (d.isLive = .none (some false)) || (decide (mode = .changes) && d.isEmpty))

/-- The rows of a table that are kept (table_builder.rs:252-257). -/
def keptRows (visible : Place → Bool) (mode : Mode) (t : Table) : List (Place × DataDiff) :=
  t.data.filter (fun e => visible e.1 && shouldKeep mode e.2)

/-- One entry of a line: segment, position of the line's end, rows. -/
structure Entry where
  segment : Nat
  pos : Nat
  rows : List (Place × DataDiff)
  deriving DecidableEq, Repr

/-- `semi_filtered.entry(line).or_default().push(..)` (table_builder.rs:271-274). -/
def pushLine (m : List (Nat × List Entry)) (line : Nat) (e : Entry) : List (Nat × List Entry) :=
  match m with
  | [] => [(line, [e])]
  | (k, v) :: r => if k = line then (k, v ++ [e]) :: r else (k, v) :: pushLine r line e

/-- One round of the loop (table_builder.rs:242-280). -/
def addTable (src : List Char) (err : Option Nat) (visible : Place → Bool) (mode : Mode)
    (m : List (Nat × List Entry)) (t : Table) : List (Nat × List Entry) :=
  let pos := lineEnd src t.hi
  let rows := keptRows visible mode t
  if !(rows.isEmpty || err.any (fun e => decide (e < pos))) then
    pushLine m (lineOf src pos) ⟨t.segment, pos, rows⟩
  else m

/-- `semi_filtered` (table_builder.rs:231-281). -/
def semiFiltered (src : List Char) (err : Option Nat) (visible : Place → Bool) (mode : Mode)
    (tables : List Table) : List (Nat × List Entry) :=
  tables.foldl (addTable src err visible mode) []

/-- The body of the inner loop on `combined_table` (table_builder.rs:325-345). -/
def combineRow (m : List (Place × DataDiff)) (place : Place) (diff : DataDiff) : List (Place × DataDiff) :=
  match m.find? (fun e => decide (e.1 = place)) with
  | Option.none => m ++ [(place, diff)]
  | some old => if diff.isSymmetric old.2 then m.filter (fun e => !decide (e.1 = place)) else m

def combineEntry (m : List (Place × DataDiff)) (e : Entry) : List (Place × DataDiff) :=
  e.rows.foldl (fun m r => combineRow m r.1 r.2) m

/-- `combined_table` (table_builder.rs:315-346). -/
def combine (entries : List Entry) : List (Place × DataDiff) := entries.foldl combineEntry []

/-- The sort key (table_builder.rs:357-358). -/
def rowLe (a b : Place × DataDiff) : Bool :=
  decide (a.1.local_ < b.1.local_) ||
    (decide (a.1.local_ = b.1.local_) && decide (a.1.projection.length ≤ b.1.projection.length))

def insertRow (x : Place × DataDiff) : List (Place × DataDiff) → List (Place × DataDiff)
  | [] => [x]
  | y :: r => if rowLe x y then x :: y :: r else y :: insertRow x r

/-- `sort_by_key`: a stable sort. -/
def sortRows : List (Place × DataDiff) → List (Place × DataDiff)
  | [] => []
  | x :: r => insertRow x (sortRows r)

/-- `PermissionsLineDisplay` with its only table (mod.rs:52-67). -/
structure Display where
  pos : Nat
  segment : Nat
  state : List (Place × DataDiff)
  deriving DecidableEq, Repr

/-- The closure of `filter_map` (table_builder.rs:301-372). -/
def display (entries : List Entry) : Option Display :=
  let (pos, segment) :=
    match entries.head? with
    | Option.none => (0, 0)
    | some e => (e.pos, e.segment)
  let combined := combine entries
  if combined.isEmpty then Option.none else some ⟨pos, segment, sortRows combined⟩

/-- `prettify_permission_steps` (table_builder.rs:204-374). -/
def prettify (src : List Char) (err : Option Nat) (visible : Place → Bool) (mode : Mode)
    (tables : List Table) : List Display :=
  (semiFiltered src err visible mode tables).filterMap (fun l => display l.2)

end Verif.Steps
