import Verif.Permissions.Model
/-!
# Model of the permission facts

Models `crates/aquascope/src/analysis/permissions/output.rs:175-491` (`derive_permission_facts`) and
`permissions/context.rs:211-219,342-395` (`is_path_live_at`, `permissions_data_at_point`).

rustc's and Polonius' facts are inputs: lists in any order.  Points, paths, moves and loans are numbers
(indices).  `places_conflict`, `interior_paths` and the move-path tree are parameters.
The part of the datafrog library that is used (sorted relations, joins, semi-naive iteration) is
modelled too, since the result depends on it (from memory of the library; its source is not in this sandbox).
-/
namespace Verif.Facts
open Permissions (Data)

/-! ## Datafrog -/

/-- Order of triples: `derive(Ord)` on tuples. -/
def le3 (x y : Nat × Nat × Nat) : Bool :=
  decide (x.1 < y.1) || (decide (x.1 = y.1) &&
    (decide (x.2.1 < y.2.1) || (decide (x.2.1 = y.2.1) && decide (x.2.2 ≤ y.2.2))))

/-- Order of pairs. -/
def le2 (x y : Nat × Nat) : Bool :=
  decide (x.1 < y.1) || (decide (x.1 = y.1) && decide (x.2 ≤ y.2))

/-- `Vec::dedup`. -/
def dedup [DecidableEq α] : List α → List α
  | [] => []
  | [x] => [x]
  | x :: y :: r => if x = y then dedup (y :: r) else x :: dedup (y :: r)

/-- `Vec::sort`; the algorithm does not matter for a total order. -/
def insertSorted (le : α → α → Bool) (x : α) : List α → List α
  | [] => [x]
  | y :: r => if le x y then x :: y :: r else y :: insertSorted le x r

def sort (le : α → α → Bool) : List α → List α
  | [] => []
  | x :: r => insertSorted le x (sort le r)

/-- `Relation::from_vec`: sort and deduplicate. -/
def rel3 (l : List (Nat × Nat × Nat)) : List (Nat × Nat × Nat) := dedup (sort le3 l)
def rel2 (l : List (Nat × Nat)) : List (Nat × Nat) := dedup (sort le2 l)

/-- `Relation::from_join` before sorting: all pairs of tuples with equal keys. -/
def join (r₁ r₂ : List (Nat × Nat)) (logic : Nat → Nat → Nat → γ) : List γ :=
  r₁.flatMap (fun a => (r₂.filter (fun b => b.1 == a.1)).map (fun b => logic a.1 a.2 b.2))

/-- A datafrog `Variable`: its batches of stable tuples (here one list), the tuples new in the last
round, and the tuples to be added. -/
structure Var (α : Type) where
  stable : List α
  recent : List α
  toAdd : List α

/-- `Variable::changed`. -/
def Var.changed [DecidableEq α] (v : Var α) : Var α × Bool :=
  let stable := v.stable ++ v.recent
  let recent := v.toAdd.filter (fun x => decide (x ∉ stable))
  ({ stable, recent, toAdd := [] }, !recent.isEmpty)

/-- `from_leapjoin` or `from_join` with a relation, for a rule that derives `f x` from each tuple `x`:
only the recent tuples are looked at. -/
def Var.derive (v : Var α) (f : α → List α) : Var α := { v with toAdd := v.toAdd ++ v.recent.flatMap f }

/-- `while iteration.changed() { .. }` with two variables and one linear rule for each
(output.rs:295-346), followed by `complete()`.  `none`: out of fuel. -/
def iterate [DecidableEq α] [DecidableEq β] (f : α → List α) (g : β → List β) :
    Nat → Var α → Var β → Option (List α × List β)
  | 0, _, _ => none
  | fuel + 1, v, w =>
    let v' := v.changed
    let w' := w.changed
    if v'.2 || w'.2 then iterate f g fuel (v'.1.derive f) (w'.1.derive g)
    else some (v'.1.stable, w'.1.stable)

/-! ## The rules -/

/-- The facts `derive_permission_facts` starts from. -/
structure Input where
  /-- `cfg_edge` -/
  cfgEdge : List (Nat × Nat)
  /-- `path_maybe_uninitialized_on_exit`, as (point, path) -/
  uninitExit : List (Nat × Nat)
  /-- `child_path`, as (child, parent) -/
  childPath : List (Nat × Nat)
  /-- `move_data.moves`: for each move the moved path and the start point of its location -/
  moves : List (Nat × Nat)
  /-- `interior_paths` of the place of a path -/
  interior : Nat → List Nat
  /-- the parents of a move path -/
  parents : Nat → List Nat
  /-- `path_assigned_at_base`, as (path, point) -/
  assigned : List (Nat × Nat)
  /-- `places_conflict` with bias `Overlap` on the places of two paths -/
  conflict : Nat → Nat → Bool
  /-- the loans of `loan_issued_at` -/
  issued : List Nat
  /-- the borrowed path of a loan -/
  borrowed : Nat → Nat
  /-- `is_mutable_loan` -/
  isMutLoan : Nat → Bool
  /-- `loan_live_at`, as (loan, point) -/
  loanLive : List (Nat × Nat)
  /-- all registered paths -/
  paths : List Nat
  /-- `var_live_on_entry`, as (point, variable) -/
  varLive : List (Nat × Nat)
  /-- the variable of a path -/
  varOf : Nat → Nat
  writeEnabled : Nat → Bool
  dropEnabled : Nat → Bool
  copyable : Nat → Bool

/-- `move_conflicts_with` (output.rs:226-253). -/
def moveConflicts (i : Input) : List (Nat × Nat) :=
  i.moves.zipIdx.flatMap (fun x => (i.interior x.1.1 ++ i.parents x.1.1).map (fun path => (x.2, path)))

/-- The filter of the move rule (output.rs:305-331): some path assigned at the point conflicts with
the moved path. -/
def killed (i : Input) (mv point : Nat) : Bool :=
  match i.moves[mv]? with
  | none => false
  | some m => i.assigned.any (fun a => a.2 == point && i.conflict a.1 m.1)

/-- The rule for `move_live_at` (output.rs:301-334). -/
def moveRule (i : Input) (x : Nat × Nat) : List (Nat × Nat) :=
  ((i.cfgEdge.filter (fun e => e.1 == x.2)).filter (fun e => !killed i x.1 e.2)).map (fun e => (x.1, e.2))

/-- Initial `move_live_at` (output.rs:279-284). -/
def moveInit (i : Input) : List (Nat × Nat) := i.moves.zipIdx.map (fun x => (x.2, x.1.2))

/-- The rule for `path_maybe_uninitialized_on_entry`, on (path, point) (output.rs:341-345). -/
def uninitRule (i : Input) (x : Nat × Nat) : List (Nat × Nat) :=
  (i.childPath.filter (fun c => c.1 == x.1)).map (fun c => (c.2, x.2))

/-- Initial `path_maybe_uninitialized_on_entry` (output.rs:289-293). -/
def uninitInit (i : Input) : List (Nat × Nat) :=
  join i.uninitExit i.cfgEdge (fun _ path point => (path, point))

/-- `loan_conflicts_with` (output.rs:389-405). -/
def loanConflicts (i : Input) : List (Nat × Nat) :=
  i.issued.flatMap (fun loan =>
    (i.paths.filter (fun p => i.conflict (i.borrowed loan) p)).map (fun p => (loan, p)))

/-- `Output` (output.rs:33-152) without `never_write`, which is `Permissions.neverWrite`.  The nested
hash maps are functions. -/
structure Output where
  loanReadRefined : Nat → Nat → Option Nat
  loanWriteRefined : Nat → Nat → Option Nat
  loanDropRefined : Nat → Nat → Option Nat
  uninitEntry : Nat → Nat → Bool
  moveRefined : Nat → Nat → Option Nat
  moveLiveAt : Nat → List Nat

/-- `insert_facts!` (output.rs:468-474) on (path, key, point), in order: a later fact replaces an
earlier one. -/
def insertFacts : List (Nat × Nat × Nat) → (Nat → Nat → Option Nat) → Nat → Nat → Option Nat
  | [], m => m
  | (path, key, point) :: rest, m =>
    insertFacts rest (fun pt pa => if pt = point ∧ pa = path then some key else m pt pa)

/-- `derive_permission_facts` (output.rs:175-491).  `none`: the iteration has not ended. -/
def derive (fuel : Nat) (i : Input) : Option Output :=
  match iterate (moveRule i) (uninitRule i) fuel ⟨[], [], moveInit i⟩ ⟨[], [], uninitInit i⟩ with
  | none => none
  | some (liveExit, uninit) =>
    let moveLive := rel2 (liveExit.flatMap (fun x =>
      (i.cfgEdge.filter (fun e => e.1 == x.2)).map (fun e => (x.1, e.2))))
    let readRefined := rel3 ((loanConflicts i).flatMap (fun lp =>
      ((i.loanLive.filter (fun l => l.1 == lp.1)).filter (fun _ => i.isMutLoan lp.1)).map
        (fun l => (lp.2, lp.1, l.2))))
    let anyRefined := rel3 (join (loanConflicts i) i.loanLive (fun loan path point => (path, loan, point)))
    let moveRef := rel3 (join (moveConflicts i) moveLive (fun mv path point => (path, mv, point)))
    some {
      loanReadRefined := insertFacts readRefined (fun _ _ => none)
      loanWriteRefined := insertFacts anyRefined (fun _ _ => none)
      loanDropRefined := insertFacts anyRefined (fun _ _ => none)
      uninitEntry := fun point path => uninit.any (fun x => x == (path, point))
      moveRefined := insertFacts moveRef (fun _ _ => none)
      moveLiveAt := fun point => (moveLive.filter (fun x => x.2 == point)).map Prod.fst }

/-- `is_path_live_at` (context.rs:211-219). -/
def isLiveAt (i : Input) (path point : Nat) : Bool :=
  i.varLive.any (fun x => x == (point, i.varOf path))

/-- `permissions_data_at_point` (context.rs:342-395). -/
def dataAtPoint (i : Input) (o : Output) (path point : Nat) : Data :=
  { typeDroppable := i.dropEnabled path
    typeWriteable := i.writeEnabled path
    typeCopyable := i.copyable path
    isLive := isLiveAt i path point
    pathUninitialized := o.uninitEntry point path
    pathMoved := o.moveRefined point path
    loanReadRefined := o.loanReadRefined point path
    loanWriteRefined := o.loanWriteRefined point path
    loanDropRefined := o.loanDropRefined point path }

end Verif.Facts
