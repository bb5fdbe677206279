import Verif.Graph.Paths
/-!
# Model of the MIR graph helpers

Models `crates/aquascope/src/analysis/ir_mapper/body_graph.rs`, `post_dominators.rs`, `mir_locations.rs`
and the location part of `ir_mapper/mod.rs`.

A body is a list of blocks.  rustc's dominator computation and rustc_utils' `PostDominators` are external;
they are represented by `Verif.Graph.through` (every path passes a node).  Hash maps and hash sets are
lists in iteration order.
-/
namespace Verif.Cfg

open Verif.Graph

/-- `TerminatorKind`, by the targets it has.  `other` stands for calls, drops, asserts, …; `ret` has no
targets and neither has `unreachable`. -/
inductive Term where
  | goto (t : Nat)
  | switchInt (ts : List Nat)
  | ret
  | unreachable
  | falseEdge (real imaginary : Nat)
  | falseUnwind (real : Nat)
  | other (ts : List Nat)
  deriving DecidableEq, Repr

/-- The successors of a terminator, as rustc lists them. -/
def Term.targets : Term → List Nat
  | goto t => [t]
  | switchInt ts => ts
  | ret => []
  | unreachable => []
  | falseEdge r i => [r, i]
  | falseUnwind r => [r]
  | other ts => ts

/-- `BasicBlockData`: the number of statements, the terminator, and `is_cleanup`. -/
structure Block where
  stmts : Nat
  term : Term
  cleanup : Bool
  deriving DecidableEq, Repr

abbrev Body := List Block

structure Loc where
  block : Nat
  idx : Nat
  deriving DecidableEq, Repr

def Body.term (b : Body) (n : Nat) : Term :=
  match b[n]? with
  | some d => d.term
  | none => .unreachable

/-- `<BasicBlocks as Successors>::successors`. -/
def Body.rawSucc (b : Body) (n : Nat) : List Nat := (b.term n).targets

/-- `keep_block` with `is_unreachable` (body_graph.rs:77-79,138-142). -/
def Body.keep (b : Body) (n : Nat) : Bool :=
  match b[n]? with
  | some d => !d.cleanup && !(d.term == .unreachable)
  | none => false

/-- `is_imaginary_target` (body_graph.rs:81-93). -/
def isImaginaryTarget (fromTerm : Term) (target : Nat) : Bool :=
  match fromTerm with
  | .falseEdge _ i => i == target
  | _ => false

/-- `Successors for CleanedBody` (body_graph.rs:114-125).  As in the code, `from_data` is the data of the
*target*. -/
def Body.succ (b : Body) (n : Nat) : List Nat :=
  (b.rawSucc n).filter fun t => b.keep t && !isImaginaryTarget (b.term t) t

/-- `Predecessors for CleanedBody` (body_graph.rs:127-134). -/
def Body.pred (b : Body) (n : Nat) : List Nat :=
  (List.range b.length).filter fun p => decide (n ∈ b.rawSucc p) && b.keep p

/-- `location_successor` (body_graph.rs:28-54). -/
def Body.locationSuccessor (b : Body) (l : Loc) : Option Loc :=
  match b[l.block]? with
  | none => none
  | some d =>
    if l.idx < d.stmts then some ⟨l.block, l.idx + 1⟩
    else match b.succ l.block with
      | [t] => some ⟨t, 0⟩
      | _ => none

/-! ## Post-dominators (post_dominators.rs:12-42) -/

/-- rustc_utils' `PostDominators::build(graph, exit).post_dominators(node)`: nothing if the exit cannot be
reached. -/
def exitPostDominators (succ : Nat → List Nat) (n exit node : Nat) : List Nat :=
  if exit ∈ dfs succ n node then (List.range n).filter (fun d => through succ n node exit d) else []

/-- A row of `AllPostDominators::build` (post_dominators.rs:12-34): the full row, intersected for every
exit. -/
def allPostDominators (succ : Nat → List Nat) (n : Nat) (exits : List Nat) (node : Nat) : List Nat :=
  exits.foldl (fun row exit => row.filter (fun d => decide (d ∈ exitPostDominators succ n exit node)))
    (List.range n)

/-- `is_postdominated_by` (post_dominators.rs:36-41). -/
def isPostdominatedBy (succ : Nat → List Nat) (n : Nat) (exits : List Nat) (node dom : Nat) : Bool :=
  decide (dom ∈ allPostDominators succ n exits node)

/-- `BodyExt::all_returns` (rustc_utils): the blocks ending in `return`. -/
def Body.returns (b : Body) : List Nat := (List.range b.length).filter (fun n => b.term n == .ret)

/-- `dominators.is_reachable(node) && dominators.dominates(dom, node)` (mod.rs:121-123,222-224). -/
def dominates (succ : Nat → List Nat) (n dom node : Nat) : Bool :=
  decide (node ∈ dfs succ n 0) && through succ n 0 node dom

/-! ## Locations of a source node -/

/-- `is_false_location` (mod.rs:166-174): a block without statements ending in a false edge or false
unwind. -/
def Body.isFalseLocation (b : Body) (l : Loc) : Bool :=
  match b[l.block]? with
  | none => false
  | some d => d.stmts == 0 && (match d.term with
    | .falseEdge _ _ => true
    | .falseUnwind _ => true
    | _ => false)

/-- `is_block_unreachable` (mod.rs:269-273). -/
def Body.isBlockUnreachable (b : Body) (n : Nat) : Bool := b.term n == .unreachable

/-- `MirOrderedLocations` (mir_locations.rs:5-10). -/
structure Ordered where
  entryBlock : Option Nat
  exitBlock : Option Nat
  locations : List (Nat × List Nat)
  deriving DecidableEq, Repr

/-- `acc.entry(bb).or_default().push(idx)`. -/
def pushIdx (m : List (Nat × List Nat)) (bb idx : Nat) : List (Nat × List Nat) :=
  match m with
  | [] => [(bb, [idx])]
  | (k, v) :: r => if k = bb then (k, v ++ [idx]) :: r else (k, v) :: pushIdx r bb idx

/-- One insertion of a sort of statement indices. -/
def insertIdx (x : Nat) : List Nat → List Nat
  | [] => [x]
  | y :: r => if x ≤ y then x :: y :: r else y :: insertIdx x r

/-- `sort_unstable`. -/
def sortIdx : List Nat → List Nat
  | [] => []
  | x :: r => insertIdx x (sortIdx r)

/-- The map of blocks to sorted indices (mod.rs:205-219). -/
def Body.locationMap (b : Body) (locs : List Loc) : List (Nat × List Nat) :=
  let m := (locs.filter (fun l => !b.isFalseLocation l)).foldl
    (fun acc l => if b.isBlockUnreachable l.block then acc else pushIdx acc l.block l.idx) []
  m.map fun e => (e.1, sortIdx e.2)

/-- The locations gathered for a node (mod.rs:183-203): its own, and with `nested` also those of every
node below it.  `parents` are the ancestors of a node. -/
def gather (hirToMir : List (Nat × List Loc)) (parents : Nat → List Nat) (hir : Nat) (nested : Bool) :
    List Loc :=
  let outer := (hirToMir.filter (fun e => e.1 == hir)).flatMap (·.2)
  if nested then outer ++ (hirToMir.filter (fun e => decide (hir ∈ parents e.1))).flatMap (·.2)
  else outer

/-- `get_mir_locations` (mod.rs:183-267), from the gathered set (a set: without repetitions). -/
def Body.mirLocations (b : Body) (locs : List Loc) : Option Ordered :=
  if locs.isEmpty then none
  else
    let m := b.locationMap locs
    let blocks := m.map (·.1)
    some {
      entryBlock := blocks.find? fun c => blocks.all fun x => dominates b.succ b.length c x
      exitBlock := blocks.find? fun c => blocks.all fun x => isPostdominatedBy b.succ b.length b.returns x c
      locations := m }

/-- The indices recorded for a block. -/
def Ordered.get (o : Ordered) (bb : Nat) : Option (List Nat) :=
  (o.locations.find? (fun e => e.1 == bb)).map (·.2)

/-- `entry_location` (mir_locations.rs:13-26); the two panics are `none`. -/
def Ordered.entryLocation (o : Ordered) : Option Loc :=
  match o.entryBlock with
  | none => none
  | some bb => match o.get bb with
    | none => none
    | some v => v.head?.map (fun i => ⟨bb, i⟩)

/-- `exit_location` (mir_locations.rs:28-42). -/
def Ordered.exitLocation (o : Ordered) : Option Loc :=
  match o.exitBlock with
  | none => none
  | some bb => match o.get bb with
    | none => some ⟨bb, 0⟩
    | some v => v.getLast?.map (fun i => ⟨bb, i⟩)

/-- `values` (mir_locations.rs:50-57). -/
def Ordered.values (o : Ordered) : List Loc :=
  o.locations.flatMap fun e => e.2.map (fun i => ⟨e.1, i⟩)

end Verif.Cfg
