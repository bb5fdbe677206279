import Verif.Graph.Search
/-!
# Model of the region flow analysis

Models `crates/aquascope/src/analysis/permissions/flow.rs` and `get_flow_permission` of
`analysis/boundaries/mod.rs:464-571`.

Regions are numbers.  rustc's `Sccs` is represented by mapping each node to the least member of its
component (the code only compares component numbers and walks edges between them);
`TransitiveRelation` by its edges, closed on demand.  Borrowck's facts are inputs.
-/
namespace Verif.Flow

open Verif.Graph

/-- What borrowck provides (flow.rs:350-470): `subset_base` without points, `placeholder` origins, regions
in the return type, `known_placeholder_subset`, the region of each borrow with `is_indirect` of its place,
and the regions of the borrows in polonius errors that are invalidated at exit. -/
structure Input where
  constraints : List (Nat × Nat)
  placeholder : List Nat
  returnRegions : List Nat
  known : List (Nat × Nat)
  borrows : List (Nat × Bool)
  dangling : List Nat
  deriving Repr

/-- `flatten_tuples` (flow.rs:261-266); repetitions do not matter here. -/
def flattenTuples (l : List (Nat × Nat)) : List Nat := l.flatMap fun e => [e.1, e.2]

/-- `count_nodes` (flow.rs:268-273). -/
def countNodes (l : List (Nat × Nat)) : Nat := (flattenTuples l).foldl (fun m v => max m (v + 1)) 0

/-- Successors in a `VecGraph`. -/
def succOf (edges : List (Nat × Nat)) (a : Nat) : List Nat :=
  (edges.filter (fun e => e.1 == a)).map (·.2)

/-- `TransitiveRelation::reachable_from`: everything at the end of a non-empty chain of edges. -/
def trReachable (n : Nat) (edges : List (Nat × Nat)) (a : Nat) : List Nat :=
  (succOf edges a).flatMap (dfs (succOf edges) n)

/-- `flow_from_sources` (flow.rs:278-296): the edges added to the relation. -/
def flowFromSources (n : Nat) (sources : List Nat) (graph : List (Nat × Nat)) : List (Nat × Nat) :=
  sources.flatMap fun s => (dfs (succOf graph) n s).map (fun t => (t, s))

/-- `Sccs::scc` on a graph with `n` nodes. -/
def sccOf (n : Nat) (edges : List (Nat × Nat)) (o : Nat) : Nat :=
  ((List.range n).find? fun k =>
    decide (k ∈ dfs (succOf edges) n o) && decide (o ∈ dfs (succOf edges) n k)).getD o

/-- `RegionFlows` (flow.rs). -/
structure Flows where
  n : Nat
  scc : Nat → Nat
  specified : List (Nat × Nat)
  abstractSources : List Nat
  containsAbstract : List (Nat × Nat)
  containsLocal : List (Nat × Nat)
  danglingSources : List Nat

/-- The regions passed to `scc`, other than those filtered to be vertices: an index out of range panics
(flow.rs:387-397, 433-438, 456-464). -/
def Input.queried (i : Input) : List Nat :=
  i.returnRegions ++ (i.borrows.filter (fun b => !b.2)).map (·.1) ++ i.dangling

/-- `placeholders` (flow.rs:387-399), before mapping to components. -/
def Input.callers (i : Input) : List Nat :=
  i.placeholder.filter (fun p => decide (p ∈ flattenTuples i.constraints)) ++ i.returnRegions

/-- The constraint graph between components. -/
def Input.sccEdges (i : Input) : List (Nat × Nat) :=
  let scc := sccOf (countNodes i.constraints) i.constraints
  i.constraints.map fun e => (scc e.1, scc e.2)

/-- `placeholder_edges` (flow.rs:406-413). -/
def Input.declaredEdges (i : Input) : List (Nat × Nat) :=
  let scc := sccOf (countNodes i.constraints) i.constraints
  let vertices := flattenTuples i.constraints
  (i.known.filter (fun e => decide (e.1 ∈ vertices) && decide (e.2 ∈ vertices))).map
      (fun e => (scc e.1, scc e.2)) ++
    (i.callers.map scc).map (fun o => (o, o))

/-- `compute_flows` (flow.rs:350-491); `none` is the panic on an unknown region. -/
def computeFlows (i : Input) : Option Flows :=
  let n := countNodes i.constraints
  if i.queried.all (fun r => decide (r < n)) then
    let scc := sccOf n i.constraints
    let placeholders := i.callers.map scc
    let localSources := ((i.borrows.filter (fun b => !b.2)).map (·.1)).map scc
    some {
      n, scc
      specified := flowFromSources n placeholders i.declaredEdges
      abstractSources := placeholders
      containsAbstract := flowFromSources n placeholders i.sccEdges
      containsLocal := flowFromSources n localSources i.sccEdges
      danglingSources := i.dangling.map scc }
  else none

/-- `FlowEdgeKind` (flow.rs). -/
inductive Kind where
  | missingUniversalConstraint | localOutlivesUniversal | localInvalidatedAtExit | ok
  deriving DecidableEq, Repr

/-- `is_valid_flow`. -/
def Kind.valid (k : Kind) : Bool := k == .ok

/-- `is_abstract_member` (flow.rs). -/
def Flows.isAbstractMember (f : Flows) (o : Nat) : Bool := decide (f.scc o ∈ f.abstractSources)

/-- `has_local_member` (flow.rs:177-183). -/
def Flows.hasLocalMember (f : Flows) (o : Nat) : Bool :=
  !(trReachable f.n f.containsLocal (f.scc o)).isEmpty

/-- `specified_flows.contains(to, from)`. -/
def Flows.isSpecified (f : Flows) (to frm : Nat) : Bool :=
  decide (frm ∈ trReachable f.n f.specified to)

/-- `flow_kind` (flow.rs:187-255). -/
def Flows.flowKind (f : Flows) (frm to : Nat) : Kind :=
  if f.scc frm = f.scc to then .ok
  else if f.hasLocalMember frm && f.isAbstractMember to then .localOutlivesUniversal
  else if !((trReachable f.n f.containsAbstract (f.scc frm)).all fun a =>
      (trReachable f.n f.containsAbstract (f.scc to)).all fun b => f.isSpecified b a) then
    .missingUniversalConstraint
  else if (trReachable f.n f.containsLocal (f.scc frm)).any (fun l => decide (l ∈ f.danglingSources)) then
    .localInvalidatedAtExit
  else .ok

/-- `get_flow_permission` (boundaries/mod.rs:466-571) when flow permissions are enabled; the two lists are
`flow_constraints_at_hir_id` of the context and of the expression. -/
def Flows.flowPermission (f : Flows) (context : Option (List (Nat × Nat)))
    (specific : Option (List (Nat × Nat))) : Option Kind :=
  match context with
  | none => none
  | some ctx =>
    if !(ctx.any fun e => f.isAbstractMember e.2) then none
    else match specific with
      | none => none
      | some sp =>
        let violations := ctx.filterMap fun e =>
          let fk := f.flowKind e.1 e.2
          if f.isAbstractMember e.2 && !fk.valid && sp.any (fun g => g.2 == e.1 || g.2 == e.2) then
            some fk
          else none
        some (violations.head?.getD .ok)

end Verif.Flow
