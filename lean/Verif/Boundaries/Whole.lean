import Verif.Boundaries.Model
import Verif.Cfg.Model
import Verif.Facts.Model
import Verif.Flow.Model
import Verif.Frontend.Permissions
/-!
# From the source and the facts of a body to its boundaries

Models `path_to_perm_boundary`, `paths_at_hir_id`, `flow_constraints_at_hir_id` and
`compute_permission_boundaries` (`crates/aquascope/src/analysis/boundaries/mod.rs:436-571, 576-826`) with what
they are given by the other parts: the positions and flow contexts of the visitor
(`boundaries/path_visitor.rs:25,70-255`), the locations of a node (`ir_mapper/mod.rs:183-267`, `Verif.Cfg`), the
state of a place at a point (`permissions/context.rs:342-395`, `Verif.Facts`) and the flows of regions
(`permissions/flow.rs`, `Verif.Flow`).

Simplifications.
* Spans are byte ranges by node; `as_local` of a span, and the position in characters of a byte, are parameters.
* A MIR location is known by the number of its start point (`location_to_point`, context.rs:109-111).
* The dynamically scoped `FLOW_CONTEXT` is an argument of the visitor; `enters` gives, for the expression of a
  statement, the statement, and for the last expression of a block or the value of a body, itself.
* The unwraps of `ByteRange::from_span` and `CharRange::from_span` are left out.
-/
namespace Verif.Boundaries

open Verif.Permissions (Perms Place Data)
open Verif.Cfg (Loc Ordered)

/-- A range of bytes. -/
structure Span where
  lo : Nat
  hi : Nat
  deriving DecidableEq, Repr

/-- `shrink_to_lo`. -/
def Span.shrinkToLo (s : Span) : Span := ⟨s.lo, s.lo⟩

/-- `PathBoundary` (mod.rs:313-333) with all its fields. -/
structure Located where
  pb : PathBoundary
  location : Span
  flowContext : Nat

/-- What the visitor knows about nodes: their spans, and which flow context starts at them. -/
structure Src where
  span : Nat → Span
  enters : Nat → Option Nat

/-- `visit_body`, `visit_stmt`, `visit_block` (path_visitor.rs:74-93): the context while visiting a node. -/
def Src.ctx (s : Src) (c : Nat) (e : Expr) : Nat := (s.enters e.node.id).getD c

mutual
/-- `visit_expr` (path_visitor.rs:95-255) with locations and flow contexts; `c` is the context outside. -/
def visitAt (s : Src) (c : Nat) : Expr → List Located
  | .match_ n d arms =>
    let c := s.ctx c (.match_ n d arms)
    if d.isPlaceNoLit then ⟨⟨d, false, fromDiscriminant⟩, s.span d.node.id, c⟩ :: visitAllAt s c arms
    else visitAt s c d ++ visitAllAt s c arms
  | .methodCall n x rcvr args =>
    let c := s.ctx c (.methodCall n x rcvr args)
    if !x && rcvr.isPlaceNoLit then
      ⟨⟨rcvr, false, adjusted rcvr.node⟩, s.span rcvr.node.id, c⟩ :: visitAllAt s c args
    else visitAt s c rcvr ++ visitAllAt s c args
  | .addrOf n m e =>
    let c := s.ctx c (.addrOf n m e)
    if e.isSyntacticPlace && !e.node.expansion then
      [⟨⟨.addrOf n m e, false, fromBorrow m⟩, (s.span e.node.id).shrinkToLo, c⟩]
    else visitAt s c e
  | .assign n l r =>
    let c := s.ctx c (.assign n l r)
    if l.isDeref then ⟨⟨l, true, fromAssignment⟩, (s.span l.node.id).shrinkToLo, c⟩ :: visitAt s c r
    else visitAt s c r
  | .assignOp n l r =>
    let c := s.ctx c (.assignOp n l r)
    ⟨⟨l, true, fromAssignment⟩, (s.span l.node.id).shrinkToLo, c⟩ :: visitAt s c r
  | .deref n e =>
    let c := s.ctx c (.deref n e)
    if e.isSyntacticPlace && !e.node.expansion then
      [⟨⟨.deref n e, false, adjusted n⟩, (s.span n.id).shrinkToLo, c⟩]
    else visitAt s c e
  | .var n =>
    let c := s.ctx c (.var n)
    if n.expansion then [] else [⟨⟨.var n, false, adjusted n⟩, (s.span n.id).shrinkToLo, c⟩]
  | .lit _ => []
  | .item _ => []
  | .field n e => visitAt s (s.ctx c (.field n e)) e
  | .index n a i => visitAt s (s.ctx c (.index n a i)) a ++ visitAt s (s.ctx c (.index n a i)) i
  | .other n cs => visitAllAt s (s.ctx c (.other n cs)) cs

def visitAllAt (s : Src) (c : Nat) : List Expr → List Located
  | [] => []
  | e :: r => visitAt s c e ++ visitAllAt s c r
end

/-- Everything `compute_permission_boundaries` looks at.  `order` is the order in which the map from blocks to
statement indices is iterated; `facts` and `out` are what `Verif.Facts` derives from borrowck's facts; `regions`
are the facts behind the region flows. -/
structure Whole where
  root : Expr
  src : Src
  cfg : Cfg.Body
  hirToMir : List (Nat × List Loc)
  parents : Nat → List Nat
  order : List (Nat × List Nat) → List (Nat × List Nat)
  stmtAt : Loc → Stmt
  similar : Nat → Option Nat
  visible : Place → Bool
  start : Loc → Nat
  mid : Loc → Nat
  path : Place → Nat
  facts : Facts.Input
  out : Facts.Output
  subsetBase : List (Nat × Nat × Nat)
  placeholders : List Nat
  flows : Flow.Flows
  flowOn : Bool
  asLocal : Span → Option Span
  firstError : Option Nat

/-- `get_mir_locations(id, GatherDepth::Nested)` and its `values` (ir_mapper/mod.rs:183-267,
mir_locations.rs:50-57).  The gathered locations are a set. -/
def Whole.locations (w : Whole) (id : Nat) : Option (List Loc) :=
  match w.cfg.mirLocations (Cfg.gather w.hirToMir w.parents id true).eraseDups with
  | none => none
  | some o => some ({ o with locations := w.order o.locations } : Ordered).values

/-- `paths_at_hir_id` (mod.rs:576-708) and what `select_candidate_location` asks about the node. -/
def Whole.site (w : Whole) (id : Nat) : Site :=
  { stmts := (w.locations id).map (fun ls => ls.map fun l => (w.start l, w.stmtAt l))
    similar := w.similar id }

/-- The search for a use, at its node and then upwards (mod.rs:726-751): a point and a place. -/
def Whole.find (w : Whole) (pb : PathBoundary) : Option (Nat × Place) :=
  resolve w.visible pb.isLhs ((pb.node.node.id :: w.parents pb.node.node.id).map w.site)

/-- `is_universal_subset` (context.rs:165-171). -/
def Whole.isUniversalSubset (w : Whole) (f t : Nat) : Bool := w.placeholders.any fun p => p == f || p == t

/-- `flow_constraints_at_hir_id` (mod.rs:438-462). -/
def Whole.constraintsAt (w : Whole) (id : Nat) : Option (List (Nat × Nat)) :=
  match w.locations id with
  | none => none
  | some ls => some (ls.flatMap fun l =>
      (w.subsetBase.filter fun e =>
        !w.isUniversalSubset e.1 e.2.1 && [w.start l, w.mid l].contains e.2.2).map fun e => (e.1, e.2.1))

/-- `get_flow_permission` (mod.rs:466-571). -/
def Whole.flow (w : Whole) (context id : Nat) : Option Flow.Kind :=
  if !w.flowOn then none
  else w.flows.flowPermission (w.constraintsAt context) (w.constraintsAt id)

/-- `path_to_perm_boundary` (mod.rs:710-794). -/
def Whole.boundary (w : Whole) (u : Located) : Option Boundary :=
  match w.find u.pb with
  | none => none
  | some (point, place) =>
    let data := Facts.dataAtPoint w.facts w.out (w.path place) point
    let span := (w.asLocal u.location).getD u.location
    some { location := span.hi, byteLocation := span.hi, expected := u.pb.expected
           actual := data.permissionsIgnoreLiveness
           flow := (w.flow u.flowContext u.pb.node.node.id).map fun k => !k.valid }

/-- `compute_permission_boundaries` (mod.rs:796-826). -/
def Whole.boundaries (w : Whole) : List Boundary :=
  report w.firstError ((visitAt w.src w.root.node.id w.root).filterMap w.boundary)

/-- What the page is sent for a boundary; `pos` gives the line and column of a byte (`span_to_range`,
analysis/mod.rs:327-333). -/
def Boundary.sent (pos : Nat → Frontend.Pos) (b : Boundary) : Frontend.Bnd :=
  { location := pos b.location, expRead := b.expected.read, expWrite := b.expected.write
    expDrop := b.expected.drop, actRead := b.actual.read, actWrite := b.actual.write
    actDrop := b.actual.drop, flow := b.flow }

end Verif.Boundaries
