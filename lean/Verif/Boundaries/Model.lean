import Verif.Permissions.Model
/-!
# Model of permission boundaries

Models `crates/aquascope/src/analysis/boundaries/mod.rs` and `boundaries/path_visitor.rs`, and the icon
stack of `frontend/packages/aquascope-editor/src/editor-utils/boundaries.tsx`.

Parameters: the type checker's answers (the first auto-borrow of an expression, whether its adjusted type
is `Copy`, whether its span comes from a macro expansion), the result of the external `fuzzy_match`, the
MIR statements associated with a source expression, and whether a place is visible in the source.
-/
namespace Verif.Boundaries

open Verif.Permissions (Perms Place)

/-! ## What each use expects (mod.rs:255-303) -/

/-- `from_assignment` (mod.rs:256-262). -/
def fromAssignment : Perms := ⟨true, true, false⟩
/-- `from_borrow` (mod.rs:264-270); the argument is "mutable". -/
def fromBorrow (mutable : Bool) : Perms := ⟨true, mutable, false⟩
/-- `from_reborrow` (mod.rs:272-278). -/
def fromReborrow (mutable : Bool) : Perms := ⟨true, mutable, false⟩
/-- `from_move` (mod.rs:280-286). -/
def fromMove : Perms := ⟨true, false, true⟩
/-- `from_copy` (mod.rs:288-294). -/
def fromCopy : Perms := ⟨true, false, false⟩
/-- `from_discriminant` (mod.rs:296-302). -/
def fromDiscriminant : Perms := ⟨true, false, false⟩

/-! ## Source expressions and the visitor (path_visitor.rs) -/

/-- What the visitor asks the type checker about one expression. -/
structure Node where
  id : Nat
  /-- The first `Adjust::Borrow(AutoBorrow::Ref(m))` among its adjustments; `true` is mutable. -/
  autoBorrow : Option Bool := none
  /-- Its adjusted type is `Copy`. -/
  copy : Bool := false
  /-- Its span comes from a macro expansion. -/
  expansion : Bool := false
  deriving DecidableEq, Repr

/-- HIR expressions.  `other` is every expression kind the visitor has no case for (calls, blocks, `if`,
`let`, closures, …), with its sub-expressions in visiting order; the arms of a match are given by their
guards and bodies.  Statics and constants are `item`. -/
inductive Expr where
  | var (n : Node)
  | lit (n : Node)
  | item (n : Node)
  | field (n : Node) (e : Expr)
  | index (n : Node) (a i : Expr)
  | deref (n : Node) (e : Expr)
  | addrOf (n : Node) (mutable : Bool) (e : Expr)
  | assign (n : Node) (l r : Expr)
  | assignOp (n : Node) (l r : Expr)
  | methodCall (n : Node) (fnExpansion : Bool) (rcvr : Expr) (args : List Expr)
  | match_ (n : Node) (discr : Expr) (arms : List Expr)
  | other (n : Node) (cs : List Expr)

def Expr.node : Expr → Node
  | var n | lit n | item n | field n _ | index n _ _ | deref n _ | addrOf n _ _ | assign n _ _
  | assignOp n _ _ | methodCall n _ _ _ | match_ n _ _ | other n _ => n

def Expr.isLit : Expr → Bool
  | lit _ => true
  | _ => false

def Expr.isDeref : Expr → Bool
  | deref _ _ => true
  | _ => false

/-- rustc's `Expr::is_place_expr(allow_projections_from)`: local paths, dereferences, and projections
from an allowed base or from a place. -/
def Expr.isPlace (allow : Expr → Bool) : Expr → Bool
  | var _ => true
  | deref _ _ => true
  | field _ e => allow e || e.isPlace allow
  | index _ e _ => allow e || e.isPlace allow
  | _ => false

/-- `is_place_expr(|e| !matches!(e.kind, ExprKind::Lit(_)))` (path_visitor.rs:109,129). -/
def Expr.isPlaceNoLit (e : Expr) : Bool := e.isPlace (fun b => !b.isLit)

/-- `is_syntactic_place_expr()` = `is_place_expr(|_| true)`. -/
def Expr.isSyntacticPlace (e : Expr) : Bool := e.isPlace (fun _ => true)

/-- `PathBoundary` (mod.rs:313-333): the node the search starts at, the kind and what is expected.  The
node is kept whole (the code keeps its `HirId`). -/
structure PathBoundary where
  node : Expr
  isLhs : Bool
  expected : Perms

/-- `get_adjusted_permissions` (path_visitor.rs:35-61). -/
def adjusted (n : Node) : Perms :=
  match n.autoBorrow with
  | some m => fromReborrow m
  | none => if n.copy then fromCopy else fromMove

mutual
/-- `visit_expr` (path_visitor.rs:95-255). -/
def visit : Expr → List PathBoundary
  | .match_ _ d arms =>
    if d.isPlaceNoLit then ⟨d, false, fromDiscriminant⟩ :: visitAll arms
    else visit d ++ visitAll arms
  | .methodCall _ exp rcvr args =>
    if !exp && rcvr.isPlaceNoLit then ⟨rcvr, false, adjusted rcvr.node⟩ :: visitAll args
    else visit rcvr ++ visitAll args
  | .addrOf n m e =>
    if e.isSyntacticPlace && !e.node.expansion then [⟨.addrOf n m e, false, fromBorrow m⟩]
    else visit e
  | .assign _ l r =>
    if l.isDeref then ⟨l, true, fromAssignment⟩ :: visit r
    else visit r
  | .assignOp _ l r => ⟨l, true, fromAssignment⟩ :: visit r
  | .deref n e =>
    if e.isSyntacticPlace && !e.node.expansion then [⟨.deref n e, false, adjusted n⟩]
    else visit e
  | .var n => if n.expansion then [] else [⟨.var n, false, adjusted n⟩]
  | .lit _ => []
  | .item _ => []
  | .field _ e => visit e
  | .index _ a i => visit a ++ visit i
  | .other _ cs => visitAll cs

/-- The sub-expressions in order. -/
def visitAll : List Expr → List PathBoundary
  | [] => []
  | e :: r => visit e ++ visitAll r
end

/-! ## Candidate places (mod.rs:573-708) -/

/-- A MIR statement as `look_in_statement` sees it: the places read by an assignment's right-hand side
are listed in order (`look_in_rvalue`, mod.rs:612-655). -/
inductive Stmt where
  | assign (lhs : Place) (rhs : List Place)
  | setDiscriminant (p : Place)
  | fakeRead (p : Place)
  | other
  deriving Repr

/-- `look_in_statement` (mod.rs:652-697). -/
def lookInStatement (visible : Place → Bool) (isLhs : Bool) : Stmt → List Place
  | .assign lhs rhs => if isLhs then (if visible lhs then [lhs] else []) else rhs.filter visible
  | .setDiscriminant p => if visible p then [p] else []
  | .fakeRead p => if visible p then [p] else []
  | .other => []

/-- `paths_at_hir_id` (mod.rs:576-708): the statements associated with the expression, each with its
location; a terminator is `Stmt.other`. -/
def pathsAt (visible : Place → Bool) (isLhs : Bool) (stmts : List (Nat × Stmt)) : List (Nat × Place) :=
  stmts.flatMap fun s => (lookInStatement visible isLhs s.2).map (fun p => (s.1, p))

/-! ## Selecting a candidate (mod.rs:383-433) -/

/-- `Iterator::max_by_key(|(_, p)| p.projection.len())`: the last maximum. -/
def maxByProj : List (Nat × Place) → Option (Nat × Place)
  | [] => none
  | c :: r => some (r.foldl (fun best x => if best.2.projection.length ≤ x.2.projection.length then x else best) c)

/-- `select_candidate_location` (mod.rs:383-433); `similar` is the local of the place that
`locals_by_visible_distance` returns. -/
def select (similar : Option Nat) (cs : List (Nat × Place)) : Option (Nat × Place) :=
  if cs.length ≤ 1 then cs.head?
  else match similar with
    | some l => cs.find? (fun c => c.2.local_ == l)
    | none => match cs.head? with
      | none => none
      | some c => maxByProj (cs.filter (fun x => x.2.local_ == c.2.local_)).reverse

/-- What one node offers: `none` if the mapper knows no MIR locations for it. -/
structure Site where
  stmts : Option (List (Nat × Stmt))
  similar : Option Nat

/-- `search_at_hir_id` (mod.rs:726-739). -/
def searchAt (visible : Place → Bool) (isLhs : Bool) (s : Site) : Option (Nat × Place) :=
  match s.stmts with
  | none => none
  | some st => select s.similar (pathsAt visible isLhs st)

/-- The search at the node and then its parents (mod.rs:745-751). -/
def resolve (visible : Place → Bool) (isLhs : Bool) (chain : List Site) : Option (Nat × Place) :=
  chain.findSome? (searchAt visible isLhs)

/-! ## Boundaries (mod.rs:205-246, 752-826) -/

/-- `PermissionsBoundary` (mod.rs:222-233): `flow` is `expecting_flow`, by its `is_violation`. -/
structure Boundary where
  location : Nat
  byteLocation : Nat
  expected : Perms
  actual : Perms
  flow : Option Bool
  deriving DecidableEq, Repr

/-- `PermissionsBoundary::is_violation` (mod.rs:236-246). -/
def Boundary.isViolation (b : Boundary) : Bool :=
  (b.expected.read && !b.actual.read) || (b.expected.write && !b.actual.write) ||
    (b.expected.drop && !b.actual.drop)

/-- The filter of `compute_permission_boundaries` (mod.rs:796-823); `firstError` is the end of the first
error's byte range. -/
def report (firstError : Option Nat) (bs : List Boundary) : List Boundary :=
  bs.filter fun b => match firstError with
    | none => true
    | some e => b.flow.isSome || decide (b.byteLocation ≤ e)

/-- `compute_permission_boundaries` (mod.rs:796-826): `mk` is `path_to_perm_boundary`. -/
def computeBoundaries (mk : PathBoundary → Option Boundary) (firstError : Option Nat) (body : Expr) :
    List Boundary :=
  report firstError ((visit body).filterMap mk)

/-! ## The icon stack (boundaries.tsx:60-137) -/

inductive Letter where
  | read | write | own | flow
  deriving DecidableEq, Repr

/-- An entry of `allIcons`. -/
structure Icon where
  letter : Letter
  exp : Bool
  act : Bool
  deriving DecidableEq, Repr

/-- `allIcons.filter(i => i.exp)` (boundaries.tsx:62-115). -/
def icons (b : Boundary) : List Icon :=
  [⟨.read, b.expected.read, b.actual.read⟩, ⟨.write, b.expected.write, b.actual.write⟩,
   ⟨.own, b.expected.drop, b.actual.drop⟩,
   ⟨.flow, b.flow.isSome, !(b.flow.getD false)⟩].filter (fun i => i.exp)

/-- An icon is drawn with the `missing` class (boundaries.tsx:42). -/
def Icon.missing (i : Icon) : Bool := !i.act

/-- `numDisplayed` (boundaries.tsx:147-153). -/
def numDisplayed (b : Boundary) : Nat :=
  b.expected.read.toNat + b.expected.write.toNat + b.expected.drop.toNat + b.flow.isSome.toNat

end Verif.Boundaries
