import Verif.HirSteps.Model
import Verif.Mapper.Model
/-!
# From the nodes of the source to what the visitor of the steps asks for

Models `span_of`, `get_node_entry`, `get_node_exit` of
`crates/aquascope/src/analysis/stepper/hir_steps.rs:238-277` and `local_assigned_place` of
`analysis/ir_mapper/mod.rs:137-160`, so that the visitor (`HirSteps/Model.lean`) runs on a tree of identifiers and a
mapping from machine locations to identifiers.

Simplifications.
* The tree has the kinds of nodes that the visitor tells apart, as in `HirSteps/Model.lean`.
* `hirOf` stands for `location_to_hir_id` of `rustc_utils`.  The mapper is the one of the analysis, which leaves out
  clean-up blocks (`GatherMode::IgnoreCleanup`, analysis/mod.rs:278).
* Spans are numbers.
-/
namespace Verif.HirSource

open Verif.Cfg Verif.Mapper Verif.HirSteps

mutual
/-- `hir::Expr`, see `HirSteps.Expr` -/
inductive RExpr
  | ite (id : Nat) (cnd thn : RExpr) (els : Option RExpr)
  | whileLoop (id : Nat) (cnd thn els : RExpr)
  | forLoop (id : Nat) (cnd : RExpr) (nothing item : RArm)
  | mtch (id : Nat) (fromFor : Bool) (cnd : RExpr) (arms : List RArm)
  | other (id : Nat) (parts : List RPart)
inductive RPart
  | expr (e : RExpr)
  | block (b : RBlock)
  | body (value : RExpr)
inductive RArm
  | mk (id pat : Nat) (guard : Option RExpr) (body : RExpr)
/-- `hir::Stmt`; a `let` has the identifier of the statement and that of the `LetStmt` -/
inductive RStmt
  | lt (id letId : Nat) (init : Option RExpr) (els : Option RBlock)
  | expr (id : Nat) (e : RExpr)
  | item (id : Nat) (bodies : List RPart)
inductive RBlock
  | mk (id : Nat) (stmts : List RStmt) (expr : Option RExpr)
end

/-- `expr.hir_id` -/
def RExpr.id : RExpr → Nat
  | .ite n _ _ _ => n
  | .whileLoop n _ _ _ => n
  | .forLoop n _ _ _ => n
  | .mtch n _ _ _ => n
  | .other n _ => n

/-- A function as the analysis is given it. -/
structure Source where
  body : Body
  hir : Hir
  hirOf : Loc → Nat
  /-- `span_of`, and its two ends -/
  span : Nat → Nat
  lo : Nat → Nat
  hi : Nat → Nat
  /-- the local of a `FakeRead(ForLet, place)` -/
  letRead : Loc → Option Nat

/-- `get_mir_locations` (ir_mapper/mod.rs:183-267) in the mapper of the analysis. -/
def Source.locations (s : Source) (id : Nat) (nested : Bool) : Option Ordered :=
  s.body.mirLocations (gather (hirToMir s.body s.hirOf false) s.hir.parents id nested)

/-- `get_node_entry` (hir_steps.rs:250-255), and `get_node_exit` (hir_steps.rs:257-277) before moving on. -/
def Source.node (s : Source) (id : Nat) : Node where
  entry := (s.locations id true).bind Ordered.entryLocation
  exit := (s.locations id true).bind Ordered.exitLocation
  span := s.span id
  lo := s.lo id
  hi := s.hi id

/-- `local_assigned_place` (ir_mapper/mod.rs:137-160) with `p.local` (hir_steps.rs:524-527). -/
def Source.declared (s : Source) (letId : Nat) : List Nat :=
  match s.locations letId false with
  | none => []
  | some o => o.values.filterMap s.letRead

mutual
def Source.expr (s : Source) : RExpr → Expr
  | .ite n c t e => .ite (s.node n) (s.expr c) (s.expr t) (s.optExpr e)
  | .whileLoop n c t e => .whileLoop (s.node n) (s.expr c) (s.expr t) (s.expr e)
  | .forLoop n c a b => .forLoop (s.node n) (s.expr c) (s.arm a) (s.arm b)
  | .mtch n k c as => .mtch (s.node n) k (s.expr c) (s.arms as)
  | .other n ps => .other (s.node n) (s.parts ps)
def Source.optExpr (s : Source) : Option RExpr → Option Expr
  | none => none
  | some e => some (s.expr e)
def Source.parts (s : Source) : List RPart → List Part
  | [] => []
  | p :: r => s.part p :: s.parts r
def Source.part (s : Source) : RPart → Part
  | .expr e => .expr (s.expr e)
  | .block b => .block (s.block b)
  | .body e => .body (s.expr e)
def Source.arms (s : Source) : List RArm → List Arm
  | [] => []
  | a :: r => s.arm a :: s.arms r
def Source.arm (s : Source) : RArm → Arm
  | .mk n p g e => .mk (s.node n) (s.node p) (s.optExpr g) (s.expr e)
def Source.stmts (s : Source) : List RStmt → List Stmt
  | [] => []
  | x :: r => s.stmt x :: s.stmts r
def Source.stmt (s : Source) : RStmt → Stmt
  | .lt n l i e => .lt (s.node n) (s.declared l) (s.optExpr i) (s.optBlock e)
  | .expr n e => .expr (s.node n) (s.expr e)
  | .item n ps => .item (s.node n) (s.parts ps)
def Source.optBlock (s : Source) : Option RBlock → Option HirSteps.Block
  | none => none
  | some b => some (s.block b)
def Source.block (s : Source) : RBlock → HirSteps.Block
  | .mk n ss e => .mk (s.node n) (s.stmts ss) (s.optExpr e)
end

/-- `compute_permission_steps` (stepper/mod.rs:341-362) up to `freeze`, for the body with the given value. -/
def Source.compute (s : Source) (fuel : Nat) (order : List (Loc × Nat) → List (Loc × Nat)) (value : RExpr) : Outcome :=
  HirSteps.compute (.ofBody s.body fuel order) (s.expr value)

end Verif.HirSource
