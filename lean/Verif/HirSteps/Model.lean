import Verif.Segments.Model
/-!
# Model of the visitor that places the permission steps

Models `HirStepPoints` of `crates/aquascope/src/analysis/stepper/hir_steps.rs:75-768` on top of the model of the
builder of segments (`Verif.Segments.Model`), and `compute_permission_steps` of `stepper/mod.rs:341-362` up to the
call of `freeze`.

Simplifications.
* An expression is a tree with the four shapes the visitor distinguishes (`if`, the two loop desugarings, `match`)
  and a fifth shape for everything else, with the nested expressions, blocks and bodies in the order in which
  rustc's `walk_expr` visits them.  A `loop` whose body has one of the two desugared forms is that shape; any
  other loop is of the fifth shape.
* What the visitor asks the IR mapper about a node (its entry, and its exit before it is moved to the
  successor, both for `GatherDepth::Nested`) and its span are stored in the node.  A span is a number; its empty
  prefix and its empty suffix are two further numbers.  `Span::default()` is 0.
* Patterns have no sub-expressions.
* The hash maps of `entry_locs_to_spans` are association lists, iterated in an order `order` that is a parameter.
* An error is represented by the call that reported it.  Path hints are kept, but `insert` ignores them
  (segmented_mir.rs:775-803 only logs and passes them on).
* `calls` records the calls to the builder; the code has no such list.
* Logging is left out.
-/
namespace Verif.HirSteps

open Verif.Cfg Verif.Segments

/-- What is known about a HIR node. -/
structure Node where
  /-- `get_node_entry` (hir_steps.rs:250-255) -/
  entry : Option Loc
  /-- `mir_order.exit_location()` inside `get_node_exit` (hir_steps.rs:257-260,270) -/
  exit : Option Loc
  /-- `span_of` -/
  span : Nat
  /-- `span_of(..).shrink_to_lo()` -/
  lo : Nat
  /-- `span_of(..).shrink_to_hi()` -/
  hi : Nat
  deriving DecidableEq, Repr

mutual
/-- `hir::Expr` -/
inductive Expr
  /-- `EK::If` -/
  | ite (n : Node) (cnd thn : Expr) (els : Option Expr)
  /-- `EK::Loop` of the form `loop { if cnd thn else els }` with `LoopSource::While` -/
  | whileLoop (n : Node) (cnd thn els : Expr)
  /-- `EK::Loop` of the form `loop { match cnd { nothing, item } }` with `LoopSource::ForLoop` -/
  | forLoop (n : Node) (cnd : Expr) (nothing item : Arm)
  /-- `EK::Match`; the flag says whether its source is `MatchSource::ForLoopDesugar` -/
  | mtch (n : Node) (fromFor : Bool) (cnd : Expr) (arms : List Arm)
  | other (n : Node) (parts : List Part)
/-- A child of an expression of the fifth kind. -/
inductive Part
  | expr (e : Expr)
  | block (b : Block)
  /-- the body of a closure or of a nested item, whose value is the given expression -/
  | body (value : Expr)
/-- `hir::Arm` -/
inductive Arm
  | mk (n pat : Node) (guard : Option Expr) (body : Expr)
/-- `hir::Stmt` -/
inductive Stmt
  /-- `StmtKind::Let`: `locals` is what `local_assigned_place` returns -/
  | lt (n : Node) (locals : List Nat) (init : Option Expr) (els : Option Block)
  | expr (n : Node) (e : Expr)
  /-- `StmtKind::Item` with the values of the bodies nested in the item -/
  | item (n : Node) (bodies : List Part)
/-- `hir::Block` -/
inductive Block
  | mk (n : Node) (stmts : List Stmt) (expr : Option Expr)
end

/-- `expr.hir_id` -/
def Expr.node : Expr → Node
  | .ite n _ _ _ => n
  | .whileLoop n _ _ _ => n
  | .forLoop n _ _ _ => n
  | .mtch n _ _ _ => n
  | .other n _ => n

def Stmt.node : Stmt → Node
  | .lt n _ _ _ => n
  | .expr n _ => n
  | .item n _ => n

def Arm.node : Arm → Node | .mk n _ _ _ => n
def Arm.pat : Arm → Node | .mk _ p _ _ => p
def Arm.guard : Arm → Option Expr | .mk _ _ g _ => g
def Arm.body : Arm → Expr | .mk _ _ _ b => b

/-- The surroundings of a visit. -/
structure Env where
  m : Mapper
  /-- `cleaned_graph.location_successor` -/
  next : Loc → Option Loc
  /-- which root survives a union of equal ranks, see `Uf.union` -/
  secondWins : Bool
  /-- how many branches one insertion may open before the model gives up, see `St.insert` -/
  fuel : Nat
  /-- the order in which a hash map is iterated -/
  order : List (Loc × Nat) → List (Loc × Nat)

/-- The surroundings for a body. -/
def Env.ofBody (b : Body) (fuel : Nat) (order : List (Loc × Nat) → List (Loc × Nat)) : Env :=
  ⟨b.mapper, b.locationSuccessor, true, fuel, order⟩

/-- The visitor calls that can report an internal error. -/
inductive Fatal
  | insert
  | openScope
  | closeScope
  | openBranch
  | closeBranch
  | hint
  deriving DecidableEq, Repr

/-- A call to the builder. -/
inductive Call
  | openScope
  | closeScope (id : Nat)
  | openBranch (l : Loc)
  | closeBranch (bid : Nat)
  | insert (l : Loc) (span : Nat)
  deriving DecidableEq, Repr

/-- `HirStepPoints` (hir_steps.rs:78-101). -/
structure V where
  st : St
  /-- `current_branch_start`, the last one first -/
  hints : List Loc
  unsupported : Nat
  fatal : List Fatal
  locals : List (Nat × List Nat)
  calls : List Call

/-- `make` (hir_steps.rs:145-168). -/
def V.make : V := ⟨St.make, [], 0, [], [], []⟩

/-- Not in the code: the record of the calls. -/
def V.called (v : V) (c : Call) : V := { v with calls := v.calls ++ [c] }

/-- `fatal_errors.push` (hir_steps.rs:113,135). -/
def V.failed (v : V) (f : Fatal) : V := { v with fatal := v.fatal ++ [f] }

abbrev Visit := V → Except Err V

/-- The state a failing insertion leaves behind: the branches opened before the failure stay. -/
def insertLeft (E : Env) : Nat → St → Loc → St
  | 0, s, _ => s
  | fuel + 1, s, location =>
    match s.findSuitable E.m location with
    | .nonLinear parent branchLoc =>
      match s.openChild E.secondWins E.m parent branchLoc with
      | .error _ => s
      | .ok s' => insertLeft E fuel s' location
    | _ => s

/-- `invoke_internal!(.., insert, ..)` (hir_steps.rs:110-132): the flag says whether the call succeeded; a panic
or an endless loop ends the visit. -/
def V.insert (E : Env) (v : V) (l : Loc) (span : Nat) : Except Err (V × Bool) :=
  let v := v.called (.insert l span)
  match v.st.insert E.secondWins E.m E.fuel l span with
  | .ok s => .ok ({ v with st := s }, true)
  | .error .fail => .ok ({ v.failed .insert with st := insertLeft E E.fuel v.st l }, false)
  | .error e => .error e

/-- `invoke_internal!(.., open_scope)`. -/
def V.openScope (v : V) : Except Err (V × Option Nat) :=
  let v := v.called (.openScope)
  match v.st.openScope with
  | .ok (id, s) => .ok ({ v with st := s }, some id)
  | .error .fail => .ok (v.failed .openScope, none)
  | .error e => .error e

/-- `invoke_internal!(.., close_scope, ..)`. -/
def V.closeScope (v : V) (id : Nat) : Except Err (V × Bool) :=
  let v := v.called (.closeScope id)
  match v.st.closeScope id with
  | .ok s => .ok ({ v with st := s }, true)
  | .error .fail => .ok (v.failed .closeScope, false)
  | .error e => .error e

/-- `invoke_internal!(.., open_branch, ..)`. -/
def V.openBranch (E : Env) (v : V) (l : Loc) (f : Spanner) : Except Err (V × Option Nat) :=
  let v := v.called (.openBranch l)
  match v.st.openBranch E.m l f with
  | .ok (bid, s) => .ok ({ v with st := s }, some bid)
  | .error .fail => .ok (v.failed .openBranch, none)
  | .error e => .error e

/-- `expr_condition_postlude` (hir_steps.rs:325-332). -/
def V.closeBranch (v : V) (bid : Nat) : Except Err V :=
  let v := v.called (.closeBranch bid)
  match v.st.closeBranch bid with
  | .ok s => .ok { v with st := s }
  | .error .fail => .ok (v.failed .closeBranch)
  | .error e => .error e

/-- `push_branch_start` (hir_steps.rs:219-221). -/
def V.push (v : V) (l : Loc) : V := { v with hints := l :: v.hints }

/-- `pop_branch_start` (hir_steps.rs:223-232). -/
def V.pop (v : V) (expecting : Loc) : V :=
  match v.hints with
  | [] => v
  | popped :: r =>
    if popped = expecting then { v with hints := r } else ({ v with hints := r } : V).failed .hint

/-- `get_node_exit` (hir_steps.rs:257-277). -/
def Env.exitOf (E : Env) (n : Node) : Option Loc := n.exit.map (fun e => (E.next e).getD e)

/-- `insert_step_at_node_exit` (hir_steps.rs:338-353). -/
def V.stepAfter (E : Env) (v : V) (n : Node) : Except Err V :=
  match E.exitOf n with
  | none => .ok v
  | some exit => match v.insert E exit n.span with
    | .error e => .error e
    | .ok (v, _) => .ok v

/-- `condition_produced_switchint` (hir_steps.rs:355-368). -/
def Env.producedSwitch (E : Env) (n : Node) : Bool :=
  match E.exitOf n with
  | some exit => E.m.isSwitch exit.block
  | none => true

/-- `HashMap::insert`. -/
def setSpan (m : List (Loc × Nat)) (k : Loc) (s : Nat) : List (Loc × Nat) :=
  match m with
  | [] => [(k, s)]
  | (k', s') :: r => if k' = k then (k, s) :: r else (k', s') :: setSpan r k s

def setEntry (m : List (Loc × Nat)) (k : Option Loc) (s : Nat) : List (Loc × Nat) :=
  match k with
  | none => m
  | some k => setSpan m k s

/-- The closures given to `open_branch` (hir_steps.rs:405-418,461-475). -/
def Env.spanner (E : Env) (entries : List (Loc × Nat)) (default : Nat) : Spanner := fun to =>
  match (E.order entries).find? (fun e => E.m.ldom to e.1) with
  | some (l, span) => (l, span)
  | none => (to, default)

/-- `expr_condition_prelude` (hir_steps.rs:291-320). -/
def prelude (E : Env) (n cn : Node) (visitCnd : Visit) (v : V) : Except Err (V × Option Loc) :=
  match visitCnd v with
  | .error e => .error e
  | .ok v =>
    match (E.exitOf cn).or n.entry with
    | none => .ok (v, none)
    | some exit => match v.insert E exit cn.span with
      | .error e => .error e
      | .ok (v, ok) => .ok (v, if ok then some exit else none)

/-- One branch of an `if` (hir_steps.rs:420-442). -/
def visitUnder (n : Node) (visit : Visit) (v : V) : Except Err V :=
  match n.entry with
  | none => .ok v
  | some entry => match visit (v.push entry) with
    | .error e => .error e
    | .ok v => .ok (v.pop entry)

/-- `handle_expr_if` (hir_steps.rs:373-445) and `handle_expr_match` (hir_steps.rs:447-482), which differ in the
default span and in what is visited while the branch is open. -/
def handleBranch (E : Env) (n cn : Node) (visitCnd visitInner : Visit) (entries : List (Loc × Nat))
    (default : Nat) (v : V) : Except Err V :=
  match prelude E n cn visitCnd v with
  | .error e => .error e
  | .ok (v, none) => .ok v
  | .ok (v, some exit) => match v.openBranch E exit (E.spanner entries default) with
    | .error e => .error e
    | .ok (v, none) => .ok v
    | .ok (v, some bid) => match visitInner v with
      | .error e => .error e
      | .ok v => v.closeBranch bid

/-- First one, then the other. -/
def seq (a b : Visit) : Visit := fun v =>
  match a v with
  | .error e => .error e
  | .ok v => b v

/-- `visit_arm` (hir_steps.rs:735-767); `guard` is given if there is one. -/
def handleArm (E : Env) (n bn : Node) (guard : Option Visit) (visitBody : Visit) (v : V) : Except Err V :=
  let v := if guard.isSome then { v with unsupported := v.unsupported + 1 } else v
  match n.entry with
  | none => .ok v
  | some armEntry =>
    let v := v.push armEntry
    match bn.entry with
    | some entry => match v.insert E entry n.lo with
      | .error e => .error e
      | .ok (v, false) => .ok v
      | .ok (v, true) => match visitBody v with
        | .error e => .error e
        | .ok v => .ok (v.pop armEntry)
    | none => match seq (guard.getD .ok) visitBody v with
      | .error e => .error e
      | .ok v => .ok (v.pop armEntry)

/-- `visit_block` (hir_steps.rs:497-511) around its statements and final expression. -/
def inScope (visit : Visit) (v : V) : Except Err V :=
  match v.openScope with
  | .error e => .error e
  | .ok (v, none) => .ok v
  | .ok (v, some scope) => match visit v with
    | .error e => .error e
    | .ok v => match v.closeScope scope with
      | .error e => .error e
      | .ok (v, _) => .ok v

/-- `visit_stmt` (hir_steps.rs:513-541) around `walk_stmt`. -/
def inStmt (E : Env) (n : Node) (locals : List Nat) (visit : Visit) (v : V) : Except Err V :=
  match v.openScope with
  | .error e => .error e
  | .ok (v, none) => .ok v
  | .ok (v, some scope) =>
    let v := if locals.isEmpty then v else { v with locals := v.locals ++ [(scope, locals)] }
    match visit v with
    | .error e => .error e
    | .ok v => match v.closeScope scope with
      | .error e => .error e
      | .ok (v, false) => .ok v
      | .ok (v, true) => v.stepAfter E n

/-- The entries of the arms of a `match` and the ends of their patterns (hir_steps.rs:711-719). -/
def armEntries (arms : List Arm) : List (Loc × Nat) :=
  arms.foldl (fun m a => setEntry m a.body.node.entry a.pat.hi) []

mutual
/-- `visit_expr` (hir_steps.rs:543-732) -/
def visitExpr (E : Env) : Expr → Visit
  | .ite n cnd thn els =>
    handleBranch E n cnd.node (visitExpr E cnd)
      (seq (visitUnder thn.node (visitExpr E thn)) (visitElse E els))
      (match els with
        | none => setEntry [] thn.node.entry thn.node.lo
        | some els => setEntry (setEntry [] thn.node.entry thn.node.lo) els.node.entry els.node.lo) n.hi
  | .whileLoop n cnd thn els =>
    handleBranch E n cnd.node (visitExpr E cnd)
      (seq (visitUnder thn.node (visitExpr E thn)) (visitUnder els.node (visitExpr E els)))
      (setEntry (setEntry [] thn.node.entry thn.node.lo) els.node.entry n.hi) n.hi
  | .forLoop n cnd nothing item =>
    handleBranch E n cnd.node (visitExpr E cnd) (seq (visitArm E nothing) (visitArm E item))
      (setEntry (setEntry [] nothing.body.node.entry n.hi) item.body.node.entry item.body.node.lo) 0
  | .mtch n fromFor cnd arms =>
    if fromFor && decide (arms.length = 1) && !E.producedSwitch cnd.node then
      seq (visitExpr E cnd) (visitArms E arms)
    else
      handleBranch E n cnd.node (visitExpr E cnd) (visitArms E arms) (armEntries arms) 0
  | .other _ parts => visitParts E parts
/-- the `else` of `handle_expr_if` (hir_steps.rs:431-442) -/
def visitElse (E : Env) : Option Expr → Visit
  | none => .ok
  | some e => visitUnder e.node (visitExpr E e)
/-- an optional child of a statement or arm -/
def visitOpt (E : Env) : Option Expr → Visit
  | none => .ok
  | some e => visitExpr E e
def visitParts (E : Env) : List Part → Visit
  | [] => .ok
  | p :: r => seq (visitPart E p) (visitParts E r)
def visitPart (E : Env) : Part → Visit
  | .expr e => visitExpr E e
  | .block b => visitBlock E b
  | .body e => seq (visitExpr E e) (fun v => v.stepAfter E e.node)
def visitArms (E : Env) : List Arm → Visit
  | [] => .ok
  | a :: r => seq (visitArm E a) (visitArms E r)
/-- `visit_arm` (hir_steps.rs:735-767) -/
def visitArm (E : Env) : Arm → Visit
  | .mk n _ guard body =>
    handleArm E n body.node (match guard with | none => none | some g => some (visitExpr E g)) (visitExpr E body)
def visitStmts (E : Env) : List Stmt → Visit
  | [] => .ok
  | s :: r => seq (visitStmt E s) (visitStmts E r)
/-- `visit_stmt` with rustc's `walk_stmt`: the initialiser of a `let` comes before its `else` block -/
def visitStmt (E : Env) : Stmt → Visit
  | .lt n locals init els => inStmt E n locals (seq (visitOpt E init) (visitOptBlock E els))
  | .expr n e => inStmt E n [] (visitExpr E e)
  | .item n bodies => inStmt E n [] (visitParts E bodies)
def visitOptBlock (E : Env) : Option Block → Visit
  | none => .ok
  | some b => visitBlock E b
/-- `visit_block` (hir_steps.rs:497-511) -/
def visitBlock (E : Env) : Block → Visit
  | .mk _ stmts none => inScope (visitStmts E stmts)
  | .mk _ stmts (some e) =>
    inScope (seq (visitStmts E stmts) (seq (visitExpr E e) (fun v => v.stepAfter E e.node)))
end

/-- `visit_body` (hir_steps.rs:492-495) -/
def visitBody (E : Env) (value : Expr) : Visit := seq (visitExpr E value) (fun v => v.stepAfter E value.node)

/-- What `compute_permission_steps` reports (stepper/mod.rs:341-362) -/
inductive Outcome
  | unsupported
  | internal (errors : List Fatal)
  | notFinished
  | steps (f : Frozen) (locals : List (Nat × List Nat))
  | crash (e : Err)
  deriving DecidableEq, Repr

/-- `compute_permission_steps` (stepper/mod.rs:341-362) up to `freeze` in `finalize` (hir_steps.rs:190-213). -/
def compute (E : Env) (value : Expr) : Outcome :=
  match visitBody E value V.make with
  | .error e => .crash e
  | .ok v =>
    if v.unsupported ≠ 0 then .unsupported
    else if v.fatal ≠ [] then .internal v.fatal
    else match v.st.freeze with
      | .error _ => .notFinished
      | .ok f => .steps f v.locals

end Verif.HirSteps
