import Verif.HirSteps.Spec
/-!
# Bodies as examples
-/
namespace Verif.HirSteps

open Verif.Cfg Verif.Segments

/-- A node with the given first and last location; its span is `10 k`, the two ends are `10 k + 1`, `10 k + 2`. -/
def nd (entry exit : Option Loc) (k : Nat) : Node := ⟨entry, exit, 10 * k, 10 * k + 1, 10 * k + 2⟩

/-- A node that occupies the locations from `i` to `j` of a block. -/
def at' (blk i j k : Nat) : Node := nd (some ⟨blk, i⟩) (some ⟨blk, j⟩) k

/-- An expression or statement without parts that matter. -/
def leaf (blk i j k : Nat) : Expr := .other (at' blk i j k) []
def stm (blk i j k : Nat) : Stmt := .expr (at' blk i j k) (leaf blk i j k)

/-- `{ s; … }` -/
def blockOf (entry exit : Option Loc) (k : Nat) (stmts : List Stmt) (e : Option Expr) : Expr :=
  .other (nd entry exit k) [.block (.mk (nd entry exit k) stmts e)]

def plainEnv (b : Body) : Env := .ofBody b 5 id

/-- `if c { return; } s1;` -/
def earlyBody : Body :=
  [⟨1, .switchInt [2, 1], false⟩, ⟨1, .goto 3, false⟩, ⟨2, .goto 3, false⟩, ⟨0, .ret, false⟩]

/-- `if c { return; }` -/
def earlyIf : Stmt := .expr (nd (some ⟨0, 0⟩) none 2)
  (.ite (nd (some ⟨0, 0⟩) none 3) (leaf 0 0 0 4) (blockOf (some ⟨1, 0⟩) (some ⟨1, 0⟩) 5 [stm 1 0 0 6] none) none)

def earlyFn : Expr := blockOf (some ⟨0, 0⟩) (some ⟨3, 0⟩) 1 [earlyIf, stm 2 0 0 7] none

/-- Unfolds the visits of a given tree. -/
macro "unfold_visit" : tactic => `(tactic| simp only [compute, visitBody, blockOf, leaf, stm, visitExpr, visitElse,
  visitOpt, visitParts, visitPart, visitArms, visitArm, visitStmts, visitStmt, visitOptBlock, visitBlock, Expr.node])

def outcomeSegs : Outcome → Option (List (Loc × Loc × Nat))
  | .steps f _ => some (f.segs.map fun g => (g.from, g.to, g.span))
  | _ => none

/-- `if c { a; } b;` -/
def plainBody : Body :=
  [⟨1, .switchInt [2, 1], false⟩, ⟨1, .goto 3, false⟩, ⟨1, .goto 3, false⟩, ⟨1, .goto 4, false⟩, ⟨0, .ret, false⟩]

def plainIf : Stmt := .expr (nd (some ⟨0, 0⟩) (some ⟨2, 0⟩) 2)
  (.ite (nd (some ⟨0, 0⟩) (some ⟨2, 0⟩) 3) (leaf 0 0 0 4)
    (blockOf (some ⟨1, 0⟩) (some ⟨1, 0⟩) 5 [stm 1 0 0 6] none) none)

def plainFn : Expr := blockOf (some ⟨0, 0⟩) (some ⟨4, 0⟩) 1 [plainIf, stm 3 0 0 7] none

/-- `if c { return; } if d { a; } b;` -/
def laterBody : Body :=
  [⟨1, .switchInt [2, 1], false⟩, ⟨1, .goto 6, false⟩, ⟨2, .switchInt [4, 3], false⟩, ⟨1, .goto 5, false⟩,
    ⟨1, .goto 5, false⟩, ⟨1, .goto 6, false⟩, ⟨0, .ret, false⟩]

def laterIf : Stmt := .expr (nd (some ⟨2, 0⟩) (some ⟨4, 0⟩) 12)
  (.ite (nd (some ⟨2, 0⟩) (some ⟨4, 0⟩) 13) (leaf 2 0 1 14)
    (blockOf (some ⟨3, 0⟩) (some ⟨3, 0⟩) 15 [stm 3 0 0 16] none) none)

def laterFn : Expr := blockOf (some ⟨0, 0⟩) (some ⟨6, 0⟩) 1 [earlyIf, laterIf, stm 5 0 0 7] none

/-- `if c { let Some(x) = e else { s; return; }; t; } u;` -/
def letElseBody : Body :=
  [⟨1, .switchInt [5, 1], false⟩, ⟨1, .switchInt [2, 3], false⟩, ⟨1, .goto 7, false⟩, ⟨1, .goto 4, false⟩,
    ⟨1, .goto 6, false⟩, ⟨1, .goto 6, false⟩, ⟨1, .goto 7, false⟩, ⟨0, .ret, false⟩]

def letElse : Stmt := .lt (nd (some ⟨1, 0⟩) (some ⟨3, 0⟩) 5) [1] (some (leaf 1 0 0 6))
  (some (.mk (at' 2 0 0 7) [stm 2 0 0 8] none))

def letElseFn : Expr := blockOf (some ⟨0, 0⟩) (some ⟨7, 0⟩) 1 [.expr (nd (some ⟨0, 0⟩) none 2)
  (.ite (nd (some ⟨0, 0⟩) none 3) (leaf 0 0 0 4)
    (blockOf (some ⟨1, 0⟩) (some ⟨4, 0⟩) 9 [letElse, stm 4 0 0 10] none) none), stm 6 0 0 11] none

/-- `if c { a && { s; true }; t; } u;` -/
def andBody : Body :=
  [⟨1, .switchInt [5, 1], false⟩, ⟨1, .switchInt [3, 2], false⟩, ⟨1, .goto 4, false⟩, ⟨1, .goto 4, false⟩,
    ⟨1, .goto 6, false⟩, ⟨1, .goto 6, false⟩, ⟨1, .goto 7, false⟩, ⟨0, .ret, false⟩]

def andStmt : Stmt := .expr (nd (some ⟨1, 0⟩) (some ⟨4, 0⟩) 5) (.other (nd (some ⟨1, 0⟩) (some ⟨4, 0⟩) 5)
  [.expr (leaf 1 0 0 6), .expr (blockOf (some ⟨2, 0⟩) (some ⟨2, 0⟩) 7 [stm 2 0 0 8] none)])

def andFn : Expr := blockOf (some ⟨0, 0⟩) (some ⟨7, 0⟩) 1 [.expr (nd (some ⟨0, 0⟩) (some ⟨5, 0⟩) 2)
  (.ite (nd (some ⟨0, 0⟩) (some ⟨5, 0⟩) 3) (leaf 0 0 0 4)
    (blockOf (some ⟨1, 0⟩) (some ⟨4, 0⟩) 9 [andStmt, stm 4 0 0 10] none) none), stm 6 0 0 11] none

/-- `match x { Some(0) => a, Some(_) => b, None => c } d;`: the first two arms share a target of the first switch. -/
def sharedBody : Body :=
  [⟨1, .switchInt [2, 1], false⟩, ⟨1, .switchInt [4, 3], false⟩, ⟨1, .goto 5, false⟩, ⟨1, .goto 5, false⟩,
    ⟨1, .goto 5, false⟩, ⟨1, .goto 6, false⟩, ⟨0, .ret, false⟩]

def armAt (blk k : Nat) (guard : Option Expr) : Arm :=
  .mk (at' blk 0 0 k) (nd none none (k + 1)) guard (leaf blk 0 0 (k + 2))

def sharedMatch : Expr := .mtch (nd (some ⟨0, 0⟩) (some ⟨4, 0⟩) 3) false (leaf 0 0 0 4)
  [armAt 3 20 none, armAt 4 30 none, armAt 2 40 none]

def sharedFn : Expr := blockOf (some ⟨0, 0⟩) (some ⟨6, 0⟩) 1
  [.expr (nd (some ⟨0, 0⟩) (some ⟨4, 0⟩) 2) sharedMatch, stm 5 0 0 7] none

/-- `match b { true if g => a, _ => c } d;`, by and large -/
def guardMatch : Expr := .mtch (nd (some ⟨0, 0⟩) (some ⟨2, 0⟩) 3) false (leaf 0 0 0 4)
  [armAt 1 20 (some (leaf 1 0 0 25)), armAt 2 40 none]

def guardFn : Expr := blockOf (some ⟨0, 0⟩) (some ⟨4, 0⟩) 1
  [.expr (nd (some ⟨0, 0⟩) (some ⟨2, 0⟩) 2) guardMatch, stm 3 0 0 7] none

def outcomeFatal : Outcome → Option (List Fatal)
  | .internal f => some f
  | _ => none

theorem plain_segs : outcomeSegs (compute (plainEnv plainBody) plainFn) = some [(⟨0, 0⟩, ⟨0, 1⟩, 40),
    (⟨0, 1⟩, ⟨2, 0⟩, 32), (⟨0, 1⟩, ⟨1, 0⟩, 51), (⟨1, 0⟩, ⟨1, 1⟩, 60), (⟨3, 0⟩, ⟨3, 1⟩, 70), (⟨3, 1⟩, ⟨4, 0⟩, 10)] := by
  unfold plainFn plainIf
  unfold_visit
  decide +kernel

theorem early_segs : outcomeSegs (compute (plainEnv earlyBody) earlyFn) = some [(⟨0, 0⟩, ⟨0, 1⟩, 40),
    (⟨0, 1⟩, ⟨2, 0⟩, 32), (⟨0, 1⟩, ⟨1, 0⟩, 51), (⟨1, 0⟩, ⟨1, 1⟩, 60), (⟨3, 0⟩, ⟨3, 0⟩, 10)] := by
  unfold earlyFn earlyIf
  unfold_visit
  decide +kernel

theorem later_fatal : compute (plainEnv laterBody) laterFn = .internal [.openBranch] := by
  unfold laterFn earlyIf laterIf
  unfold_visit
  decide +kernel

theorem letElse_open : compute (plainEnv letElseBody) letElseFn = .notFinished := by
  unfold letElseFn letElse
  unfold_visit
  decide +kernel

theorem and_open : compute (plainEnv andBody) andFn = .notFinished := by
  unfold andFn andStmt
  unfold_visit
  decide +kernel

theorem guard_unsupported : compute (plainEnv plainBody) guardFn = .unsupported := by
  unfold guardFn guardMatch armAt
  unfold_visit
  decide +kernel

theorem shared_first : outcomeSegs (compute (.ofBody sharedBody 5 id) sharedFn) = some [(⟨0, 0⟩, ⟨0, 1⟩, 40),
    (⟨0, 1⟩, ⟨2, 0⟩, 412), (⟨0, 1⟩, ⟨3, 0⟩, 212), (⟨3, 0⟩, ⟨3, 0⟩, 201), (⟨2, 0⟩, ⟨2, 0⟩, 401), (⟨5, 0⟩, ⟨5, 1⟩, 70),
    (⟨5, 1⟩, ⟨6, 0⟩, 10)] := by
  unfold sharedFn sharedMatch armAt
  unfold_visit
  decide +kernel

theorem shared_last : outcomeSegs (compute (.ofBody sharedBody 5 List.reverse) sharedFn) = some
    [(⟨0, 0⟩, ⟨0, 1⟩, 40), (⟨0, 1⟩, ⟨2, 0⟩, 412), (⟨0, 1⟩, ⟨4, 0⟩, 312), (⟨4, 0⟩, ⟨4, 0⟩, 301), (⟨2, 0⟩, ⟨2, 0⟩, 401),
      (⟨5, 0⟩, ⟨5, 1⟩, 70), (⟨5, 1⟩, ⟨6, 0⟩, 10)] := by
  unfold sharedFn sharedMatch armAt
  unfold_visit
  decide +kernel

end Verif.HirSteps
