import Verif.HirSteps.Model
/-!
# Specification of the visitor that places the permission steps
-/
namespace Verif.HirSteps

open Verif.Cfg Verif.Segments

/-- The calls are properly nested: every scope that is opened is closed again, under the number it got, with
properly nested calls in between; a branch that was opened is closed, or could not be opened.  The numbers are the
next free scope before and after. -/
inductive Nested : Nat → List Call → Nat → Prop
  | nil (k) : Nested k [] k
  | insert (k l sp) : Nested k [.insert l sp] k
  | refused (k l) : Nested k [.openBranch l] k
  | branch {k cs k'} (l bid) : Nested k cs k' → Nested k (.openBranch l :: cs ++ [.closeBranch bid]) k'
  | scope {k cs k'} : Nested (k + 1) cs k' → Nested k (.openScope :: cs ++ [.closeScope k]) k'
  | append {k cs k' ds k''} : Nested k cs k' → Nested k' ds k'' → Nested k (cs ++ ds) k''

/-- Dominance of locations is a preorder. -/
structure Ordered (m : Mapper) : Prop where
  refl : ∀ l, m.ldom l l = true
  trans : ∀ a b c, m.ldom a b = true → m.ldom b c = true → m.ldom a c = true

/-! ## Where the steps of a body are due -/

/-- What is due while a body is walked through. -/
inductive Due
  /-- a step that ends at the location and is shown at the span -/
  | step (l : Loc) (span : Nat)
  /-- a conditional whose condition has been evaluated at the location -/
  | fork (l : Loc)
  /-- an arm with a guard -/
  | guard
  deriving DecidableEq, Repr

/-- The step after a node: at the location following its last one. -/
def after (next : Loc → Option Loc) (n : Node) : Option Loc := n.exit.map fun e => (next e).getD e

def dueAfter (next : Loc → Option Loc) (n : Node) : List Due :=
  match after next n with
  | none => []
  | some l => [.step l n.span]

/-- A conditional: nothing inside is considered unless the condition or the whole expression has a location. -/
def dueFork (next : Loc → Option Loc) (n cnd : Node) (inner : List Due) : List Due :=
  match after next cnd, n.entry with
  | some l, _ => .step l cnd.span :: .fork l :: inner
  | none, some l => .step l cnd.span :: .fork l :: inner
  | none, none => []

/-- Nothing is due below a node without a first location. -/
def dueIf (n : Node) (inner : List Due) : List Due := if n.entry = none then [] else inner

/-- A `match` generated for a `for` loop, with one arm, whose condition does not end in a switch. -/
def isPlain (isSwitch : Nat → Bool) (next : Loc → Option Loc) (fromFor : Bool) (cnd : Node) (arms : Nat) : Bool :=
  fromFor && arms == 1 && (match after next cnd with
    | some l => !isSwitch l.block
    | none => false)

mutual
/-- What is due in an expression, in order. -/
def dueExpr (sw : Nat → Bool) (next : Loc → Option Loc) : Expr → List Due
  | .ite n cnd thn els =>
    dueExpr sw next cnd ++ dueFork next n cnd.node (dueIf thn.node (dueExpr sw next thn) ++ dueElse sw next els)
  | .whileLoop n cnd thn els =>
    dueExpr sw next cnd ++ dueFork next n cnd.node
      (dueIf thn.node (dueExpr sw next thn) ++ dueIf els.node (dueExpr sw next els))
  | .forLoop n cnd nothing item =>
    dueExpr sw next cnd ++ dueFork next n cnd.node (dueArm sw next nothing ++ dueArm sw next item)
  | .mtch n fromFor cnd arms =>
    dueExpr sw next cnd ++ (if isPlain sw next fromFor cnd.node arms.length then dueArms sw next arms
      else dueFork next n cnd.node (dueArms sw next arms))
  | .other _ parts => dueParts sw next parts
def dueElse (sw : Nat → Bool) (next : Loc → Option Loc) : Option Expr → List Due
  | none => []
  | some e => dueIf e.node (dueExpr sw next e)
def dueOpt (sw : Nat → Bool) (next : Loc → Option Loc) : Option Expr → List Due
  | none => []
  | some e => dueExpr sw next e
def dueParts (sw : Nat → Bool) (next : Loc → Option Loc) : List Part → List Due
  | [] => []
  | p :: r => duePart sw next p ++ dueParts sw next r
def duePart (sw : Nat → Bool) (next : Loc → Option Loc) : Part → List Due
  | .expr e => dueExpr sw next e
  | .block b => dueBlock sw next b
  | .body e => dueExpr sw next e ++ dueAfter next e.node
def dueArms (sw : Nat → Bool) (next : Loc → Option Loc) : List Arm → List Due
  | [] => []
  | a :: r => dueArm sw next a ++ dueArms sw next r
/-- The step into an arm is shown at the start of the arm.  The guard is walked through only if the body of the
arm has no location. -/
def dueArm (sw : Nat → Bool) (next : Loc → Option Loc) : Arm → List Due
  | .mk n _ none body => dueIf n ((match body.node.entry with
      | some l => [.step l n.lo]
      | none => []) ++ dueExpr sw next body)
  | .mk n _ (some g) body => .guard :: dueIf n ((match body.node.entry with
      | some l => [.step l n.lo]
      | none => dueExpr sw next g) ++ dueExpr sw next body)
def dueStmts (sw : Nat → Bool) (next : Loc → Option Loc) : List Stmt → List Due
  | [] => []
  | s :: r => dueStmt sw next s ++ dueStmts sw next r
def dueStmt (sw : Nat → Bool) (next : Loc → Option Loc) : Stmt → List Due
  | .lt n _ init els => dueOpt sw next init ++ dueOptBlock sw next els ++ dueAfter next n
  | .expr n e => dueExpr sw next e ++ dueAfter next n
  | .item n bodies => dueParts sw next bodies ++ dueAfter next n
def dueOptBlock (sw : Nat → Bool) (next : Loc → Option Loc) : Option Block → List Due
  | none => []
  | some b => dueBlock sw next b
def dueBlock (sw : Nat → Bool) (next : Loc → Option Loc) : Block → List Due
  | .mk _ stmts none => dueStmts sw next stmts
  | .mk _ stmts (some e) => dueStmts sw next stmts ++ (dueExpr sw next e ++ dueAfter next e.node)
end

/-- What is due in a body. -/
def dueBody (sw : Nat → Bool) (next : Loc → Option Loc) (value : Expr) : List Due :=
  dueExpr sw next value ++ dueAfter next value.node

/-- The steps and forks among the calls of the builder. -/
def Call.due : Call → Option Due
  | .insert l sp => some (.step l sp)
  | .openBranch l => some (.fork l)
  | _ => none

end Verif.HirSteps
