import Verif.HirSteps.Nested
/-!
# C102: what the visitor wants from the builder, and a walk through the control flow

As `Verif.HirSteps.Nested` (C100) does for nested `if`s, but for every construct the visitor knows: `if`, `match`, the
desugared `while` and `for` loops and `let`.  The control flow is not described by a tree here: a walk (`Goes`) only
says which locations come before which (dominance) and after which (post-dominance).  Nothing in this file refers to
the builder.
-/
namespace Verif.Walk

open Verif.Cfg Verif.Segments Verif.Graph Verif.HirSteps

/-! ## What there is to do -/

/-- What the visitor wants from the builder. -/
inductive Deed
  /-- a step that ends at the location and is shown at the span -/
  | step (l : Loc) (span : Nat)
  /-- a branching construct whose condition has been evaluated at the location, with what is to be done in its arms, in
  the order in which they are visited -/
  | fork (l : Loc) (f : Spanner) (arms : List (List Deed))
  /-- an arm with a guard, which the visitor does not support -/
  | guarded

/-- `insert_step_at_node_exit` (hir_steps.rs:338-353) -/
def deedAfter (E : Env) (n : Node) : List Deed :=
  match after E.next n with
  | none => []
  | some l => [.step l n.span]

/-- one arm of an `if` (hir_steps.rs:420-442) -/
def deedIf (n : Node) (w : List Deed) : List Deed := if n.entry = none then [] else w

/-- `handle_expr_if` and `handle_expr_match` (hir_steps.rs:373-482) -/
def deedFork (E : Env) (n cn : Node) (f : Spanner) (arms : List (List Deed)) : List Deed :=
  match (after E.next cn).or n.entry with
  | none => []
  | some l => [.step l cn.span, .fork l f arms]

/-- `visit_arm` (hir_steps.rs:735-767) -/
def deedArmOf (n bn : Node) (guarded : Bool) (body : List Deed) : List Deed :=
  if guarded then [.guarded]
  else match n.entry with
    | none => []
    | some _ => match bn.entry with
      | none => body
      | some l => .step l n.lo :: body

mutual
/-- `visit_expr` (hir_steps.rs:543-732) -/
def deedExpr (E : Env) : Expr → List Deed
  | .ite n cnd thn els => deedExpr E cnd ++
      deedFork E n cnd.node (E.spanner (ifEntries thn.node (els.map Expr.node)) n.hi)
        (deedIf thn.node (deedExpr E thn) :: deedElse E els)
  | .whileLoop n cnd thn els => deedExpr E cnd ++
      deedFork E n cnd.node
        (E.spanner (setEntry (setEntry [] thn.node.entry thn.node.lo) els.node.entry n.hi) n.hi)
        [deedIf thn.node (deedExpr E thn), deedIf els.node (deedExpr E els)]
  | .forLoop n cnd nothing item => deedExpr E cnd ++
      deedFork E n cnd.node
        (E.spanner (setEntry (setEntry [] nothing.body.node.entry n.hi) item.body.node.entry item.body.node.lo) 0)
        [deedArm E nothing, deedArm E item]
  | .mtch n fromFor cnd arms =>
    if fromFor && decide (arms.length = 1) && !E.producedSwitch cnd.node then
      deedExpr E cnd ++ (deedArms E arms).flatten
    else deedExpr E cnd ++ deedFork E n cnd.node (E.spanner (armEntries arms) 0) (deedArms E arms)
  | .other _ parts => deedParts E parts
def deedElse (E : Env) : Option Expr → List (List Deed)
  | none => []
  | some e => [deedIf e.node (deedExpr E e)]
def deedOpt (E : Env) : Option Expr → List Deed
  | none => []
  | some e => deedExpr E e
def deedArms (E : Env) : List Arm → List (List Deed)
  | [] => []
  | a :: r => deedArm E a :: deedArms E r
def deedArm (E : Env) : Arm → List Deed
  | .mk n _ guard body => deedArmOf n body.node guard.isSome (deedExpr E body)
def deedParts (E : Env) : List Part → List Deed
  | [] => []
  | p :: r => deedPart E p ++ deedParts E r
def deedPart (E : Env) : Part → List Deed
  | .expr e => deedExpr E e
  | .block b => deedBlock E b
  | .body e => deedExpr E e ++ deedAfter E e.node
def deedStmts (E : Env) : List Stmt → List Deed
  | [] => []
  | s :: r => deedStmt E s ++ deedStmts E r
def deedStmt (E : Env) : Stmt → List Deed
  | .lt n _ init els => deedOpt E init ++ deedOptBlock E els ++ deedAfter E n
  | .expr n e => deedExpr E e ++ deedAfter E n
  | .item n bodies => deedParts E bodies ++ deedAfter E n
def deedOptBlock (E : Env) : Option HirSteps.Block → List Deed
  | none => []
  | some b => deedBlock E b
def deedBlock (E : Env) : HirSteps.Block → List Deed
  | .mk _ stmts none => deedStmts E stmts
  | .mk _ stmts (some e) => deedStmts E stmts ++ (deedExpr E e ++ deedAfter E e.node)
end

/-- What there is to do in a body. -/
def deedBody (E : Env) (value : Expr) : List Deed := deedExpr E value ++ deedAfter E value.node

/-! ## How it lies on the control flow -/

/-- The location is the same or comes earlier on every way to the other one. -/
def Earlier (b : Body) (c l : Loc) : Prop :=
  (c.block = l.block ∧ c.idx ≤ l.idx) ∨ (c.block ≠ l.block ∧ Dominates b.succ c.block l.block)

/-- The location is the same or is passed later on every way from the other one to an exit. -/
def Later (b : Body) (c l : Loc) : Prop :=
  (c.block = l.block ∧ c.idx ≤ l.idx) ∨ (c.block ≠ l.block ∧ PostDominates b.succ b.returns c.block l.block)

/-- The block ends in a switch. -/
def Switches (b : Body) (a : Nat) : Prop := ∃ ts, b.term a = .switchInt ts

/-- The first switch on the straight way that begins at a block. -/
inductive Ahead (b : Body) : Nat → Nat → Prop
  | here {a} : Switches b a → Ahead b a a
  | next {u v a} : ¬ Switches b u → b.succ u = [v] → Ahead b v a → Ahead b u a

/-- The block in which the ways from a switch come together: everything the switch dominates comes together, and this
is the first block that is dominated by it and passed on every way. -/
def Join (b : Body) (a j : Nat) : Prop :=
  ComesTogether b a ∧ After b a j ∧ ∀ c, After b a c → Dominates b.succ j c

/-- The regions of different arms share no block, and no block of one dominates a block of another. -/
def Separate (b : Body) (n : Nat) (S : Nat → Nat → Prop) : Prop :=
  ∀ i i' x y : Nat, i < n → i' < n → i ≠ i' → S i x → S i' y → x ≠ y ∧ ¬ Dominates b.succ x y

/-- What is recorded of a branching construct: its switch, its join, and the steps into its arms. -/
abbrev Fork := Loc × Loc × List Step

/-- Walking within a region (a set of blocks) from a location to another one while doing what there is to do.  `phi` is
where the arm that is being walked along ends, if it is one.

Every step begins at the current location and ends at a later one (`step`), unless that is at or beyond the end of the
arm: then it ends there (`clip`).  Outside of all arms, a step whose end does not come after the current location on
every way is not made at all (`lost`).  At a branching construct (`fork`) the switch lies straight ahead, each of its
successors is entered where the spanner says, each arm is walked along within a region of its own, and the walk goes on
where the arms come together.  If they do not come together anywhere (`apart`), then the arms are walked along without
an end, for which any location `e` stands that comes before none of theirs, and the walk goes on where it was before
the construct.  `pick` says to which successor each of the visited arms belongs.  Recorded are the steps
made and, for each branching construct, its switch, its join and the steps into its arms. -/
inductive Goes (b : Body) : (Nat → Prop) → Option Loc → Loc → List Deed → List Step → List Fork → Loc → Prop
  | done {R phi c} : Goes b R phi c [] [] [] c
  | step {R phi c l sp ds w bs c'} : R l.block → Earlier b c l → Later b c l → (∀ p, phi = some p → ¬ Earlier b p l) →
      Goes b R phi l ds w bs c' → Goes b R phi c (.step l sp :: ds) ((c, l, sp) :: w) bs c'
  | clip {R c l sp ds w bs c' p} : R l.block → Earlier b c l → Later b c l → Earlier b p l → R p.block →
      Goes b R (some p) p ds w bs c' → Goes b R (some p) c (.step l sp :: ds) ((c, p, sp) :: w) bs c'
  | lost {R c l sp ds w bs c'} : R l.block → ¬ Earlier b c l →
      Goes b R none c ds w bs c' → Goes b R none c (.step l sp :: ds) w bs c'
  | fork {R phi l f arms ds w bs c'} {a j : Nat} {start : Nat → Loc} {span : Nat → Nat} {S : Nat → Nat → Prop}
      {pick : List Nat} {ws : List (List Step)} {bss : List (List Fork)} {ends : Nat → Loc} :
      Ahead b l.block a → Join b a j → R j →
      (∀ i p : Nat, (b.succ a)[i]? = some p → f ⟨p, 0⟩ = (start i, span i) ∧ S i (start i).block) →
      Separate b (b.succ a).length S →
      pick.Nodup → (∀ q ∈ pick, q < (b.succ a).length) →
      pick.length = arms.length → ws.length = arms.length → bss.length = arms.length →
      (∀ (i : Nat) (d : List Deed) (q : Nat) (w : List Step) (bs : List Fork), arms[i]? = some d → pick[i]? = some q → ws[i]? = some w → bss[i]? = some bs →
        Goes b (S q) (some ⟨j, 0⟩) (start q) d w bs (ends i)) →
      Goes b R phi ⟨j, 0⟩ ds w bs c' →
      Goes b R phi l (.fork l f arms :: ds)
        ((List.range (b.succ a).length).map (fun i => (l, start i, span i)) ++ (ws.flatten ++ w))
        ((⟨a, b.mapper.stmts a⟩, ⟨j, 0⟩, (List.range (b.succ a).length).map (fun i => (l, start i, span i))) ::
          (bss.flatten ++ bs)) c'
  | apart {R phi l f arms ds w bs c'} {a : Nat} {start : Nat → Loc} {span : Nat → Nat} {S : Nat → Nat → Prop}
      {pick : List Nat} {ws : List (List Step)} {bss : List (List Fork)} {ends : Nat → Loc} {e : Loc} :
      Ahead b l.block a → (∀ j, ¬ Join b a j) →
      (∀ i p : Nat, (b.succ a)[i]? = some p → f ⟨p, 0⟩ = (start i, span i) ∧ S i (start i).block) →
      Separate b (b.succ a).length S → (∀ i < (b.succ a).length, ∀ x : Loc, S i x.block → ¬ Earlier b e x) →
      pick.Nodup → (∀ q ∈ pick, q < (b.succ a).length) →
      pick.length = arms.length → ws.length = arms.length → bss.length = arms.length →
      (∀ (i : Nat) (d : List Deed) (q : Nat) (w : List Step) (bs : List Fork), arms[i]? = some d → pick[i]? = some q → ws[i]? = some w → bss[i]? = some bs →
        Goes b (S q) (some e) (start q) d w bs (ends i)) →
      Goes b R phi l ds w bs c' →
      Goes b R phi l (.fork l f arms :: ds)
        ((List.range (b.succ a).length).map (fun i => (l, start i, span i)) ++ (ws.flatten ++ w))
        ((⟨a, b.mapper.stmts a⟩, ⟨a, b.mapper.stmts a⟩, (List.range (b.succ a).length).map (fun i => (l, start i, span i))) ::
          (bss.flatten ++ bs)) c'

end Verif.Walk
