import Verif.Boundaries.Whole
import Verif.Boundaries.Spec
import Verif.Cfg.Spec
import Verif.Facts.Spec
import Verif.Flow.Spec
/-!
# What the boundaries of a body should say

In terms of uses written in the source, of MIR statements that use places, of moves and loans that reach a point
and of constraints between regions.
-/
namespace Verif.Boundaries

open Verif.Permissions (Perms Place)
open Verif.Cfg (Loc RealLoc)
open Verif.Facts.Spec

/-- The expression can be used as a place by itself: it has the form of a place, and is not a part of a literal. -/
def RealPlace (e : Expr) : Prop := PlaceForm e ∧ ¬ OfLiteral e

/-- The sub-expressions in which further uses are looked for. -/
inductive LooksInto : Expr → Expr → Prop
  | arm {n d arms a} : a ∈ arms → LooksInto (.match_ n d arms) a
  | discr {n d arms} : ¬ RealPlace d → LooksInto (.match_ n d arms) d
  | arg {n x r args a} : a ∈ args → LooksInto (.methodCall n x r args) a
  | receiver {n x r args} : x = true ∨ ¬ RealPlace r → LooksInto (.methodCall n x r args) r
  | borrowed {n m e} : ¬ PlaceForm e ∨ e.node.expansion = true → LooksInto (.addrOf n m e) e
  | assigned {n l r} : LooksInto (.assign n l r) r
  | added {n l r} : LooksInto (.assignOp n l r) r
  | dereferenced {n e} : ¬ PlaceForm e ∨ e.node.expansion = true → LooksInto (.deref n e) e
  | whole {n e} : LooksInto (.field n e) e
  | array {n a i} : LooksInto (.index n a i) a
  | position {n a i} : LooksInto (.index n a i) i
  | part {n cs e} : e ∈ cs → LooksInto (.other n cs) e

/-- The innermost statement, last expression of a block or body around a node, which is `c` outside of it. -/
def Around (s : Src) (c id c' : Nat) : Prop := s.enters id = some c' ∨ (s.enters id = none ∧ c' = c)

/-- A use in an expression: the node that uses, whether a place is written by it, the kind of use, the statement
around it and where it is shown: at the end of what is matched on or of the receiver of a method, before
everything else. -/
inductive UseIn (s : Src) : Nat → Expr → Expr → Bool → Use → Nat → Span → Prop
  | matched {c c' n d arms} : Around s c n.id c' → RealPlace d →
      UseIn s c (.match_ n d arms) d false .inspect c' (s.span d.node.id)
  | receiver {c c' n r args} : Around s c n.id c' → RealPlace r →
      UseIn s c (.methodCall n false r args) r false r.node.Use c' (s.span r.node.id)
  | borrow {c c' n m e} : Around s c n.id c' → PlaceForm e → e.node.expansion = false →
      UseIn s c (.addrOf n m e) (.addrOf n m e) false (if m then .mutBorrow else .sharedBorrow) c'
        ⟨(s.span e.node.id).lo, (s.span e.node.id).lo⟩
  | through {c c' n m e r} : Around s c n.id c' →
      UseIn s c (.assign n (.deref m e) r) (.deref m e) true .assign c' ⟨(s.span m.id).lo, (s.span m.id).lo⟩
  | update {c c' n l r} : Around s c n.id c' →
      UseIn s c (.assignOp n l r) l true .assign c' ⟨(s.span l.node.id).lo, (s.span l.node.id).lo⟩
  | deref {c c' n e} : Around s c n.id c' → PlaceForm e → e.node.expansion = false →
      UseIn s c (.deref n e) (.deref n e) false n.Use c' ⟨(s.span n.id).lo, (s.span n.id).lo⟩
  | var {c c' n} : Around s c n.id c' → n.expansion = false →
      UseIn s c (.var n) (.var n) false n.Use c' ⟨(s.span n.id).lo, (s.span n.id).lo⟩
  | inside {c c' e k node lhs u c'' p} : Around s c e.node.id c' → LooksInto e k →
      UseIn s c' k node lhs u c'' p → UseIn s c e node lhs u c'' p

/-- A location of a node or of a node below it. -/
def LocOf (w : Whole) (id : Nat) (l : Loc) : Prop :=
  ∃ k ls, (k, ls) ∈ w.hirToMir ∧ l ∈ ls ∧ (k = id ∨ id ∈ w.parents k)

/-- A real statement of the node, or of a node below it, uses the visible place `p`. -/
def UsesAt (w : Whole) (id : Nat) (isLhs : Bool) (l : Loc) (p : Place) : Prop :=
  LocOf w id l ∧ RealLoc w.cfg l ∧ p ∈ (w.stmtAt l).Uses isLhs ∧ w.visible p = true

/-- The values of the place cannot be read: a move of it, of a part or of the whole reaches the point, or it may
be uninitialised, or something that overlaps it is mutably borrowed. -/
def CannotRead (w : Whole) (point : Nat) (p : Place) : Prop :=
  (∃ mv, Touches w.facts mv (w.path p) ∧ Reaches w.facts mv point) ∨ MaybeUninit w.facts (w.path p) point ∨
    ∃ loan, LiveOverlap w.facts loan (w.path p) point ∧ w.facts.isMutLoan loan = true

/-- Something that overlaps the place is borrowed. -/
def Borrowed (w : Whole) (point : Nat) (p : Place) : Prop := ∃ loan, LiveOverlap w.facts loan (w.path p) point

/-- Data of region `f` has to flow into region `t` at a statement of the node, neither being declared by the
function. -/
def FlowAt (w : Whole) (id f t : Nat) : Prop :=
  ∃ l pt, LocOf w id l ∧ RealLoc w.cfg l ∧ (f, t, pt) ∈ w.subsetBase ∧ (pt = w.start l ∨ pt = w.mid l) ∧
    f ∉ w.placeholders ∧ t ∉ w.placeholders

/-- Region `t` is in the component of a region chosen by the caller. -/
def IntoCaller (i : Flow.Input) (t : Nat) : Prop := ∃ p, Flow.Caller i p ∧ Flow.Same i p t

/-- The flow is allowed. -/
def Allowed (i : Flow.Input) (f t : Nat) : Prop :=
  Flow.Same i f t ∨ (¬ Flow.LocalEscapes i f t ∧ ¬ Flow.Undeclared i f t ∧ ¬ Flow.DanglingOut i f)

/-- A flow into the caller's regions is asked for at a use. -/
def FlowAsked (w : Whole) (i : Flow.Input) (ctx id : Nat) : Prop :=
  w.flowOn = true ∧ (∃ l, LocOf w id l) ∧ ∃ f t, FlowAt w ctx f t ∧ IntoCaller i t

/-- A flow around the use that is not allowed, and to which the use contributes. -/
def FlowWrong (w : Whole) (i : Flow.Input) (ctx id : Nat) : Prop :=
  ∃ f t, FlowAt w ctx f t ∧ IntoCaller i t ∧ ¬ Allowed i f t ∧ ∃ g h, FlowAt w id g h ∧ (h = f ∨ h = t)

/-- The parts of the input fit together. -/
structure Fits (w : Whole) (i : Flow.Input) : Prop where
  derived : ∃ fuel, Facts.derive fuel w.facts = some w.out
  flows : Flow.computeFlows i = some w.flows
  constraints : i.constraints = w.subsetBase.map fun e => (e.1, e.2.1)
  inBody : ∀ id ls, (id, ls) ∈ w.hirToMir → ∀ l ∈ ls, l.block < w.cfg.length
  order : ∀ m, (w.order m).Perm m

/-- The letters of a stack say, for a use of a place at a point with a statement around it, what the use needs
and what is missing. -/
structure Tells (w : Whole) (i : Flow.Input) (use : Use) (ctx id point : Nat) (p : Place)
    (icons : List (Frontend.Letter × Bool)) : Prop where
  read : ∀ m, (Frontend.Letter.R, m) ∈ icons ↔ (m = true ↔ CannotRead w point p)
  write : ∀ m, (Frontend.Letter.W, m) ∈ icons ↔ use.needsWrite ∧
    (m = true ↔ CannotRead w point p ∨ w.facts.writeEnabled (w.path p) = false ∨ Borrowed w point p)
  own : ∀ m, (Frontend.Letter.O, m) ∈ icons ↔ use.needsOwn ∧
    (m = true ↔ CannotRead w point p ∨ w.facts.dropEnabled (w.path p) = false ∨ Borrowed w point p)
  flow : ∀ m, (Frontend.Letter.F, m) ∈ icons ↔ FlowAsked w i ctx id ∧ (m = true ↔ FlowWrong w i ctx id)

end Verif.Boundaries
