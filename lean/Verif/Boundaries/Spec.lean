import Verif.Boundaries.Model
/-!
# What boundaries should be

Stated with the vocabulary of the language (kinds of use, variables occurring in an expression), not with
the helpers of the model.
-/
namespace Verif.Boundaries

open Verif.Permissions (Perms Place)

/-- The kinds of use of a place. -/
inductive Use where
  | assign | sharedBorrow | mutBorrow | move | copy | inspect
  deriving DecidableEq, Repr

/-- What the language requires: reading for every use, writing to assign or borrow mutably, owning to
move. -/
def Use.needsRead (_ : Use) : Prop := True
def Use.needsWrite (u : Use) : Prop := u = .assign ∨ u = .mutBorrow
def Use.needsOwn (u : Use) : Prop := u = .move

/-- The permissions asked for are exactly those the use requires. -/
def Requires (u : Use) (p : Perms) : Prop :=
  (p.read = true ↔ u.needsRead) ∧ (p.write = true ↔ u.needsWrite) ∧ (p.drop = true ↔ u.needsOwn)

/-- How the type checker classified the use of a place expression as a value. -/
def Node.Use (n : Node) : Boundaries.Use :=
  match n.autoBorrow with
  | some true => .mutBorrow
  | some false => .sharedBorrow
  | none => if n.copy then .copy else .move

/-- A permission is expected and missing, or the flow is not allowed. -/
def SomethingMissing (b : Boundary) : Prop :=
  (b.expected.read = true ∧ b.actual.read = false) ∨ (b.expected.write = true ∧ b.actual.write = false) ∨
  (b.expected.drop = true ∧ b.actual.drop = false) ∨ b.flow = some true

/-- `c` is the first among the candidates of variable `l` with the most specific place. -/
def Best (l : Nat) (cs : List (Nat × Place)) (c : Nat × Place) : Prop :=
  ∃ pre post, cs = pre ++ c :: post ∧ c.2.local_ = l ∧
    (∀ x ∈ cs, x.2.local_ = l → x.2.projection.length ≤ c.2.projection.length) ∧
    (∀ x ∈ pre, x.2.local_ = l → x.2.projection.length < c.2.projection.length)

/-- Place expressions by their form (Rust reference): variables, dereferences, fields and indexing. -/
def PlaceForm : Expr → Prop
  | .var _ => True
  | .deref _ _ => True
  | .field _ _ => True
  | .index _ _ _ => True
  | _ => False

/-- A field or an element of a literal. -/
def OfLiteral : Expr → Prop
  | .field _ (.lit _) => True
  | .index _ (.lit _) _ => True
  | _ => False

/-- The places a MIR statement reads, or, on the left-hand side of an assignment, writes. -/
def Stmt.Uses (isLhs : Bool) : Stmt → List Place
  | .assign lhs rhs => if isLhs then [lhs] else rhs
  | .setDiscriminant p => [p]
  | .fakeRead p => [p]
  | .other => []

/-- The candidates of a site: the visible places of its statements, in order, with their locations. -/
def Site.cands (visible : Place → Bool) (isLhs : Bool) (s : Site) : List (Nat × Place) :=
  (s.stmts.getD []).flatMap fun i => ((i.2.Uses isLhs).filter visible).map fun p => (i.1, p)

/-- The choice among candidates: the only one; else the first of the variable that resembles the source
text; else, if no variable does, the first most specific of the first candidate's variable. -/
def Chosen (similar : Option Nat) (cs : List (Nat × Place)) (c : Nat × Place) : Prop :=
  cs = [c] ∨ (2 ≤ cs.length ∧
    ((∃ l, similar = some l ∧ ∃ pre post, cs = pre ++ c :: post ∧ c.2.local_ = l ∧ ∀ x ∈ pre, x.2.local_ ≠ l) ∨
     (similar = none ∧ ∃ c0, cs.head? = some c0 ∧ Best c0.2.local_ cs c)))

mutual
/-- The variable occurrences written in an expression, by node, in visiting order; the target of a plain
assignment that is not a dereference is not a use of the old value and not counted. -/
def occ : Expr → List Nat
  | .var n => if n.expansion then [] else [n.id]
  | .lit _ => []
  | .item _ => []
  | .field _ e => occ e
  | .index _ a i => occ a ++ occ i
  | .deref _ e => occ e
  | .addrOf _ _ e => occ e
  | .assign _ (.deref _ l) r => occ l ++ occ r
  | .assign _ _ r => occ r
  | .assignOp _ l r => occ l ++ occ r
  | .methodCall _ _ rcvr args => occ rcvr ++ occAll args
  | .match_ _ d arms => occ d ++ occAll arms
  | .other _ cs => occAll cs
def occAll : List Expr → List Nat
  | [] => []
  | e :: r => occ e ++ occAll r
end

/-- A place written as a variable followed by fields and dereferences. -/
inductive Chain : Expr → Prop
  | var (n : Node) : n.expansion = false → Chain (.var n)
  | field (n : Node) {e : Expr} : Chain e → Chain (.field n e)
  | deref (n : Node) {e : Expr} : Chain e → Chain (.deref n e)

/-- Every place expression that is borrowed, dereferenced, matched on, assigned to, or the receiver of a
method is a chain. -/
inductive SimplePlaces : Expr → Prop
  | var (n) : SimplePlaces (.var n)
  | lit (n) : SimplePlaces (.lit n)
  | item (n) : SimplePlaces (.item n)
  | field (n) {e} : SimplePlaces e → SimplePlaces (.field n e)
  | index (n) {a i} : SimplePlaces a → SimplePlaces i → SimplePlaces (.index n a i)
  | deref (n) {e} : SimplePlaces e → (PlaceForm e → Chain e) → SimplePlaces (.deref n e)
  | addrOf (n m) {e} : SimplePlaces e → (PlaceForm e → Chain e) →
      SimplePlaces (.addrOf n m e)
  | assign (n) {l r} : SimplePlaces r → (∀ m x, l = .deref m x → Chain l) → SimplePlaces (.assign n l r)
  | assignOp (n) {l r} : SimplePlaces r → Chain l → SimplePlaces (.assignOp n l r)
  | methodCall (n x) {rcvr args} : SimplePlaces rcvr → (PlaceForm rcvr → ¬ OfLiteral rcvr → Chain rcvr) →
      (∀ a ∈ args, SimplePlaces a) → SimplePlaces (.methodCall n x rcvr args)
  | match_ (n) {d arms} : SimplePlaces d → (PlaceForm d → ¬ OfLiteral d → Chain d) →
      (∀ a ∈ arms, SimplePlaces a) → SimplePlaces (.match_ n d arms)
  | other (n) {cs} : (∀ a ∈ cs, SimplePlaces a) → SimplePlaces (.other n cs)

end Verif.Boundaries
