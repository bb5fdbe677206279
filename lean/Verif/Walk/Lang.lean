import Verif.Walk.Descent
/-!
# C102: programs of statements, `let`s, calls, `if`s, `match`es and loops

A language, its translation to blocks and to source, and the steps one expects.  The translation follows what rustc
does: an action is one statement of a block and a call ends a block; `if` and `match` end a block in a switch; every
arm of a `match` but the last one begins with a block that ends in a false edge to the next one and assigns the
variables of its pattern; a loop has a head that ends in a false unwind; the end of a block of the source assigns the
unit value, and so does leaving a loop, in the block that follows it.

Simplifications.
* A condition is one statement, after `c` calls in a `while`.  A `match` has `ds` further statements that read the
  discriminant, and no target for the impossible case (the stepper removes such blocks).
* There are no guards, no early exits (`break`, `continue`, `return`, `?`), no values of blocks and no unwinding.
* Blocks are numbered in the order of the source.
-/
namespace Verif.Walk

open Verif.Cfg Verif.Segments Verif.Graph Verif.HirSteps

/-- What is shown of an arm of a `match`: the end of its pattern and its start; and the number of variables it binds. -/
structure ArmInfo where
  pat : Nat
  lo : Nat
  nb : Nat
  deriving DecidableEq, Repr

mutual
/-- A list of statements.  The numbers are spans unless said otherwise. -/
inductive Prog
  | fin
  /-- `x = 1;` -/
  | act (sp : Nat) (r : Prog)
  /-- `let x = 1;` with the numbers of the variables -/
  | bind (sp : Nat) (vs : List Nat) (r : Prog)
  /-- `f();` -/
  | call (sp : Nat) (r : Prog)
  /-- `if c { t } else { e }`; shown are the condition and the starts of the two blocks; `hi` is the end of the
  whole -/
  | ite (sp lt le hi : Nat) (t e r : Prog)
  /-- `if c { t }`; shown are the condition, the start of the block and the end of the whole -/
  | only (sp lt hi : Nat) (t r : Prog)
  /-- `match x { p => { f }, .. }` with the number of statements that read the discriminant -/
  | mtch (sp ds : Nat) (i : ArmInfo) (f : Prog) (as : Arms) (r : Prog)
  /-- `while c { t }`; shown are the statement, the condition, the start of the block, the end of the whole and the
  `break` of the desugaring; with the number of calls in the condition -/
  | whl (sp sc lt hi sb c : Nat) (t r : Prog)
  /-- `for p in e { t }`; shown are the statement, and of the desugaring the arm around the loop, the call of `next`,
  the end of the loop, the arm `None`, the start of the block and the arm `Some(p)`; with the number of variables -/
  | frl (sp sa sc hi sn lb li nb : Nat) (t r : Prog)
/-- The other arms of a `match`; there is at least one. -/
inductive Arms
  | last (i : ArmInfo) (f : Prog)
  | cons (i : ArmInfo) (f : Prog) (as : Arms)
end

/-! ## The blocks -/

mutual
/-- What the blocks look like. -/
def Prog.shape : Prog → Shape
  | .fin => .fin
  | .act _ r => r.shape
  | .bind _ _ r => r.shape
  | .call _ r => .line r.shape
  | .ite _ _ _ _ t e r => .fork (.cons false e.shape (.cons false t.shape .nil)) r.shape
  | .only _ _ _ t r => .fork (.cons false .fin (.cons false t.shape .nil)) r.shape
  | .mtch _ _ _ f as r => .fork (.cons true f.shape as.limbs) r.shape
  | .whl _ _ _ _ _ c t r => .loop c false t.shape r.shape
  | .frl _ _ _ _ _ _ _ _ t r => .line (.loop 1 true t.shape r.shape)
def Arms.limbs : Arms → Limbs
  | .last _ f => .cons false f.shape .nil
  | .cons _ f as => .cons true f.shape as.limbs
end

/-- The number of blocks. -/
abbrev Prog.size (p : Prog) : Nat := p.shape.size
abbrev Arms.size (as : Arms) : Nat := as.limbs.size

/-- The first blocks of the arms. -/
def Arms.starts : Arms → Nat → List Nat
  | .last _ _, k => [k]
  | .cons _ f as, k => k :: as.starts (k + 1 + f.size)

mutual
/-- The blocks, if the first one has the number `k` and already contains `n` statements. -/
def Prog.code : Prog → Nat → Nat → Term → List Cfg.Block
  | .fin, _, n, last => [⟨n + 1, last, false⟩]
  | .act _ r, k, n, last => r.code k (n + 1) last
  | .bind _ _ r, k, n, last => r.code k (n + 1) last
  | .call _ r, k, n, last => ⟨n, .other [k + 1], false⟩ :: r.code (k + 1) 0 last
  | .ite _ _ _ _ t e r, k, n, last =>
    ⟨n + 1, .switchInt [k + 1, k + 1 + e.size], false⟩ ::
      (e.code (k + 1) 0 (.goto (k + 1 + e.size + t.size)) ++
        (t.code (k + 1 + e.size) 0 (.goto (k + 1 + e.size + t.size)) ++ r.code (k + 1 + e.size + t.size) 0 last))
  | .only _ _ _ t r, k, n, last =>
    ⟨n + 1, .switchInt [k + 1, k + 1 + 1], false⟩ :: ⟨1, .goto (k + 1 + 1 + t.size), false⟩ ::
      (t.code (k + 1 + 1) 0 (.goto (k + 1 + 1 + t.size)) ++ r.code (k + 1 + 1 + t.size) 0 last)
  | .mtch _ ds i f as r, k, n, last =>
    ⟨n + 1 + ds, .switchInt ((k + 1) :: as.starts (k + 1 + 1 + f.size)), false⟩ ::
      ⟨0, .falseEdge (k + 1 + 1) (k + 1 + 1 + f.size), false⟩ ::
      (f.code (k + 1 + 1) i.nb (.goto (k + 1 + 1 + f.size + as.size)) ++
        (as.code (k + 1 + 1 + f.size) (k + 1 + 1 + f.size + as.size) ++
          r.code (k + 1 + 1 + f.size + as.size) 0 last))
  | .whl _ _ _ _ _ c t r, k, n, last =>
    ⟨n, .goto (k + 1), false⟩ :: ⟨0, .falseUnwind (k + 2), false⟩ ::
      ((List.range c).map (fun i => ⟨0, .other [k + 2 + i + 1], false⟩) ++
        (⟨1, .switchInt [k + 3 + c + t.size, k + 3 + c], false⟩ ::
          (t.code (k + 3 + c) 0 (.goto (k + 1)) ++ r.code (k + 3 + c + t.size) 1 last)))
  | .frl _ _ _ _ _ _ _ nb t r, k, n, last =>
    ⟨n, .other [k + 1], false⟩ :: ⟨1, .goto (k + 2), false⟩ :: ⟨0, .falseUnwind (k + 3), false⟩ ::
      ⟨1, .other [k + 4], false⟩ :: ⟨1, .switchInt [k + 5, k + 6], false⟩ ::
      ⟨0, .falseEdge (k + 6 + t.size) (k + 6), false⟩ ::
      (t.code (k + 6) nb (.goto (k + 2)) ++ r.code (k + 6 + t.size) 1 last)
/-- The blocks of the arms, which go to `j`. -/
def Arms.code : Arms → Nat → Nat → List Cfg.Block
  | .last i f, k, j => f.code k i.nb (.goto j)
  | .cons i f as, k, j => ⟨0, .falseEdge (k + 1) (k + 1 + f.size), false⟩ ::
      (f.code (k + 1) i.nb (.goto j) ++ as.code (k + 1 + f.size) j)
end

/-- Where the unit value is assigned at the end. -/
def Prog.finAt : Prog → Nat → Nat → Loc
  | .fin, k, n => ⟨k, n⟩
  | .act _ r, k, n => r.finAt k (n + 1)
  | .bind _ _ r, k, n => r.finAt k (n + 1)
  | .call _ r, k, _ => r.finAt (k + 1) 0
  | .ite _ _ _ _ t e r, k, _ => r.finAt (k + 1 + e.size + t.size) 0
  | .only _ _ _ t r, k, _ => r.finAt (k + 1 + 1 + t.size) 0
  | .mtch _ _ _ f as r, k, _ => r.finAt (k + 1 + 1 + f.size + as.size) 0
  | .whl _ _ _ _ _ c t r, k, _ => r.finAt (k + 3 + c + t.size) 1
  | .frl _ _ _ _ _ _ _ _ t r, k, _ => r.finAt (k + 6 + t.size) 1

/-- The body of a function. -/
def Prog.body (p : Prog) : Body := p.code 0 0 .ret

/-! ## The source -/

/-- A node that occupies one location. -/
def one (l : Loc) (sp : Nat) : Node := ⟨some l, some l, sp, 0, 0⟩

/-- A block of the source, as an expression. -/
def braces (s e : Loc) (lo : Nat) (b : List Stmt) : Expr :=
  .other ⟨some s, some e, 0, lo, 0⟩ [.block (.mk ⟨some s, some e, 0, lo, 0⟩ b none)]

/-- An arm of a `match` whose body begins at `s`. -/
def armOf (i : ArmInfo) (s e : Loc) (b : List Stmt) : Arm :=
  .mk ⟨some ⟨s.block, 0⟩, some e, 0, i.lo, 0⟩ ⟨none, none, 0, 0, i.pat⟩ none (braces s e 0 b)

mutual
/-- The source, as the statements of a block. -/
def Prog.stmts : Prog → Nat → Nat → List Stmt
  | .fin, _, _ => []
  | .act sp r, k, n => .expr (one ⟨k, n⟩ sp) (.other (one ⟨k, n⟩ sp) []) :: r.stmts k (n + 1)
  | .bind sp vs r, k, n => .lt (one ⟨k, n⟩ sp) vs (some (.other (one ⟨k, n⟩ 0) [])) none :: r.stmts k (n + 1)
  | .call sp r, k, n => .expr (one ⟨k, n⟩ sp) (.other (one ⟨k, n⟩ sp) []) :: r.stmts (k + 1) 0
  | .ite sp lt le hi t e r, k, n =>
    .expr ⟨some ⟨k, n⟩, none, 0, 0, 0⟩ (.ite ⟨some ⟨k, n⟩, none, 0, 0, hi⟩ (.other (one ⟨k, n⟩ sp) [])
      (braces ⟨k + 1 + e.size, 0⟩ (t.finAt (k + 1 + e.size) 0) lt (t.stmts (k + 1 + e.size) 0))
      (some (braces ⟨k + 1, 0⟩ (e.finAt (k + 1) 0) le (e.stmts (k + 1) 0)))) :: r.stmts (k + 1 + e.size + t.size) 0
  | .only sp lt hi t r, k, n =>
    .expr ⟨some ⟨k, n⟩, none, 0, 0, 0⟩ (.ite ⟨some ⟨k, n⟩, none, 0, 0, hi⟩ (.other (one ⟨k, n⟩ sp) [])
      (braces ⟨k + 1 + 1, 0⟩ (t.finAt (k + 1 + 1) 0) lt (t.stmts (k + 1 + 1) 0)) none) :: r.stmts (k + 1 + 1 + t.size) 0
  | .mtch sp _ i f as r, k, n =>
    .expr ⟨some ⟨k, n⟩, none, 0, 0, 0⟩ (.mtch ⟨some ⟨k, n⟩, none, 0, 0, 0⟩ false (.other (one ⟨k, n⟩ sp) [])
      (armOf i ⟨k + 1 + 1, i.nb⟩ (f.finAt (k + 1 + 1) i.nb) (f.stmts (k + 1 + 1) i.nb) ::
        as.arms (k + 1 + 1 + f.size))) :: r.stmts (k + 1 + 1 + f.size + as.size) 0
  | .whl sp sc lt hi sb c t r, k, _ =>
    .expr ⟨some ⟨k + 2, 0⟩, some ⟨k + 3 + c + t.size, 0⟩, sp, 0, 0⟩
      (.whileLoop ⟨some ⟨k + 2, 0⟩, some ⟨k + 3 + c + t.size, 0⟩, sp, 0, hi⟩
        (.other ⟨some ⟨k + 2, 0⟩, some ⟨k + 2 + c, 0⟩, sc, 0, 0⟩ [])
        (braces ⟨k + 3 + c, 0⟩ (t.finAt (k + 3 + c) 0) lt (t.stmts (k + 3 + c) 0))
        (braces ⟨k + 3 + c + t.size, 0⟩ ⟨k + 3 + c + t.size, 0⟩ 0
          [.expr (one ⟨k + 3 + c + t.size, 0⟩ sb) (.other (one ⟨k + 3 + c + t.size, 0⟩ sb) [])])) ::
      r.stmts (k + 3 + c + t.size) 1
  | .frl sp sa sc hi sn lb li nb t r, k, n =>
    .expr ⟨some ⟨k, n⟩, some ⟨k + 6 + t.size, 0⟩, sp, 0, 0⟩
      (.mtch ⟨some ⟨k, n⟩, some ⟨k + 6 + t.size, 0⟩, sp, 0, 0⟩ true (.other (one ⟨k, n⟩ 0) [])
        [.mk ⟨some ⟨k + 1, 0⟩, some ⟨k + 6 + t.size, 0⟩, 0, sa, 0⟩ ⟨none, none, 0, 0, 0⟩ none
          (.forLoop ⟨some ⟨k + 3, 0⟩, some ⟨k + 6 + t.size, 0⟩, sp, 0, hi⟩
            (.other ⟨some ⟨k + 3, 0⟩, some ⟨k + 3, 1⟩, sc, 0, 0⟩ [])
            (.mk ⟨some ⟨k + 6 + t.size, 0⟩, some ⟨k + 6 + t.size, 0⟩, 0, sn, 0⟩ ⟨none, none, 0, 0, 0⟩ none
              (.other (one ⟨k + 6 + t.size, 0⟩ sn) []))
            (.mk ⟨some ⟨k + 6, 0⟩, some (t.finAt (k + 6) nb), 0, li, 0⟩ ⟨none, none, 0, 0, 0⟩ none
              (braces ⟨k + 6, nb⟩ (t.finAt (k + 6) nb) lb (t.stmts (k + 6) nb))))]) ::
      r.stmts (k + 6 + t.size) 1
def Arms.arms : Arms → Nat → List Arm
  | .last i f, k => [armOf i ⟨k, i.nb⟩ (f.finAt k i.nb) (f.stmts k i.nb)]
  | .cons i f as, k => armOf i ⟨k + 1, i.nb⟩ (f.finAt (k + 1) i.nb) (f.stmts (k + 1) i.nb) ::
      as.arms (k + 1 + f.size)
end

/-- The source of a function. -/
def Prog.source (p : Prog) (sp : Nat) : Expr :=
  .other ⟨some ⟨0, 0⟩, some (p.finAt 0 0), sp, 0, 0⟩
    [.block (.mk ⟨some ⟨0, 0⟩, some (p.finAt 0 0), sp, 0, 0⟩ (p.stmts 0 0) none)]

/-! ## The steps one expects -/

/-- Where the bodies of the arms begin, and the ends of their patterns. -/
def Arms.entries : Arms → Nat → List (Loc × Nat)
  | .last i _, k => [(⟨k, i.nb⟩, i.pat)]
  | .cons i f as, k => (⟨k + 1, i.nb⟩, i.pat) :: as.entries (k + 1 + f.size)

mutual
/-- The steps from the location `⟨k, n⟩` on: one for each statement without a condition, one for each condition, one
into each branch; and those of the statements inside the branches, first the `then` branch.  An arm has a further step
at its start that contains nothing.  A loop has one into its body, one behind it, an empty one where it is left, and
one for the whole. -/
def Prog.expected : Prog → Nat → Nat → List Step
  | .fin, _, _ => []
  | .act sp r, k, n => (⟨k, n⟩, ⟨k, n + 1⟩, sp) :: r.expected k (n + 1)
  | .bind sp _ r, k, n => (⟨k, n⟩, ⟨k, n + 1⟩, sp) :: r.expected k (n + 1)
  | .call sp r, k, n => (⟨k, n⟩, ⟨k + 1, 0⟩, sp) :: r.expected (k + 1) 0
  | .ite sp lt le hi t e r, k, n =>
    (⟨k, n⟩, ⟨k, n + 1⟩, sp) :: (⟨k, n + 1⟩, ⟨k + 1, 0⟩, le) :: (⟨k, n + 1⟩, ⟨k + 1 + e.size, 0⟩, lt) ::
      (t.expected (k + 1 + e.size) 0 ++ (e.expected (k + 1) 0 ++ r.expected (k + 1 + e.size + t.size) 0))
  | .only sp lt hi t r, k, n =>
    (⟨k, n⟩, ⟨k, n + 1⟩, sp) :: (⟨k, n + 1⟩, ⟨k + 1, 0⟩, hi) :: (⟨k, n + 1⟩, ⟨k + 1 + 1, 0⟩, lt) ::
      (t.expected (k + 1 + 1) 0 ++ r.expected (k + 1 + 1 + t.size) 0)
  | .mtch sp _ i f as r, k, n =>
    (⟨k, n⟩, ⟨k, n + 1⟩, sp) ::
      (((⟨k + 1 + 1, i.nb⟩, i.pat) :: as.entries (k + 1 + 1 + f.size)).map (fun e => (⟨k, n + 1⟩, e.1, e.2)) ++
        (((⟨k + 1 + 1, i.nb⟩, ⟨k + 1 + 1, i.nb⟩, i.lo) :: f.expected (k + 1 + 1) i.nb) ++
          ((as.expected (k + 1 + 1 + f.size)).flatten ++ r.expected (k + 1 + 1 + f.size + as.size) 0)))
  | .whl sp sc lt hi sb c t r, k, n =>
    (⟨k, n⟩, ⟨k + 2 + c, 1⟩, sc) :: (⟨k + 2 + c, 1⟩, ⟨k + 3 + c + t.size, 0⟩, hi) ::
      (⟨k + 2 + c, 1⟩, ⟨k + 3 + c, 0⟩, lt) ::
      (t.expected (k + 3 + c) 0 ++
        ((⟨k + 3 + c + t.size, 0⟩, ⟨k + 3 + c + t.size, 0⟩, sb) ::
          (⟨k + 3 + c + t.size, 0⟩, ⟨k + 3 + c + t.size, 1⟩, sp) :: r.expected (k + 3 + c + t.size) 1))
  | .frl sp sa sc hi sn lb li nb t r, k, n =>
    (⟨k, n⟩, ⟨k + 3, 0⟩, sa) :: (⟨k + 3, 0⟩, ⟨k + 4, 0⟩, sc) :: (⟨k + 4, 0⟩, ⟨k + 6 + t.size, 0⟩, hi) ::
      (⟨k + 4, 0⟩, ⟨k + 6, nb⟩, lb) :: (⟨k + 6 + t.size, 0⟩, ⟨k + 6 + t.size, 0⟩, sn) ::
      (⟨k + 6, nb⟩, ⟨k + 6, nb⟩, li) ::
      (t.expected (k + 6) nb ++ ((⟨k + 6 + t.size, 0⟩, ⟨k + 6 + t.size, 1⟩, sp) :: r.expected (k + 6 + t.size) 1))
def Arms.expected : Arms → Nat → List (List Step)
  | .last i f, k => [(⟨k, i.nb⟩, ⟨k, i.nb⟩, i.lo) :: f.expected k i.nb]
  | .cons i f as, k => ((⟨k + 1, i.nb⟩, ⟨k + 1, i.nb⟩, i.lo) :: f.expected (k + 1) i.nb) ::
      as.expected (k + 1 + f.size)
end

mutual
/-- The branches one expects: from the switch to where the ways come together, with the steps into the arms. -/
def Prog.joins : Prog → Nat → Nat → List Fork
  | .fin, _, _ => []
  | .act _ r, k, n => r.joins k (n + 1)
  | .bind _ _ r, k, n => r.joins k (n + 1)
  | .call _ r, k, _ => r.joins (k + 1) 0
  | .ite _ lt le _ t e r, k, n => (⟨k, n + 1⟩, ⟨k + 1 + e.size + t.size, 0⟩,
        [(⟨k, n + 1⟩, ⟨k + 1, 0⟩, le), (⟨k, n + 1⟩, ⟨k + 1 + e.size, 0⟩, lt)]) ::
      (t.joins (k + 1 + e.size) 0 ++ (e.joins (k + 1) 0 ++ r.joins (k + 1 + e.size + t.size) 0))
  | .only _ lt hi t r, k, n => (⟨k, n + 1⟩, ⟨k + 1 + 1 + t.size, 0⟩,
        [(⟨k, n + 1⟩, ⟨k + 1, 0⟩, hi), (⟨k, n + 1⟩, ⟨k + 1 + 1, 0⟩, lt)]) ::
      (t.joins (k + 1 + 1) 0 ++ r.joins (k + 1 + 1 + t.size) 0)
  | .mtch _ ds i f as r, k, n => (⟨k, n + 1 + ds⟩, ⟨k + 1 + 1 + f.size + as.size, 0⟩,
        ((⟨k + 1 + 1, i.nb⟩, i.pat) :: as.entries (k + 1 + 1 + f.size)).map (fun e => (⟨k, n + 1⟩, e.1, e.2))) ::
      (f.joins (k + 1 + 1) i.nb ++ ((as.joins (k + 1 + 1 + f.size)).flatten ++
        r.joins (k + 1 + 1 + f.size + as.size) 0))
  | .whl _ _ lt hi _ c t r, k, _ => (⟨k + 2 + c, 1⟩, ⟨k + 3 + c + t.size, 0⟩,
        [(⟨k + 2 + c, 1⟩, ⟨k + 3 + c + t.size, 0⟩, hi), (⟨k + 2 + c, 1⟩, ⟨k + 3 + c, 0⟩, lt)]) ::
      (t.joins (k + 3 + c) 0 ++ r.joins (k + 3 + c + t.size) 1)
  | .frl _ _ _ hi _ lb _ nb t r, k, _ => (⟨k + 4, 1⟩, ⟨k + 6 + t.size, 0⟩,
        [(⟨k + 4, 0⟩, ⟨k + 6 + t.size, 0⟩, hi), (⟨k + 4, 0⟩, ⟨k + 6, nb⟩, lb)]) ::
      (t.joins (k + 6) nb ++ r.joins (k + 6 + t.size) 1)
def Arms.joins : Arms → Nat → List (List Fork)
  | .last i f, k => [f.joins k i.nb]
  | .cons i f as, k => f.joins (k + 1) i.nb :: as.joins (k + 1 + f.size)
end

end Verif.Walk
