import Verif.Walk.Props
import Verif.HirSteps.Results
/-!
# C84: every function with an early `return`

`pre; if c { t } q` as the body of a function, where `t` ends in a `return`.  The ways from the switch come together
behind `q`, where the function returns, so the blocks are those of `pre; if c { t } else { q }` (`Early.body`), and only
the source differs: `q` are the statements that follow the `if` (`Early.source`).

Simplifications: as in `Verif.Walk.Lang`; the block that returns contains one statement (in rustc it is empty).
-/
namespace Verif.Walk

open Verif.Cfg Verif.Segments Verif.Graph Verif.HirSteps
open Verif.HirSteps.Prog (Slice Slice.left Slice.right Slice.tail next_inside)

/-! ## One program after another -/

/-- The statements of one program, followed by those of another one. -/
def Prog.plug : Prog → Prog → Prog
  | .fin, s => s
  | .act sp r, s => .act sp (r.plug s)
  | .bind sp vs r, s => .bind sp vs (r.plug s)
  | .call sp r, s => .call sp (r.plug s)
  | .ite sp lt le hi t e r, s => .ite sp lt le hi t e (r.plug s)
  | .only sp lt hi t r, s => .only sp lt hi t (r.plug s)
  | .mtch sp ds i f as r, s => .mtch sp ds i f as (r.plug s)
  | .whl sp sc lt hi sb c t r, s => .whl sp sc lt hi sb c t (r.plug s)
  | .frl sp sa sc hi sn lb li nb t r, s => .frl sp sa sc hi sn lb li nb t (r.plug s)

theorem Prog.plug_shape : ∀ p s : Prog, (p.plug s).shape = p.shape.plug s.shape
  | .fin, s => rfl
  | .act sp r, s => Prog.plug_shape r s
  | .bind sp vs r, s => Prog.plug_shape r s
  | .call sp r, s => by rw [Prog.plug, Prog.shape, Prog.plug_shape r s]; rfl
  | .ite sp lt le hi t e r, s => by rw [Prog.plug, Prog.shape, Prog.plug_shape r s]; rfl
  | .only sp lt hi t r, s => by rw [Prog.plug, Prog.shape, Prog.plug_shape r s]; rfl
  | .mtch sp ds i f as r, s => by rw [Prog.plug, Prog.shape, Prog.plug_shape r s]; rfl
  | .whl sp sc lt hi sb c t r, s => by rw [Prog.plug, Prog.shape, Prog.plug_shape r s]; rfl
  | .frl sp sa sc hi sn lb li nb t r, s => by rw [Prog.plug, Prog.shape, Prog.plug_shape r s]; rfl

/-- The blocks of the first program, if the second one begins with an `if`. -/
theorem Prog.plug_code {sp lt le hi : Nat} {t e r : Prog} {last : Term} : ∀ (p : Prog) (k n : Nat),
    ∃ rest, (p.plug (.ite sp lt le hi t e r)).code k n last =
      p.code k n (.switchInt [(p.finAt k n).block + 1, (p.finAt k n).block + 1 + e.size]) ++ rest
  | .fin, k, n => ⟨_, rfl⟩
  | .act _ p, k, n => Prog.plug_code p k (n + 1)
  | .bind _ _ p, k, n => Prog.plug_code p k (n + 1)
  | .call _ p, k, n => by
    obtain ⟨rest, h⟩ := Prog.plug_code (sp := sp) (lt := lt) (le := le) (t := t) (e := e) (r := r) (last := last) p (k + 1) 0
    exact ⟨rest, by rw [Prog.plug, Prog.code, h]; rfl⟩
  | .ite _ _ _ _ t' e' p, k, n => by
    obtain ⟨rest, h⟩ := Prog.plug_code (sp := sp) (lt := lt) (le := le) (t := t) (e := e) (r := r) (last := last) p
      (k + 1 + e'.size + t'.size) 0
    exact ⟨rest, by rw [Prog.plug, Prog.code, h, Prog.code, Prog.finAt]; simp only [List.cons_append, List.append_assoc]⟩
  | .only _ _ _ t' p, k, n => by
    obtain ⟨rest, h⟩ := Prog.plug_code (sp := sp) (lt := lt) (le := le) (t := t) (e := e) (r := r) (last := last) p
      (k + 1 + 1 + t'.size) 0
    exact ⟨rest, by rw [Prog.plug, Prog.code, h, Prog.code, Prog.finAt]; simp only [List.cons_append, List.append_assoc]⟩
  | .mtch _ _ _ f as p, k, n => by
    obtain ⟨rest, h⟩ := Prog.plug_code (sp := sp) (lt := lt) (le := le) (t := t) (e := e) (r := r) (last := last) p
      (k + 1 + 1 + f.size + as.size) 0
    exact ⟨rest, by rw [Prog.plug, Prog.code, h, Prog.code, Prog.finAt]; simp only [List.cons_append, List.append_assoc]⟩
  | .whl _ _ _ _ _ c t' p, k, n => by
    obtain ⟨rest, h⟩ := Prog.plug_code (sp := sp) (lt := lt) (le := le) (t := t) (e := e) (r := r) (last := last) p
      (k + 3 + c + t'.size) 1
    exact ⟨rest, by rw [Prog.plug, Prog.code, h, Prog.code, Prog.finAt]; simp only [List.cons_append, List.append_assoc]⟩
  | .frl _ _ _ _ _ _ _ _ t' p, k, n => by
    obtain ⟨rest, h⟩ := Prog.plug_code (sp := sp) (lt := lt) (le := le) (t := t) (e := e) (r := r) (last := last) p
      (k + 6 + t'.size) 1
    exact ⟨rest, by rw [Prog.plug, Prog.code, h, Prog.code, Prog.finAt]; simp only [List.cons_append, List.append_assoc]⟩

/-- The blocks of the second program. -/
theorem Prog.plug_slice {b : Body} {s : Prog} : ∀ (p : Prog) (k n : Nat) (last : Term),
    Slice b k ((p.plug s).code k n last) →
    Slice b (p.finAt k n).block (s.code (p.finAt k n).block (p.finAt k n).idx last)
  | .fin, k, n, last, h => h
  | .act _ r, k, n, last, h => Prog.plug_slice r k (n + 1) last h
  | .bind _ _ r, k, n, last, h => Prog.plug_slice r k (n + 1) last h
  | .call _ r, k, n, last, h => Prog.plug_slice r (k + 1) 0 last (Slice.tail h).2
  | .ite _ _ _ _ t e r, k, n, last, h => Prog.plug_slice r _ 0 last (slice_ite h).2.2.2
  | .only _ _ _ t r, k, n, last, h => Prog.plug_slice r _ 0 last (slice_only h).2.2.2
  | .mtch _ _ _ f as r, k, n, last, h => Prog.plug_slice r _ 0 last (slice_mtch h).2.2.2.2
  | .whl _ _ _ _ _ c t r, k, n, last, h => Prog.plug_slice r _ 1 last (slice_whl h).2.2.2.2.2
  | .frl _ _ _ _ _ _ _ _ t r, k, n, last, h => Prog.plug_slice r _ 1 last (slice_frl h).2.2.2.2.2.2.2

/-- Where the second program lies. -/
theorem Prog.plug_place {succ : Nat → List Nat} {s : Shape} {xs : List Nat} : ∀ (p : Prog) (k n : Nat),
    Place succ (p.shape.plug s) k xs → Place succ s (p.finAt k n).block xs
  | .fin, k, n, P => P
  | .act _ r, k, n, P => Prog.plug_place r k (n + 1) P
  | .bind _ _ r, k, n, P => Prog.plug_place r k (n + 1) P
  | .call _ r, k, n, P => Prog.plug_place r (k + 1) 0 P.line
  | .ite _ _ _ _ t e r, k, n, P => by
    have := Prog.plug_place r _ 0 (Place.join P)
    rw [show k + 1 + (Limbs.cons false e.shape (.cons false t.shape .nil)).size = k + 1 + e.size + t.size by
      simp only [Limbs.size, Bool.toNat_false, Prog.size]; omega] at this
    exact this
  | .only _ _ _ t r, k, n, P => by
    have := Prog.plug_place r _ 0 (Place.join P)
    rw [show k + 1 + (Limbs.cons false .fin (.cons false t.shape .nil)).size = k + 1 + 1 + t.size by
      simp only [Limbs.size, Shape.size, Bool.toNat_false, Prog.size]; omega] at this
    exact this
  | .mtch _ _ _ f as r, k, n, P => by
    have := Prog.plug_place r _ 0 (Place.join P)
    rw [show k + 1 + (Limbs.cons true f.shape as.limbs).size = k + 1 + 1 + f.size + as.size by
      simp only [Limbs.size, Bool.toNat_true, Prog.size, Arms.size]; omega] at this
    exact this
  | .whl _ _ _ _ _ c t r, k, n, P => Prog.plug_place r _ 1 (Place.after P)
  | .frl _ _ _ _ _ _ _ _ t r, k, n, P => Prog.plug_place r _ 1 (Place.after (Place.line P))

/-! ## The function -/

/-- `pre; if c { t } q`, where `t` returns, with the spans of the condition, of the start of `t`, and of the end of the
`if`. -/
structure Early where
  pre : Prog
  sp : Nat
  lt : Nat
  hi : Nat
  t : Prog
  q : Prog

/-- The `if` and what follows, as they lie on the control flow: the ways come together where the function returns.  The
arm that does not return begins with the unit value of the `if`. -/
def Early.last (x : Early) : Prog := .ite x.sp x.lt 0 0 x.t (.act 0 x.q) .fin

/-- The blocks. -/
def Early.body (x : Early) : Body := (x.pre.plug x.last).body

/-- Where the condition is evaluated. -/
def Early.cond (x : Early) : Loc := x.pre.finAt 0 0

/-- The first block of `t`. -/
def Early.then (x : Early) : Nat := x.cond.block + 1 + x.q.size

/-- The block that returns. -/
def Early.ret (x : Early) : Nat := x.then + x.t.size

/-- The `if`. -/
def Early.conditional (x : Early) : Expr :=
  .ite ⟨some x.cond, none, 0, 0, x.hi⟩ (.other (one x.cond x.sp) [])
    (braces ⟨x.then, 0⟩ (x.t.finAt x.then 0) x.lt (x.t.stmts x.then 0)) none

/-- The source. -/
def Early.source (x : Early) (sp : Nat) : Expr :=
  .other ⟨some ⟨0, 0⟩, some ⟨x.ret, 0⟩, sp, 0, 0⟩
    [.block (.mk ⟨some ⟨0, 0⟩, some ⟨x.ret, 0⟩, sp, 0, 0⟩
      (x.pre.stmts 0 0 ++ .expr ⟨some x.cond, none, 0, 0, 0⟩ x.conditional :: x.q.stmts (x.cond.block + 1) 1) none)]

section
variable (x : Early)

theorem Early.slice : Slice x.body x.cond.block (x.last.code x.cond.block x.cond.idx .ret) :=
  Prog.plug_slice x.pre 0 0 .ret (body_slice _)

theorem Early.slice_pre : Slice x.body 0 (x.pre.code 0 0 (.switchInt [x.cond.block + 1, x.cond.block + 1 + x.q.size])) := by
  have h := body_slice (x.pre.plug x.last)
  obtain ⟨rest, hr⟩ := Prog.plug_code (sp := x.sp) (lt := x.lt) (le := 0) (t := x.t) (e := .act 0 x.q) (r := .fin)
    (last := .ret) x.pre 0 0
  rw [show (x.pre.plug x.last).code 0 0 .ret = _ from hr] at h
  exact h.left

theorem Early.place : Place x.body.succ (x.pre.shape.plug x.last.shape) 0 [] := by
  have := body_place (x.pre.plug x.last)
  rwa [Prog.plug_shape] at this

theorem Early.place_last : Place x.body.succ x.last.shape x.cond.block [] := Prog.plug_place x.pre 0 0 x.place

end

/-! ## What is lost -/

/-- Statements without branching constructs that do not come after the current location are not shown. -/
theorem Prog.lost {b : Body} (hb : Fine b) {fuel : Nat} {order : List (Loc × Nat) → List (Loc × Nat)} {R : Nat → Prop}
    {c : Loc} : ∀ (p : Prog) (k n : Nat) (last : Term), (∀ r i, last ≠ .falseEdge r i) → p.forks = 0 →
    Slice b k (p.code k n last) → (∀ y, In k (k + p.size) y → R y ∧ c.block ≠ y ∧ ¬ Dominates b.succ c.block y) →
    Goes b R none c (deedStmts (.ofBody b fuel order) (p.stmts k n)) [] [] c
  | .fin, k, n, last, hl, _, hs, hR => by
    simp only [Prog.stmts, deedStmts]
    exact .done
  | .act sp r, k, n, last, hl, hq, hs, hR => by
    obtain ⟨d, hd, hn⟩ := head_of (p := r) (n := n + 1) hl hs
    have hk : In k (k + (Prog.act sp r).size) k := ⟨Nat.le_refl _, by have := (Prog.act sp r).size_pos; omega⟩
    have hnext := next_inside hd (n := n) (by omega)
    have := Prog.lost hb (fuel := fuel) (order := order) r k (n + 1) last hl hq hs hR
    simp only [Prog.stmts, deedStmts, deedStmt, deedExpr, deedParts, one, deedAfter_some hnext, List.nil_append,
      List.cons_append]
    obtain ⟨h1, h2, h3⟩ := hR k hk
    exact .lost h1 (fun h => h.elim (fun h => h2 h.1) (fun h => h3 h.2)) this
  | .bind sp vs r, k, n, last, hl, hq, hs, hR => by
    obtain ⟨d, hd, hn⟩ := head_of (p := r) (n := n + 1) hl hs
    have hk : In k (k + (Prog.bind sp vs r).size) k := ⟨Nat.le_refl _, by have := (Prog.bind sp vs r).size_pos; omega⟩
    have hnext := next_inside hd (n := n) (by omega)
    have := Prog.lost hb (fuel := fuel) (order := order) r k (n + 1) last hl hq hs hR
    simp only [Prog.stmts, deedStmts, deedStmt, deedOpt, deedOptBlock, deedExpr, deedParts, one, deedAfter_some hnext,
      List.nil_append, List.cons_append]
    obtain ⟨h1, h2, h3⟩ := hR k hk
    exact .lost h1 (fun h => h.elim (fun h => h2 h.1) (fun h => h3 h.2)) this
  | .call sp r, k, n, last, hl, hq, hs, hR => by
    obtain ⟨hd, hr⟩ := Slice.tail hs
    have hp := r.size_pos
    have he : k + (Prog.call sp r).size = k + 1 + r.size := by simp only [Prog.size, Prog.shape, Shape.size]; omega
    rw [he] at hR
    have hlt := slice_lt hr
    have hf : b.succ k = [k + 1] := hb.succ hd (fun y hy => by
      rw [List.mem_singleton.1 hy]
      omega)
    have hnext := next_block hd (Nat.le_refl n) hf
    have := Prog.lost hb (fuel := fuel) (order := order) r (k + 1) 0 last hl hq hr
      (fun y hy => hR y (by unfold In at *; omega))
    simp only [Prog.stmts, deedStmts, deedStmt, deedExpr, deedParts, one, deedAfter_some hnext, List.nil_append,
      List.cons_append]
    obtain ⟨h1, h2, h3⟩ := hR (k + 1) ⟨by omega, by omega⟩
    exact .lost h1 (fun h => h.elim (fun h => h2 h.1) (fun h => h3 h.2)) this
  | .ite .., _, _, _, _, hq, _, _ => by simp only [Prog.forks] at hq; omega
  | .only .., _, _, _, _, hq, _, _ => by simp only [Prog.forks] at hq; omega
  | .mtch .., _, _, _, _, hq, _, _ => by simp only [Prog.forks] at hq; omega
  | .whl .., _, _, _, _, hq, _, _ => by simp only [Prog.forks] at hq; omega
  | .frl .., _, _, _, _, hq, _, _ => by simp only [Prog.forks] at hq; omega

/-! ## The steps -/

/-- The steps from the condition on: for the condition, into the two arms, and those of the arm that returns. -/
def Early.shown (x : Early) : List Step :=
  (x.cond, ⟨x.cond.block, x.cond.idx + 1⟩, x.sp) ::
    (⟨x.cond.block, x.cond.idx + 1⟩, ⟨x.cond.block + 1, 0⟩, x.hi) ::
    (⟨x.cond.block, x.cond.idx + 1⟩, ⟨x.then, 0⟩, x.lt) :: x.t.expected x.then 0

/-- The branches from the condition on. -/
def Early.branched (x : Early) : List Fork :=
  (⟨x.cond.block, x.cond.idx + 1⟩, ⟨x.ret, 0⟩,
    [(⟨x.cond.block, x.cond.idx + 1⟩, ⟨x.cond.block + 1, 0⟩, x.hi),
      (⟨x.cond.block, x.cond.idx + 1⟩, ⟨x.then, 0⟩, x.lt)]) :: x.t.joins x.then 0

theorem Early.goes (x : Early) {fuel : Nat} {order : List (Loc × Nat) → List (Loc × Nat)}
    (ho : ∀ l, (order l).Perm l) {R : Nat → Prop} (hR : ∀ y, In x.cond.block (x.cond.block + x.last.size) y → R y)
    {ds : List Deed} {w : List Step} {bs : List Fork} {c : Loc}
    (hg : Goes x.body R none ⟨x.ret, 0⟩ ds w bs c) :
    Goes x.body R none x.cond (deedStmt (.ofBody x.body fuel order)
      (.expr ⟨some x.cond, none, 0, 0, 0⟩ x.conditional) ++ ds) (x.shown ++ w) (x.branched ++ bs) c := by
  have W := body_whole (x.pre.plug x.last)
  have hb := body_fine (x.pre.plug x.last)
  have P := x.place_last
  obtain ⟨hd, hse, hst, hsr⟩ := slice_ite x.slice
  change Place x.body.succ _ _ _ at P
  change Whole x.body _ at W
  change Fine x.body at hb
  unfold Early.conditional Early.shown Early.branched
  have hth : x.then = x.cond.block + 1 + (Prog.act 0 x.q).size := rfl
  have hre : x.ret = x.cond.block + 1 + (Prog.act 0 x.q).size + x.t.size := rfl
  rw [show x.last = .ite x.sp x.lt 0 0 x.t (.act 0 x.q) .fin from rfl] at P hR
  rw [hth, hre]
  rw [hre] at hg
  rw [show x.cond = ⟨x.cond.block, x.cond.idx⟩ from rfl]
  generalize x.body = b at *
  generalize x.cond.block = k at *
  generalize x.cond.idx = n at *
  generalize x.then = th at *
  generalize x.ret = rt at *
  generalize x.t = t at *
  generalize x.sp = sp at *
  generalize x.lt = lt at *
  generalize x.hi = hi at *
  generalize Prog.act 0 x.q = e at *
  have hpt := t.size_pos
  have hpe := e.size_pos
  have hj : k + 1 + (Limbs.cons false e.shape (.cons false t.shape .nil)).size = k + 1 + e.size + t.size := by
    simp only [Limbs.size, Bool.toNat_false, Prog.size]; omega
  have he : k + (Prog.ite sp lt 0 0 t e .fin).size = k + 1 + e.size + t.size + 1 := by
    simp only [Prog.size, Prog.shape, Shape.size, Limbs.size, Bool.toNat_false]; omega
  rw [he] at hR
  rw [Prog.shape] at P
  have hreal : ¬ EndsInFalseEdge b (k + 1 + e.size + t.size) := real_of (by intro _ _ h; cases h) hsr
  have hreal' := hj.symm ▸ hreal
  have hk : In k (k + 1 + e.size + t.size + 1) k := ⟨by omega, by omega⟩
  have hp0 : ((Limbs.cons false e.shape (.cons false t.shape .nil)).parts (k + 1))[0]? = some (k + 1, false, e.shape) :=
    rfl
  have hp1 : ((Limbs.cons false e.shape (.cons false t.shape .nil)).parts (k + 1))[1]? =
    some (k + 1 + e.size, false, t.shape) := rfl
  have hnext := next_inside hd (n := n) (Nat.lt_succ_self n)
  have PT := P.limb hp1
  rw [hj] at PT
  have N1 := fun y hy => P.join_not W hreal' hp1 (y := y) hy
  rw [hj] at N1
  have gt := Prog.goes hb W fuel ho t (k + 1 + e.size) 0 _ .fin _ (In (k + 1 + e.size) (k + 1 + e.size + t.size))
    (some ⟨k + 1 + e.size + t.size, 0⟩) (by intro _ _ h; cases h) (.plain PT) hst (fun y hy => In.plain hy)
    (fun y hy q hq => by cases hq; exact N1 y (In.plain hy))
  have hen : setSpan [] ⟨k + 1 + e.size, 0⟩ lt = [(⟨k + 1 + e.size, 0⟩, lt)] := rfl
  have f0 : (Env.ofBody b fuel order).spanner [(⟨k + 1 + e.size, 0⟩, lt)] hi ⟨k + 1, 0⟩ = (⟨k + 1, 0⟩, hi) := by
    refine fork_miss W ho P hreal' hp0 ?_
    intro x hx
    rw [List.mem_singleton] at hx
    subst hx
    exact ⟨1, _, _, _, by omega, hp1, Nat.le_refl _, Nat.lt_add_of_pos_right hpt⟩
  have f1 : (Env.ofBody b fuel order).spanner [(⟨k + 1 + e.size, 0⟩, lt)] hi ⟨k + 1 + e.size, 0⟩ =
      (⟨k + 1 + e.size, 0⟩, lt) := by
    refine fork_hit W ho P hreal' ?_ hp1 (by simp) ⟨Nat.le_refl _, Nat.lt_add_of_pos_right hpt⟩ ?_
    · intro x hx
      rw [List.mem_singleton] at hx
      subst hx
      exact ⟨1, _, _, _, hp1, Nat.le_refl _, Nat.lt_add_of_pos_right hpt⟩
    · intro x hx _
      rwa [List.mem_singleton] at hx
  have G := fork_goes' W P hj hreal ⟨_, term_of hd⟩ (l := ⟨k, n + 1⟩) rfl
    (fun i => if i = 0 then ⟨k + 1, 0⟩ else ⟨k + 1 + e.size, 0⟩) (fun i => if i = 0 then hi else lt)
    (two_limbs ⟨f0, Nat.le_refl _, Nat.lt_add_of_pos_right hpe⟩ ⟨f1, Nat.le_refl _, Nat.lt_add_of_pos_right hpt⟩)
    [1] (by simp) (by simp [Limbs.parts])
    (arms := [deedStmts (.ofBody b fuel order) (t.stmts (k + 1 + e.size) 0)])
    [t.expected (k + 1 + e.size) 0] [t.joins (k + 1 + e.size) 0] rfl rfl rfl
    (by
      intro i d q w bs h hd' g h1 h2 h3 h4 h5
      match i with
      | 0 =>
        cases h1
        cases h2
        cases h3
        cases h4
        cases h5
        exact ⟨_, gt⟩
      | i + 1 => cases h1) (hR _ ⟨by omega, by omega⟩) hg
  simp only [deedStmt, deedExpr, deedParts, deedPart, deedBlock, deedFork, deedElse, Expr.node,
    one, after_next hnext, deedAfter_none, ifEntries, setEntry, braces, Option.map_none, Option.some_or, deedIf,
    reduceCtorEq, if_false, List.append_nil, List.nil_append, List.cons_append, hen]
  refine .step (hR k hk) (.inl ⟨rfl, Nat.le_succ n⟩) (.inl ⟨rfl, Nat.le_succ n⟩) (fun q hq => by cases hq) ?_
  rw [stmts_of hd] at G
  have hr : ∀ g : Nat → Step, (List.range 2).map g = [g 0, g 1] := fun _ => rfl
  simpa only [Limbs.parts, List.length_cons, List.length_nil, Nat.zero_add, Nat.reduceAdd, hr, if_true, Nat.one_ne_zero,
    if_false, List.flatten_cons, List.flatten_nil, List.append_nil, List.append_assoc, List.cons_append,
    List.nil_append] using G

theorem deedStmts_append (E : Env) : ∀ xs ys : List Stmt, deedStmts E (xs ++ ys) = deedStmts E xs ++ deedStmts E ys
  | [], ys => by simp only [List.nil_append, deedStmts]
  | x :: xs, ys => by simp only [List.cons_append, deedStmts, deedStmts_append E xs ys, List.append_assoc]

/-- The block that returns. -/
theorem Early.ret_block (x : Early) : x.body[x.ret]? = some ⟨1, .ret, false⟩ :=
  (Slice.tail (slice_ite x.slice).2.2.2).1

/-- Every function with an early `return`, if nothing branches after it: the stepper makes exactly the steps of what
precedes, of the condition and of the arm that returns, and the one for the whole.  It makes none for the statements that
follow the `if`. -/
theorem C84_programs (x : Early) (hq : x.q.forks = 0) (sp : Nat) {fuel : Nat} (hfu : fuel ≠ 0)
    {order : List (Loc × Nat) → List (Loc × Nat)} (ho : ∀ l, (order l).Perm l) :
    ∃ f locals, compute (.ofBody x.body fuel order) (x.source sp) = .steps f locals ∧
      f.segs.map (fun g => (g.from, g.to, g.span)) =
        x.pre.expected 0 0 ++ (x.shown ++ [(⟨x.ret, 0⟩, ⟨x.ret, 1⟩, sp)]) ∧
      Branched f (x.pre.joins 0 0 ++ x.branched) := by
  have W := body_whole (x.pre.plug x.last)
  have hb := body_fine (x.pre.plug x.last)
  have P := x.place_last
  obtain ⟨hd, hse, hst, hsr⟩ := slice_ite x.slice
  change Whole x.body _ at W
  change Fine x.body at hb
  have hreal : ¬ EndsInFalseEdge x.body (x.cond.block + 1 + (Prog.act 0 x.q).size + x.t.size) :=
    real_of (by intro _ _ h; cases h) hsr
  have hj : x.cond.block + 1 + (Limbs.cons false (Prog.act 0 x.q).shape (.cons false x.t.shape .nil)).size =
      x.cond.block + 1 + (Prog.act 0 x.q).size + x.t.size := by
    simp only [Limbs.size, Bool.toNat_false, Prog.size]; omega
  have hreal' := hj.symm ▸ hreal
  have hp0 : ((Limbs.cons false (Prog.act 0 x.q).shape (.cons false x.t.shape .nil)).parts (x.cond.block + 1))[0]? =
      some (x.cond.block + 1, false, (Prog.act 0 x.q).shape) := rfl
  have P' : Place x.body.succ (.fork (.cons false (Prog.act 0 x.q).shape (.cons false x.t.shape .nil)) .fin)
    x.cond.block [] := P
  have N0 := fun y hy => P'.join_not W hreal' hp0 (y := y) hy
  rw [hj] at N0
  have hret : x.body[x.ret]? = some ⟨1, .ret, false⟩ := x.ret_block
  have hnext : x.body.locationSuccessor ⟨x.ret, 0⟩ = some ⟨x.ret, 1⟩ := next_inside hret Nat.one_pos
  have g0 := Prog.goes hb W fuel ho x.pre 0 0 (.switchInt [x.cond.block + 1, x.cond.block + 1 + x.q.size])
    x.last.shape [] (fun _ => True) none (by intro _ _ h; cases h) x.place x.slice_pre
    (fun _ _ => trivial) (fun _ _ q hq => by cases hq)
  have gq : Goes x.body (fun _ => True) none ⟨x.ret, 0⟩
      (deedStmts (.ofBody x.body fuel order) (x.q.stmts (x.cond.block + 1) 1)) [] [] ⟨x.ret, 0⟩ :=
    Prog.lost hb x.q (x.cond.block + 1) 1 _ (by intro _ _ h; cases h) hq hse (fun y hy => ⟨trivial, N0 y hy⟩)
  have gs : Goes x.body (fun _ => True) none ⟨x.ret, 0⟩ [.step ⟨x.ret, 1⟩ sp] [(⟨x.ret, 0⟩, ⟨x.ret, 1⟩, sp)] []
      ⟨x.ret, 1⟩ :=
    .step trivial (.inl ⟨rfl, Nat.le_succ _⟩) (.inl ⟨rfl, Nat.le_succ _⟩) (fun q hq => by cases hq) .done
  have g1 := x.goes (fuel := fuel) ho (fun _ _ => trivial) (gq.append gs)
  have := g0.append g1
  have hd : deedBody (.ofBody x.body fuel order) (x.source sp) = deedStmts (.ofBody x.body fuel order) (x.pre.stmts 0 0) ++
      (deedStmt (.ofBody x.body fuel order) (.expr ⟨some x.cond, none, 0, 0, 0⟩ x.conditional) ++
        (deedStmts (.ofBody x.body fuel order) (x.q.stmts (x.cond.block + 1) 1) ++ [.step ⟨x.ret, 1⟩ sp])) := by
    unfold deedBody
    simp only [Early.source, Expr.node, deedAfter_some hnext]
    simp only [deedExpr, deedParts, deedPart, deedBlock, deedStmts_append, deedStmts, List.append_nil, List.append_assoc]
  refine C102_steps W.valid (by rw [W.returns]; simp) hfu order (x.source sp) (c := ⟨x.ret, 1⟩) (R := fun _ => True)
    trivial ?_
  rw [hd]
  simp only [List.nil_append, List.append_nil] at this
  exact this

/-- Each statement that follows the `if` is left out: a span that belongs to nothing else is not shown. -/
theorem C84_left_out (x : Early) (hq : x.q.forks = 0) (sp : Nat) {fuel : Nat} (hfu : fuel ≠ 0)
    {order : List (Loc × Nat) → List (Loc × Nat)} (ho : ∀ l, (order l).Perm l) {s : Nat}
    (h : s ∉ x.pre.says ++ x.pre.ways ++ [x.sp, x.hi, x.lt] ++ x.t.says ++ x.t.ways ++ [sp]) {f : Frozen}
    {locals : List (Nat × List Nat)} (hc : compute (.ofBody x.body fuel order) (x.source sp) = .steps f locals) :
    ∀ g ∈ f.segs, g.span ≠ s := by
  obtain ⟨_, _, h1, h2, _⟩ := C84_programs x hq sp hfu ho
  rw [h1] at hc
  cases hc
  intro g hg he
  have hm : (g.from, g.to, g.span) ∈ f.segs.map (fun g => (g.from, g.to, g.span)) := List.mem_map_of_mem hg
  rw [h2] at hm
  simp only [List.mem_append, List.mem_cons, List.not_mem_nil, or_false, not_or] at h
  have hs : Walk.shown s (x.pre.expected 0 0 ++ (x.shown ++ [(⟨x.ret, 0⟩, ⟨x.ret, 1⟩, sp)])) = 0 := by
    have e1 := List.count_eq_zero.2 h.1.1.1.1.1
    have e2 := List.count_eq_zero.2 h.1.1.1.1.2
    have e3 := List.count_eq_zero.2 h.1.1.2
    have e4 := List.count_eq_zero.2 h.1.2
    simp only [shown_append, Early.shown, shown_cons, shown_nil, Prog.shown, e1, e2, e3, e4]
    have n1 : x.sp ≠ s := fun h' => h.1.1.1.2.1 h'.symm
    have n2 : x.hi ≠ s := fun h' => h.1.1.1.2.2.1 h'.symm
    have n3 : x.lt ≠ s := fun h' => h.1.1.1.2.2.2 h'.symm
    have n4 : sp ≠ s := fun h' => h.2 h'.symm
    simp [n1, n2, n3, n4]
  refine List.count_eq_zero.1 hs ?_
  rw [← he]
  exact List.mem_map_of_mem (f := fun y : Step => y.2.2) hm

/-! ## Branching after the `return` -/

theorem mem_after_cond {next : Loc → Option Loc} {n cnd : Node} {l : Loc} {inner : List Due}
    (h : HirSteps.after next cnd = some l) : Due.fork l ∈ dueFork next n cnd inner := by
  unfold dueFork
  rw [h]
  simp

theorem after_one {b : Body} {l l' : Loc} {sp : Nat} (h : b.locationSuccessor l = some l') :
    HirSteps.after b.locationSuccessor (one l sp) = some l' := by
  simp [HirSteps.after, one, h]

/-- A branching construct of a program is visited at one of its blocks. -/
theorem Prog.forks_due {b : Body} (hb : Fine b) (sw : Nat → Bool) : ∀ (p : Prog) (k n : Nat) (last : Term),
    (∀ r i, last ≠ .falseEdge r i) → p.forks ≠ 0 → Slice b k (p.code k n last) →
    ∃ l, Due.fork l ∈ dueStmts sw b.locationSuccessor (p.stmts k n) ∧ In k (k + p.size) l.block
  | .fin, k, n, last, hl, hq, hs => absurd rfl hq
  | .act sp r, k, n, last, hl, hq, hs => by
    obtain ⟨l, h1, h2⟩ := Prog.forks_due hb sw r k (n + 1) last hl hq hs
    exact ⟨l, by rw [Prog.stmts, dueStmts]; exact List.mem_append_right _ h1, h2⟩
  | .bind sp vs r, k, n, last, hl, hq, hs => by
    obtain ⟨l, h1, h2⟩ := Prog.forks_due hb sw r k (n + 1) last hl hq hs
    exact ⟨l, by rw [Prog.stmts, dueStmts]; exact List.mem_append_right _ h1, h2⟩
  | .call sp r, k, n, last, hl, hq, hs => by
    obtain ⟨hd, hr⟩ := Slice.tail hs
    obtain ⟨l, h1, h2⟩ := Prog.forks_due hb sw r (k + 1) 0 last hl hq hr
    have he : k + (Prog.call sp r).size = k + 1 + r.size := by simp only [Prog.size, Prog.shape, Shape.size]; omega
    exact ⟨l, by rw [Prog.stmts, dueStmts]; exact List.mem_append_right _ h1, by rw [he]; unfold In at *; omega⟩
  | .ite sp lt le hi t e r, k, n, last, hl, hq, hs => by
    have hd := (slice_ite hs).1
    refine ⟨⟨k, n + 1⟩, ?_, Nat.le_refl _, by have := (Prog.ite sp lt le hi t e r).size_pos; dsimp only; omega⟩
    rw [Prog.stmts, dueStmts, dueStmt, dueExpr]
    exact List.mem_append_left _ (List.mem_append_left _ (List.mem_append_right _ (mem_after_cond
      (after_one (next_inside hd (n := n) (by dsimp only; omega))))))
  | .only sp lt hi t r, k, n, last, hl, hq, hs => by
    have hd := (slice_only hs).1
    refine ⟨⟨k, n + 1⟩, ?_, Nat.le_refl _, by have := (Prog.only sp lt hi t r).size_pos; dsimp only; omega⟩
    rw [Prog.stmts, dueStmts, dueStmt, dueExpr]
    exact List.mem_append_left _ (List.mem_append_left _ (List.mem_append_right _ (mem_after_cond
      (after_one (next_inside hd (n := n) (by dsimp only; omega))))))
  | .mtch sp ds i f as r, k, n, last, hl, hq, hs => by
    have hd := (slice_mtch hs).1
    refine ⟨⟨k, n + 1⟩, ?_, Nat.le_refl _, by have := (Prog.mtch sp ds i f as r).size_pos; dsimp only; omega⟩
    rw [Prog.stmts, dueStmts, dueStmt, dueExpr, show ∀ c m, isPlain sw b.locationSuccessor false c m = false from
      fun _ _ => rfl, if_neg Bool.false_ne_true]
    exact List.mem_append_left _ (List.mem_append_left _ (List.mem_append_right _ (mem_after_cond
      (after_one (next_inside hd (n := n) (by dsimp only; omega))))))
  | .whl sp sc lt hi sb c t r, k, n, last, hl, hq, hs => by
    have hd := (slice_whl hs).2.2.2.1
    have he : k + (Prog.whl sp sc lt hi sb c t r).size = k + 3 + c + t.size + r.size := by
      simp only [Prog.size, Prog.shape, Shape.size, Bool.toNat_false]; omega
    refine ⟨⟨k + 2 + c, 1⟩, ?_, by dsimp only; omega, by rw [he]; dsimp only; omega⟩
    rw [Prog.stmts, dueStmts, dueStmt, dueExpr]
    refine List.mem_append_left _ (List.mem_append_left _ (List.mem_append_right _ (mem_after_cond ?_)))
    have := next_inside hd (n := 0) Nat.one_pos
    simp [HirSteps.after, Expr.node, this]
  | .frl sp sa sc hi sn lb li nb t r, k, n, last, hl, hq, hs => by
    obtain ⟨hd0, hd1, _, hd3, hd4, hd5, _, hsr⟩ := slice_frl hs
    have hlt := slice_lt hsr
    have hp := r.size_pos
    have he : k + (Prog.frl sp sa sc hi sn lb li nb t r).size = k + 6 + t.size + r.size := by
      simp only [Prog.size, Prog.shape, Shape.size, Bool.toNat_true]; omega
    have hf0 : b.succ k = [k + 1] := hb.succ hd0 (fun y hy => by rw [List.mem_singleton.1 hy]; omega)
    have hf3 : b.succ (k + 3) = [k + 4] := hb.succ hd3 (fun y hy => by rw [List.mem_singleton.1 hy]; omega)
    have hn0 : b.locationSuccessor ⟨k, n⟩ = some ⟨k + 1, 0⟩ := next_block hd0 (Nat.le_refl n) hf0
    have hn3 : b.locationSuccessor ⟨k + 3, 1⟩ = some ⟨k + 4, 0⟩ := next_block hd3 (Nat.le_refl 1) hf3
    rw [Prog.stmts, dueStmts, dueStmt, dueExpr, he]
    split
    · refine ⟨⟨k + 4, 0⟩, ?_, by dsimp only; omega, by dsimp only; omega⟩
      refine List.mem_append_left _ (List.mem_append_left _ (List.mem_append_right _ ?_))
      rw [dueArms, dueArm, dueExpr]
      have := mem_after_cond (n := ⟨some ⟨k + 3, 0⟩, some ⟨k + 6 + t.size, 0⟩, sp, 0, hi⟩)
        (cnd := ⟨some ⟨k + 3, 0⟩, some ⟨k + 3, 1⟩, sc, 0, 0⟩) (l := ⟨k + 4, 0⟩)
        (inner := dueArm sw b.locationSuccessor (.mk ⟨some ⟨k + 6 + t.size, 0⟩, some ⟨k + 6 + t.size, 0⟩, 0, sn, 0⟩
            ⟨none, none, 0, 0, 0⟩ none (.other (one ⟨k + 6 + t.size, 0⟩ sn) [])) ++
          dueArm sw b.locationSuccessor (.mk ⟨some ⟨k + 6, 0⟩, some (t.finAt (k + 6) nb), 0, li, 0⟩
            ⟨none, none, 0, 0, 0⟩ none (braces ⟨k + 6, nb⟩ (t.finAt (k + 6) nb) lb (t.stmts (k + 6) nb))))
        (next := b.locationSuccessor) (by simp [HirSteps.after, hn3])
      simp only [dueIf, reduceCtorEq, if_false, List.mem_append]
      exact .inl (.inr (.inr this))
    · refine ⟨⟨k + 1, 0⟩, ?_, by dsimp only; omega, by dsimp only; omega⟩
      exact List.mem_append_left _ (List.mem_append_left _ (List.mem_append_right _ (mem_after_cond (after_one hn0))))

/-- Every function with an early `return` after which something branches: it has no steps at all. -/
theorem C84_branching (x : Early) (hq : x.q.forks ≠ 0) (sp : Nat) {fuel : Nat}
    {order : List (Loc × Nat) → List (Loc × Nat)} (f : Frozen) (locals : List (Nat × List Nat)) :
    compute (.ofBody x.body fuel order) (x.source sp) ≠ .steps f locals := by
  intro h
  have W := body_whole (x.pre.plug x.last)
  have hb := body_fine (x.pre.plug x.last)
  have P := x.place_last
  obtain ⟨hd, hse, hst, hsr⟩ := slice_ite x.slice
  change Whole x.body _ at W
  change Fine x.body at hb
  have hreal : ¬ EndsInFalseEdge x.body (x.cond.block + 1 + (Prog.act 0 x.q).size + x.t.size) :=
    real_of (by intro _ _ h; cases h) hsr
  have hj : x.cond.block + 1 + (Limbs.cons false (Prog.act 0 x.q).shape (.cons false x.t.shape .nil)).size =
      x.cond.block + 1 + (Prog.act 0 x.q).size + x.t.size := by
    simp only [Limbs.size, Bool.toNat_false, Prog.size]; omega
  have hreal' := hj.symm ▸ hreal
  have P' : Place x.body.succ (.fork (.cons false (Prog.act 0 x.q).shape (.cons false x.t.shape .nil)) .fin)
    x.cond.block [] := P
  have J := (P'.fork W hreal').join
  rw [hj] at J
  have hnext := next_inside hd (n := x.cond.idx) (Nat.lt_succ_self _)
  have hsw : switchOf x.body.mapper ⟨x.cond.block, x.cond.idx + 1⟩ = x.cond.block := by
    have : findNextSwitch x.body.mapper ⟨x.cond.block, x.cond.idx + 1⟩ = .found x.cond.block :=
      Ahead.found W.valid (.here ⟨_, term_of hd⟩)
    unfold switchOf
    rw [this]
  obtain ⟨l, hl, hin⟩ := Prog.forks_due hb x.body.mapper.isSwitch x.q (x.cond.block + 1) 1 _
    (by intro _ _ h; cases h) hq hse
  have hlp : leastPostDominator x.body (switchOf x.body.mapper ⟨x.cond.block, x.cond.idx + 1⟩) = some x.ret := by
    rw [hsw]
    exact (C68_join W.valid (by rw [W.returns]; simp) _ _).2 J
  have hr := (C84_rest W.valid (l := ⟨x.cond.block, x.cond.idx + 1⟩) (j := x.ret) (tail := none) (by
    show (HirSteps.after _ _).or _ = _
    rw [show Expr.node (.other (one x.cond x.sp) []) = one x.cond x.sp from rfl, after_one hnext]
    rfl) hlp h).2 l (List.mem_append_left _ hl)
  have he : ∀ y, Reach x.body.succ x.ret y → y = x.ret := by
    intro y hy
    induction hy with
    | refl => rfl
    | tail _ hz ih =>
      rw [ih, hb.succ x.ret_block (fun y hy => by cases hy)] at hz
      cases hz
  have := he _ hr
  have h2 := hin.2
  have hpt := x.t.size_pos
  have hre : x.ret = x.cond.block + 1 + x.q.size + x.t.size := rfl
  omega

/-! ## Examples -/

/-- `a; if c { b } d;` where `b` returns: the spans of `a`, `c`, the end of the `if`, the start of the arm, `b` and the
whole are shown; 6, which is `d`, is not. -/
example : ∃ f locals, compute (.ofBody (Early.mk (.act 1 .fin) 2 3 4 (.act 5 .fin) (.act 6 .fin)).body 1 id)
    ((Early.mk (.act 1 .fin) 2 3 4 (.act 5 .fin) (.act 6 .fin)).source 9) = .steps f locals ∧
    f.segs.map (·.span) = [1, 2, 4, 3, 5, 9] ∧ f.branches.length = 1 := by
  obtain ⟨f, locals, h1, h2, h3⟩ := C84_programs (Early.mk (.act 1 .fin) 2 3 4 (.act 5 .fin) (.act 6 .fin)) rfl 9
    (fuel := 1) (by omega) (order := id) (fun _ => .refl _)
  refine ⟨f, locals, h1, ?_, ?_⟩
  · have := congrArg (List.map (fun y : Step => y.2.2)) h2
    rw [List.map_map] at this
    exact this
  · have := congrArg List.length h3
    rw [List.length_map, List.length_map] at this
    exact this

/-- With a call and a loop before it, an `if` in the arm that returns, and a call and a `let` behind it. -/
example : (Early.mk (.call 1 (.whl 2 3 4 5 6 0 (.act 7 .fin) .fin)) 8 9 10 (.only 11 12 13 (.act 14 .fin) .fin)
    (.call 15 (.bind 16 [0] .fin))).q.forks = 0 ∧
    (Early.mk (.call 1 (.whl 2 3 4 5 6 0 (.act 7 .fin) .fin)) 8 9 10 (.only 11 12 13 (.act 14 .fin) .fin)
    (.call 15 (.bind 16 [0] .fin))).body.length = 13 := by decide

/-- `a; if c { b } if d { e }`: no steps. -/
example (f : Frozen) (locals : List (Nat × List Nat)) :
    compute (.ofBody (Early.mk (.act 1 .fin) 2 3 4 (.act 5 .fin) (.only 6 7 8 (.act 9 .fin) .fin)).body 1 id)
      ((Early.mk (.act 1 .fin) 2 3 4 (.act 5 .fin) (.only 6 7 8 (.act 9 .fin) .fin)).source 10) ≠ .steps f locals :=
  C84_branching _ (by decide) 10 f locals

end Verif.Walk
