import Verif.HirSteps.Model
import Verif.Segments.Props
import Verif.Segments.Join
/-!
# Properties of visits that are closed under the combinators of the visitor
-/
namespace Verif.HirSteps

open Verif.Cfg Verif.Segments Verif.Graph

/-- What has to be checked to show `P` for all visits. -/
structure Closed (E : Env) (P : Visit → Prop) : Prop where
  ok : P .ok
  seq : ∀ {a b}, P a → P b → P (seq a b)
  step : ∀ n, P (fun v => v.stepAfter E n)
  under : ∀ n {a}, P a → P (visitUnder n a)
  branch : ∀ n cn {c i} en d, P c → P i → P (handleBranch E n cn c i en d)
  arm : ∀ n bn {g : Option Visit} {b}, (∀ x, g = some x → P x) → P b → P (handleArm E n bn g b)
  scope : ∀ {a}, P a → P (inScope a)
  stmt : ∀ n locals {a}, P a → P (inStmt E n locals a)

mutual
theorem all_expr {E : Env} {P : Visit → Prop} (h : Closed E P) : ∀ e, P (visitExpr E e)
  | .ite n cnd thn els => by
    rw [visitExpr.eq_def]
    dsimp only
    exact h.branch _ _ _ _ (all_expr h cnd) (h.seq (h.under _ (all_expr h thn)) (all_else h els))
  | .whileLoop n cnd thn els => by
    rw [visitExpr]
    exact h.branch _ _ _ _ (all_expr h cnd) (h.seq (h.under _ (all_expr h thn)) (h.under _ (all_expr h els)))
  | .forLoop n cnd nothing item => by
    rw [visitExpr]
    exact h.branch _ _ _ _ (all_expr h cnd) (h.seq (all_arm h nothing) (all_arm h item))
  | .mtch n fromFor cnd arms => by
    rw [visitExpr]
    split
    · exact h.seq (all_expr h cnd) (all_arms h arms)
    · exact h.branch _ _ _ _ (all_expr h cnd) (all_arms h arms)
  | .other n parts => by
    rw [visitExpr]
    exact all_parts h parts
theorem all_else {E : Env} {P : Visit → Prop} (h : Closed E P) : ∀ e, P (visitElse E e)
  | none => by rw [visitElse]; exact h.ok
  | some e => by rw [visitElse]; exact h.under _ (all_expr h e)
theorem all_opt {E : Env} {P : Visit → Prop} (h : Closed E P) : ∀ e, P (visitOpt E e)
  | none => by rw [visitOpt]; exact h.ok
  | some e => by rw [visitOpt]; exact all_expr h e
theorem all_parts {E : Env} {P : Visit → Prop} (h : Closed E P) : ∀ e, P (visitParts E e)
  | [] => by rw [visitParts]; exact h.ok
  | p :: r => by rw [visitParts]; exact h.seq (all_part h p) (all_parts h r)
theorem all_part {E : Env} {P : Visit → Prop} (h : Closed E P) : ∀ e, P (visitPart E e)
  | .expr e => by rw [visitPart]; exact all_expr h e
  | .block b => by rw [visitPart]; exact all_block h b
  | .body e => by rw [visitPart]; exact h.seq (all_expr h e) (h.step _)
theorem all_arms {E : Env} {P : Visit → Prop} (h : Closed E P) : ∀ e, P (visitArms E e)
  | [] => by rw [visitArms]; exact h.ok
  | p :: r => by rw [visitArms]; exact h.seq (all_arm h p) (all_arms h r)
theorem all_arm {E : Env} {P : Visit → Prop} (h : Closed E P) : ∀ e, P (visitArm E e)
  | .mk n pat none body => by
    rw [visitArm]
    exact h.arm _ _ (by simp) (all_expr h body)
  | .mk n pat (some g) body => by
    rw [visitArm]
    exact h.arm _ _ (by simpa using all_expr h g) (all_expr h body)
theorem all_stmts {E : Env} {P : Visit → Prop} (h : Closed E P) : ∀ e, P (visitStmts E e)
  | [] => by rw [visitStmts]; exact h.ok
  | p :: r => by rw [visitStmts]; exact h.seq (all_stmt h p) (all_stmts h r)
theorem all_stmt {E : Env} {P : Visit → Prop} (h : Closed E P) : ∀ e, P (visitStmt E e)
  | .lt n locals init els => by
    rw [visitStmt]
    exact h.stmt _ _ (h.seq (all_opt h init) (all_optBlock h els))
  | .expr n e => by rw [visitStmt]; exact h.stmt _ _ (all_expr h e)
  | .item n bodies => by rw [visitStmt]; exact h.stmt _ _ (all_parts h bodies)
theorem all_optBlock {E : Env} {P : Visit → Prop} (h : Closed E P) : ∀ e, P (visitOptBlock E e)
  | none => by rw [visitOptBlock]; exact h.ok
  | some b => by rw [visitOptBlock]; exact all_block h b
theorem all_block {E : Env} {P : Visit → Prop} (h : Closed E P) : ∀ e, P (visitBlock E e)
  | .mk n stmts none => by rw [visitBlock]; exact h.scope (all_stmts h stmts)
  | .mk n stmts (some e) => by
    rw [visitBlock]
    exact h.scope (h.seq (all_stmts h stmts) (h.seq (all_expr h e) (h.step _)))
end

theorem all_body {E : Env} {P : Visit → Prop} (h : Closed E P) (e : Expr) : P (visitBody E e) := by
  rw [visitBody]
  exact h.seq (all_expr h e) (h.step _)

/-! ## What a successful visit is made of -/

theorem seq_ok {a b : Visit} {v v' : V} (h : seq a b v = .ok v') : ∃ v1, a v = .ok v1 ∧ b v1 = .ok v' := by
  unfold seq at h
  cases ha : a v with
  | error e => rw [ha] at h; exact absurd h (by simp)
  | ok v1 => rw [ha] at h; exact ⟨v1, rfl, h⟩

theorem seq_eq {a b : Visit} {v v1 : V} (h : a v = .ok v1) : seq a b v = b v1 := by
  unfold seq; rw [h]

theorem stepAfter_ok {E : Env} {n : Node} {v v' : V} (h : v.stepAfter E n = .ok v') :
    E.exitOf n = none ∧ v' = v ∨ ∃ l ok, E.exitOf n = some l ∧ v.insert E l n.span = .ok (v', ok) := by
  unfold V.stepAfter at h
  cases he : E.exitOf n with
  | none => rw [he] at h; simp only [Except.ok.injEq] at h; exact .inl ⟨rfl, h.symm⟩
  | some l =>
    rw [he] at h
    dsimp only at h
    cases hi : v.insert E l n.span with
    | error e => rw [hi] at h; exact absurd h (by simp)
    | ok x =>
      obtain ⟨v1, ok⟩ := x
      rw [hi] at h
      simp only [Except.ok.injEq] at h
      subst h
      exact .inr ⟨l, ok, rfl, hi⟩

theorem under_ok {n : Node} {a : Visit} {v v' : V} (h : visitUnder n a v = .ok v') :
    n.entry = none ∧ v' = v ∨ ∃ l v1, n.entry = some l ∧ a (v.push l) = .ok v1 ∧ v' = v1.pop l := by
  unfold visitUnder at h
  cases he : n.entry with
  | none => rw [he] at h; simp only [Except.ok.injEq] at h; exact .inl ⟨rfl, h.symm⟩
  | some l =>
    rw [he] at h
    dsimp only at h
    cases hi : a (v.push l) with
    | error e => rw [hi] at h; exact absurd h (by simp)
    | ok v1 =>
      rw [hi] at h
      simp only [Except.ok.injEq] at h
      exact .inr ⟨l, v1, rfl, hi, h.symm⟩

/-- The ways through a conditional. -/
inductive Branching (E : Env) (n cn : Node) (c i : Visit) (en : List (Loc × Nat)) (d : Nat) (v v' : V) : Prop
  | skipped (v1 : V) : c v = .ok v1 → E.exitOf cn = none → n.entry = none → v' = v1 → Branching E n cn c i en d v v'
  | noStep (v1 : V) (l : Loc) : c v = .ok v1 → (E.exitOf cn).or n.entry = some l →
      v1.insert E l cn.span = .ok (v', false) → Branching E n cn c i en d v v'
  | noBranch (v1 v2 : V) (l : Loc) : c v = .ok v1 → (E.exitOf cn).or n.entry = some l →
      v1.insert E l cn.span = .ok (v2, true) → v2.openBranch E l (E.spanner en d) = .ok (v', none) →
      Branching E n cn c i en d v v'
  | visited (v1 v2 v3 v4 : V) (l : Loc) (bid : Nat) : c v = .ok v1 → (E.exitOf cn).or n.entry = some l →
      v1.insert E l cn.span = .ok (v2, true) → v2.openBranch E l (E.spanner en d) = .ok (v3, some bid) →
      i v3 = .ok v4 → v4.closeBranch bid = .ok v' → Branching E n cn c i en d v v'

theorem branch_ok {E : Env} {n cn : Node} {c i : Visit} {en : List (Loc × Nat)} {d : Nat} {v v' : V}
    (h : handleBranch E n cn c i en d v = .ok v') : Branching E n cn c i en d v v' := by
  unfold handleBranch prelude at h
  cases hc : c v with
  | error e => rw [hc] at h; exact absurd h (by simp)
  | ok v1 =>
    rw [hc] at h
    dsimp only at h
    cases he : (E.exitOf cn).or n.entry with
    | none =>
      rw [he] at h
      simp only [Except.ok.injEq] at h
      rw [Option.or_eq_none_iff] at he
      exact .skipped v1 hc he.1 he.2 h.symm
    | some l =>
      rw [he] at h
      dsimp only at h
      cases hi : v1.insert E l cn.span with
      | error e => rw [hi] at h; exact absurd h (by simp)
      | ok x =>
        obtain ⟨v2, ok⟩ := x
        rw [hi] at h
        cases ok with
        | false =>
          simp only [Bool.false_eq_true, if_false, Except.ok.injEq] at h
          subst h
          exact .noStep v1 l hc he hi
        | true =>
          simp only [if_true] at h
          cases ho : v2.openBranch E l (E.spanner en d) with
          | error e => rw [ho] at h; exact absurd h (by simp)
          | ok x =>
            obtain ⟨v3, b⟩ := x
            rw [ho] at h
            cases b with
            | none =>
              simp only [Except.ok.injEq] at h
              subst h
              exact .noBranch v1 v2 l hc he hi ho
            | some bid =>
              dsimp only at h
              cases hin : i v3 with
              | error e => rw [hin] at h; exact absurd h (by simp)
              | ok v4 => rw [hin] at h; exact .visited v1 v2 v3 v4 l bid hc he hi ho hin h

/-- The visitor before it looks at an arm. -/
def V.guarded (v : V) (g : Option Visit) : V :=
  if g.isSome then { v with unsupported := v.unsupported + 1 } else v

/-- The ways through an arm. -/
inductive ArmWay (E : Env) (n bn : Node) (g : Option Visit) (b : Visit) (v v' : V) : Prop
  | skipped : n.entry = none → v' = v.guarded g → ArmWay E n bn g b v v'
  | noStep (a l : Loc) : n.entry = some a → bn.entry = some l →
      ((v.guarded g).push a).insert E l n.lo = .ok (v', false) → ArmWay E n bn g b v v'
  | visited (a l : Loc) (v1 v2 : V) : n.entry = some a → bn.entry = some l →
      ((v.guarded g).push a).insert E l n.lo = .ok (v1, true) → b v1 = .ok v2 → v' = v2.pop a →
      ArmWay E n bn g b v v'
  | walked (a : Loc) (v1 v2 : V) : n.entry = some a → bn.entry = none →
      g.getD .ok ((v.guarded g).push a) = .ok v1 → b v1 = .ok v2 → v' = v2.pop a → ArmWay E n bn g b v v'

theorem arm_ok {E : Env} {n bn : Node} {g : Option Visit} {b : Visit} {v v' : V}
    (h : handleArm E n bn g b v = .ok v') : ArmWay E n bn g b v v' := by
  unfold handleArm at h
  change (match n.entry with
    | none => Except.ok (v.guarded g)
    | some armEntry => _) = _ at h
  cases ha : n.entry with
  | none => rw [ha] at h; simp only [Except.ok.injEq] at h; exact .skipped ha h.symm
  | some a =>
    rw [ha] at h
    dsimp only at h
    cases he : bn.entry with
    | some l =>
      rw [he] at h
      dsimp only at h
      change (match ((v.guarded g).push a).insert E l n.lo with
        | .error e => Except.error e
        | .ok (v, false) => .ok v
        | .ok (v, true) => _) = _ at h
      cases hi : ((v.guarded g).push a).insert E l n.lo with
      | error e => rw [hi] at h; exact absurd h (by simp)
      | ok x =>
        obtain ⟨v1, ok⟩ := x
        rw [hi] at h
        cases ok with
        | false =>
          simp only [Except.ok.injEq] at h
          subst h
          exact .noStep a l ha he hi
        | true =>
          dsimp only at h
          cases hb : b v1 with
          | error e => rw [hb] at h; exact absurd h (by simp)
          | ok v2 =>
            rw [hb] at h
            simp only [Except.ok.injEq] at h
            exact .visited a l v1 v2 ha he hi hb h.symm
    | none =>
      rw [he] at h
      dsimp only at h
      change (match seq (g.getD .ok) b ((v.guarded g).push a) with
        | .error e => Except.error e
        | .ok v => _) = _ at h
      cases hs : seq (g.getD .ok) b ((v.guarded g).push a) with
      | error e => rw [hs] at h; exact absurd h (by simp)
      | ok v2 =>
        rw [hs] at h
        simp only [Except.ok.injEq] at h
        obtain ⟨v1, h1, h2⟩ := seq_ok hs
        exact .walked a v1 v2 ha he h1 h2 h.symm

/-! ## The single calls -/

theorem insert_ok {E : Env} {v v' : V} {l : Loc} {sp : Nat} {ok : Bool} (h : v.insert E l sp = .ok (v', ok)) :
    (ok = true ∧ ∃ s, v.st.insert E.secondWins E.m E.fuel l sp = .ok s ∧
      v' = { v.called (.insert l sp) with st := s }) ∨
    (ok = false ∧ v.st.insert E.secondWins E.m E.fuel l sp = .error .fail ∧
      v' = { (v.called (.insert l sp)).failed .insert with st := insertLeft E E.fuel v.st l }) := by
  unfold V.insert at h
  change (match v.st.insert E.secondWins E.m E.fuel l sp with
    | .ok s => _
    | .error .fail => _
    | .error e => _) = _ at h
  cases hi : v.st.insert E.secondWins E.m E.fuel l sp with
  | ok s =>
    rw [hi] at h
    simp only [Except.ok.injEq, Prod.mk.injEq] at h
    exact .inl ⟨h.2.symm, s, rfl, h.1.symm⟩
  | error e =>
    rw [hi] at h
    cases e with
    | fail =>
      simp only [Except.ok.injEq, Prod.mk.injEq] at h
      exact .inr ⟨h.2.symm, rfl, h.1.symm⟩
    | panic => exact absurd h (by simp)
    | diverge => exact absurd h (by simp)

theorem openBranch_ok {E : Env} {v v' : V} {l : Loc} {f : Spanner} {r : Option Nat}
    (h : v.openBranch E l f = .ok (v', r)) :
    (∃ bid s, r = some bid ∧ v.st.openBranch E.m l f = .ok (bid, s) ∧
      v' = { v.called (.openBranch l) with st := s }) ∨
    (r = none ∧ v.st.openBranch E.m l f = .error .fail ∧ v' = (v.called (.openBranch l)).failed .openBranch) := by
  unfold V.openBranch at h
  change (match v.st.openBranch E.m l f with
    | .ok (bid, s) => _
    | .error .fail => _
    | .error e => _) = _ at h
  cases hi : v.st.openBranch E.m l f with
  | ok x =>
    obtain ⟨bid, s⟩ := x
    rw [hi] at h
    simp only [Except.ok.injEq, Prod.mk.injEq] at h
    exact .inl ⟨bid, s, h.2.symm, rfl, h.1.symm⟩
  | error e =>
    rw [hi] at h
    cases e with
    | fail =>
      simp only [Except.ok.injEq, Prod.mk.injEq] at h
      exact .inr ⟨h.2.symm, rfl, h.1.symm⟩
    | panic => exact absurd h (by simp)
    | diverge => exact absurd h (by simp)

theorem vcloseBranch_ok {v v' : V} {bid : Nat} (h : v.closeBranch bid = .ok v') :
    ∃ s, v.st.closeBranch bid = .ok s ∧ v' = { v.called (.closeBranch bid) with st := s } := by
  unfold V.closeBranch at h
  change (match v.st.closeBranch bid with
    | .ok s => _
    | .error .fail => _
    | .error e => _) = _ at h
  unfold St.closeBranch at h ⊢
  cases hb : v.st.branches[bid]? with
  | none => rw [hb] at h; exact absurd h (by simp)
  | some b =>
    rw [hb] at h
    simp only [Except.ok.injEq] at h
    exact ⟨_, rfl, h.symm⟩

theorem vopenScope_ok {v v' : V} {r : Option Nat} (h : v.openScope = .ok (v', r)) :
    ∃ s, r = some v.st.nextScope ∧ v.st.openScope = .ok (v.st.nextScope, s) ∧
      v' = { v.called .openScope with st := s } := by
  unfold V.openScope at h
  change (match v.st.openScope with
    | .ok (id, s) => _
    | .error .fail => _
    | .error e => _) = _ at h
  unfold St.openScope St.currentScope at h ⊢
  cases hl : v.st.openScopes.getLast? with
  | none => rw [hl] at h; exact absurd h (by simp)
  | some c =>
    rw [hl] at h
    simp only [Except.ok.injEq, Prod.mk.injEq] at h
    exact ⟨_, h.2.symm, rfl, h.1.symm⟩

theorem vcloseScope_ok {v v' : V} {id : Nat} {ok : Bool} (h : v.closeScope id = .ok (v', ok)) :
    (ok = true ∧ ∃ s, v.st.closeScope id = .ok s ∧ v' = { v.called (.closeScope id) with st := s }) ∨
    (ok = false ∧ (id = 0 ∨ v.st.openScopes.getLast? ≠ some id) ∧
      v' = (v.called (.closeScope id)).failed .closeScope) := by
  unfold V.closeScope at h
  change (match v.st.closeScope id with
    | .ok s => _
    | .error .fail => _
    | .error e => _) = _ at h
  unfold St.closeScope at h ⊢
  split at h
  · simp only [Except.ok.injEq, Prod.mk.injEq] at h
    rename_i hs
    exact .inl ⟨h.2.symm, _, hs, h.1.symm⟩
  · simp only [Except.ok.injEq, Prod.mk.injEq] at h
    refine .inr ⟨h.2.symm, ?_, h.1.symm⟩
    rename_i hs
    split at hs
    · exact .inl (by assumption)
    · split at hs
      · rename_i hl; exact .inr (by rw [hl]; simp)
      · rename_i hl
        split at hs
        · exact absurd hs (by simp)
        · refine .inr ?_
          rw [hl]
          simpa using by assumption
  · exact absurd h (by simp)

/-! ## Scopes and statements -/

theorem inScope_ok {a : Visit} {v v' : V} (h : inScope a v = .ok v') :
    ∃ s v2 cl, v.st.openScope = .ok (v.st.nextScope, s) ∧ a { v.called .openScope with st := s } = .ok v2 ∧
      v2.closeScope v.st.nextScope = .ok (v', cl) := by
  unfold inScope at h
  cases ho : v.openScope with
  | error e => rw [ho] at h; exact absurd h (by simp)
  | ok x =>
    obtain ⟨v1, r⟩ := x
    obtain ⟨s, rfl, hs, rfl⟩ := vopenScope_ok ho
    rw [ho] at h
    dsimp only at h
    cases hin : a { v.called .openScope with st := s } with
    | error e => rw [hin] at h; exact absurd h (by simp)
    | ok v2 =>
      rw [hin] at h
      dsimp only at h
      cases hcl : v2.closeScope v.st.nextScope with
      | error e => rw [hcl] at h; exact absurd h (by simp)
      | ok y =>
        obtain ⟨v3, cl⟩ := y
        rw [hcl] at h
        simp only [Except.ok.injEq] at h
        subst h
        exact ⟨s, v2, cl, hs, hin, hcl⟩

/-- The visitor inside a statement. -/
def V.inside (v : V) (s : St) (locals : List Nat) : V :=
  if locals.isEmpty then { v.called .openScope with st := s }
  else { v.called .openScope with st := s, locals := v.locals ++ [(v.st.nextScope, locals)] }

theorem inside_st (v : V) (s : St) (l : List Nat) : (v.inside s l).st = s := by unfold V.inside; split <;> rfl
theorem inside_calls (v : V) (s : St) (l : List Nat) : (v.inside s l).calls = v.calls ++ [.openScope] := by
  unfold V.inside; split <;> rfl
theorem inside_fatal (v : V) (s : St) (l : List Nat) : (v.inside s l).fatal = v.fatal := by
  unfold V.inside; split <;> rfl
theorem inside_unsupported (v : V) (s : St) (l : List Nat) : (v.inside s l).unsupported = v.unsupported := by
  unfold V.inside; split <;> rfl

theorem inStmt_ok {E : Env} {n : Node} {locals : List Nat} {a : Visit} {v v' : V}
    (h : inStmt E n locals a v = .ok v') :
    ∃ s v2 v3 cl, v.st.openScope = .ok (v.st.nextScope, s) ∧ a (v.inside s locals) = .ok v2 ∧
      v2.closeScope v.st.nextScope = .ok (v3, cl) ∧
      (cl = false ∧ v' = v3 ∨ cl = true ∧ v3.stepAfter E n = .ok v') := by
  unfold inStmt at h
  cases ho : v.openScope with
  | error e => rw [ho] at h; exact absurd h (by simp)
  | ok x =>
    obtain ⟨v1, r⟩ := x
    obtain ⟨s, rfl, hs, rfl⟩ := vopenScope_ok ho
    rw [ho] at h
    dsimp only at h
    change (match a (v.inside s locals) with
      | .error e => Except.error e
      | .ok v => _) = _ at h
    cases hin : a (v.inside s locals) with
    | error e => rw [hin] at h; exact absurd h (by simp)
    | ok v2 =>
      rw [hin] at h
      dsimp only at h
      cases hcl : v2.closeScope v.st.nextScope with
      | error e => rw [hcl] at h; exact absurd h (by simp)
      | ok y =>
        obtain ⟨v3, cl⟩ := y
        rw [hcl] at h
        refine ⟨s, v2, v3, cl, hs, hin, hcl, ?_⟩
        cases cl with
        | false => simp only [Except.ok.injEq] at h; exact .inl ⟨rfl, h.symm⟩
        | true => exact .inr ⟨rfl, h⟩

end Verif.HirSteps
