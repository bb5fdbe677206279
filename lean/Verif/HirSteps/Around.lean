import Verif.HirSteps.Straight
import Verif.HirSteps.Early
/-!
# C97: steps inside the initialiser of a `let`
-/
namespace Verif.HirSteps

open Verif.Cfg Verif.Segments Verif.Graph

/-! ## The `let`s of a body -/

mutual
/-- Every `let` of an expression: the variables it declares, and what is due in its initialiser and its `else`. -/
def letsExpr (sw : Nat → Bool) (next : Loc → Option Loc) : Expr → List (List Nat × List Due)
  | .ite _ cnd thn els => letsExpr sw next cnd ++ letsExpr sw next thn ++ letsOpt sw next els
  | .whileLoop _ cnd thn els => letsExpr sw next cnd ++ letsExpr sw next thn ++ letsExpr sw next els
  | .forLoop _ cnd nothing item => letsExpr sw next cnd ++ letsArm sw next nothing ++ letsArm sw next item
  | .mtch _ _ cnd arms => letsExpr sw next cnd ++ letsArms sw next arms
  | .other _ parts => letsParts sw next parts
def letsOpt (sw : Nat → Bool) (next : Loc → Option Loc) : Option Expr → List (List Nat × List Due)
  | none => []
  | some e => letsExpr sw next e
def letsParts (sw : Nat → Bool) (next : Loc → Option Loc) : List Part → List (List Nat × List Due)
  | [] => []
  | p :: r => letsPart sw next p ++ letsParts sw next r
def letsPart (sw : Nat → Bool) (next : Loc → Option Loc) : Part → List (List Nat × List Due)
  | .expr e => letsExpr sw next e
  | .block b => letsBlock sw next b
  | .body e => letsExpr sw next e
def letsArms (sw : Nat → Bool) (next : Loc → Option Loc) : List Arm → List (List Nat × List Due)
  | [] => []
  | a :: r => letsArm sw next a ++ letsArms sw next r
def letsArm (sw : Nat → Bool) (next : Loc → Option Loc) : Arm → List (List Nat × List Due)
  | .mk _ _ guard body => letsOpt sw next guard ++ letsExpr sw next body
def letsStmts (sw : Nat → Bool) (next : Loc → Option Loc) : List Stmt → List (List Nat × List Due)
  | [] => []
  | s :: r => letsStmt sw next s ++ letsStmts sw next r
def letsStmt (sw : Nat → Bool) (next : Loc → Option Loc) : Stmt → List (List Nat × List Due)
  | .lt _ locals init els =>
    (locals, dueOpt sw next init ++ dueOptBlock sw next els) :: (letsOpt sw next init ++ letsOptBlock sw next els)
  | .expr _ e => letsExpr sw next e
  | .item _ bodies => letsParts sw next bodies
def letsOptBlock (sw : Nat → Bool) (next : Loc → Option Loc) : Option Block → List (List Nat × List Due)
  | none => []
  | some b => letsBlock sw next b
def letsBlock (sw : Nat → Bool) (next : Loc → Option Loc) : Block → List (List Nat × List Due)
  | .mk _ stmts e => letsStmts sw next stmts ++ letsOpt sw next e
end

/-- Nothing is due inside the `let`s that declare the variable. -/
def Plain (x : Nat) (ls : List (List Nat × List Due)) : Prop := ∀ e ∈ ls, x ∈ e.1 → e.2 = []

theorem Plain.left {x : Nat} {a b : List (List Nat × List Due)} (h : Plain x (a ++ b)) : Plain x a :=
  fun e he => h e (List.mem_append_left _ he)
theorem Plain.right {x : Nat} {a b : List (List Nat × List Due)} (h : Plain x (a ++ b)) : Plain x b :=
  fun e he => h e (List.mem_append_right _ he)

/-! ## Induction on a body whose `let`s of the variable are plain -/

structure PlainClosed (E : Env) (x : Nat) (Q : Visit → List Due → Prop) : Prop where
  ok : Q .ok []
  seq : ∀ {a b w1 w2}, Q a w1 → Q b w2 → Q (seq a b) (w1 ++ w2)
  step : ∀ n, Q (fun v => v.stepAfter E n) (dueAfter E.next n)
  under : ∀ n {a w}, Q a w → Q (visitUnder n a) (dueIf n w)
  branch : ∀ n cn {c i w1 w2} en d, Q c w1 → Q i w2 → Q (handleBranch E n cn c i en d) (w1 ++ dueFork E.next n cn w2)
  arm : ∀ n bn {g : Option Visit} {b wg wb}, (∀ x, g = some x → Q x wg) → (g = none → wg = []) → Q b wb →
    Q (handleArm E n bn g b) ((if g.isSome then [.guard] else []) ++ dueIf n ((match bn.entry with
      | some l => [.step l n.lo]
      | none => wg) ++ wb))
  scope : ∀ {a w}, Q a w → Q (inScope a) w
  stmt : ∀ n locals {a w}, (x ∈ locals → w = []) → Q a w → Q (inStmt E n locals a) (w ++ dueAfter E.next n)

mutual
theorem plain_expr {E : Env} {x : Nat} {Q : Visit → List Due → Prop} (h : PlainClosed E x Q) :
    ∀ e, Plain x (letsExpr E.m.isSwitch E.next e) → Q (visitExpr E e) (dueExpr E.m.isSwitch E.next e)
  | .ite n cnd thn els => by
    intro hp
    rw [letsExpr] at hp
    rw [visitExpr.eq_def, dueExpr]
    dsimp only
    exact h.branch _ _ _ _ (plain_expr h cnd hp.left.left)
      (h.seq (h.under _ (plain_expr h thn hp.left.right)) (plain_else h els hp.right))
  | .whileLoop n cnd thn els => by
    intro hp
    rw [letsExpr] at hp
    rw [visitExpr, dueExpr]
    exact h.branch _ _ _ _ (plain_expr h cnd hp.left.left)
      (h.seq (h.under _ (plain_expr h thn hp.left.right)) (h.under _ (plain_expr h els hp.right)))
  | .forLoop n cnd nothing item => by
    intro hp
    rw [letsExpr] at hp
    rw [visitExpr, dueExpr]
    exact h.branch _ _ _ _ (plain_expr h cnd hp.left.left)
      (h.seq (plain_arm h nothing hp.left.right) (plain_arm h item hp.right))
  | .mtch n fromFor cnd arms => by
    intro hp
    rw [letsExpr] at hp
    rw [visitExpr, dueExpr, isPlain_eq]
    split
    · exact h.seq (plain_expr h cnd hp.left) (plain_arms h arms hp.right)
    · exact h.branch _ _ _ _ (plain_expr h cnd hp.left) (plain_arms h arms hp.right)
  | .other n parts => by
    intro hp
    rw [letsExpr] at hp
    rw [visitExpr, dueExpr]
    exact plain_parts h parts hp
theorem plain_else {E : Env} {x : Nat} {Q : Visit → List Due → Prop} (h : PlainClosed E x Q) :
    ∀ e, Plain x (letsOpt E.m.isSwitch E.next e) → Q (visitElse E e) (dueElse E.m.isSwitch E.next e)
  | none => by intro _; rw [visitElse, dueElse]; exact h.ok
  | some e => by intro hp; rw [letsOpt] at hp; rw [visitElse, dueElse]; exact h.under _ (plain_expr h e hp)
theorem plain_opt {E : Env} {x : Nat} {Q : Visit → List Due → Prop} (h : PlainClosed E x Q) :
    ∀ e, Plain x (letsOpt E.m.isSwitch E.next e) → Q (visitOpt E e) (dueOpt E.m.isSwitch E.next e)
  | none => by intro _; rw [visitOpt, dueOpt]; exact h.ok
  | some e => by intro hp; rw [letsOpt] at hp; rw [visitOpt, dueOpt]; exact plain_expr h e hp
theorem plain_parts {E : Env} {x : Nat} {Q : Visit → List Due → Prop} (h : PlainClosed E x Q) :
    ∀ e, Plain x (letsParts E.m.isSwitch E.next e) → Q (visitParts E e) (dueParts E.m.isSwitch E.next e)
  | [] => by intro _; rw [visitParts, dueParts]; exact h.ok
  | p :: r => by
    intro hp; rw [letsParts] at hp; rw [visitParts, dueParts]
    exact h.seq (plain_part h p hp.left) (plain_parts h r hp.right)
theorem plain_part {E : Env} {x : Nat} {Q : Visit → List Due → Prop} (h : PlainClosed E x Q) :
    ∀ e, Plain x (letsPart E.m.isSwitch E.next e) → Q (visitPart E e) (duePart E.m.isSwitch E.next e)
  | .expr e => by intro hp; rw [letsPart] at hp; rw [visitPart, duePart]; exact plain_expr h e hp
  | .block b => by intro hp; rw [letsPart] at hp; rw [visitPart, duePart]; exact plain_block h b hp
  | .body e => by intro hp; rw [letsPart] at hp; rw [visitPart, duePart]; exact h.seq (plain_expr h e hp) (h.step _)
theorem plain_arms {E : Env} {x : Nat} {Q : Visit → List Due → Prop} (h : PlainClosed E x Q) :
    ∀ e, Plain x (letsArms E.m.isSwitch E.next e) → Q (visitArms E e) (dueArms E.m.isSwitch E.next e)
  | [] => by intro _; rw [visitArms, dueArms]; exact h.ok
  | p :: r => by
    intro hp; rw [letsArms] at hp; rw [visitArms, dueArms]
    exact h.seq (plain_arm h p hp.left) (plain_arms h r hp.right)
theorem plain_arm {E : Env} {x : Nat} {Q : Visit → List Due → Prop} (h : PlainClosed E x Q) :
    ∀ e, Plain x (letsArm E.m.isSwitch E.next e) → Q (visitArm E e) (dueArm E.m.isSwitch E.next e)
  | .mk n pat none body => by
    intro hp
    rw [letsArm] at hp
    rw [visitArm, dueArm]
    exact h.arm n body.node (g := none) (by simp) (fun _ => rfl) (plain_expr h body hp.right)
  | .mk n pat (some g) body => by
    intro hp
    rw [letsArm, letsOpt] at hp
    rw [visitArm, dueArm]
    exact h.arm n body.node (g := some (visitExpr E g)) (by simpa using plain_expr h g hp.left) (by simp)
      (plain_expr h body hp.right)
theorem plain_stmts {E : Env} {x : Nat} {Q : Visit → List Due → Prop} (h : PlainClosed E x Q) :
    ∀ e, Plain x (letsStmts E.m.isSwitch E.next e) → Q (visitStmts E e) (dueStmts E.m.isSwitch E.next e)
  | [] => by intro _; rw [visitStmts, dueStmts]; exact h.ok
  | p :: r => by
    intro hp; rw [letsStmts] at hp; rw [visitStmts, dueStmts]
    exact h.seq (plain_stmt h p hp.left) (plain_stmts h r hp.right)
theorem plain_stmt {E : Env} {x : Nat} {Q : Visit → List Due → Prop} (h : PlainClosed E x Q) :
    ∀ e, Plain x (letsStmt E.m.isSwitch E.next e) → Q (visitStmt E e) (dueStmt E.m.isSwitch E.next e)
  | .lt n locals init els => by
    intro hp
    rw [letsStmt] at hp
    have hr : Plain x (letsOpt E.m.isSwitch E.next init ++ letsOptBlock E.m.isSwitch E.next els) :=
      fun e he => hp e (List.mem_cons_of_mem _ he)
    rw [visitStmt, dueStmt]
    exact h.stmt _ _ (hp _ List.mem_cons_self) (h.seq (plain_opt h init hr.left) (plain_optBlock h els hr.right))
  | .expr n e => by
    intro hp; rw [letsStmt] at hp; rw [visitStmt, dueStmt]; exact h.stmt _ _ (by simp) (plain_expr h e hp)
  | .item n bodies => by
    intro hp; rw [letsStmt] at hp; rw [visitStmt, dueStmt]; exact h.stmt _ _ (by simp) (plain_parts h bodies hp)
theorem plain_optBlock {E : Env} {x : Nat} {Q : Visit → List Due → Prop} (h : PlainClosed E x Q) :
    ∀ e, Plain x (letsOptBlock E.m.isSwitch E.next e) → Q (visitOptBlock E e) (dueOptBlock E.m.isSwitch E.next e)
  | none => by intro _; rw [visitOptBlock, dueOptBlock]; exact h.ok
  | some b => by intro hp; rw [letsOptBlock] at hp; rw [visitOptBlock, dueOptBlock]; exact plain_block h b hp
theorem plain_block {E : Env} {x : Nat} {Q : Visit → List Due → Prop} (h : PlainClosed E x Q) :
    ∀ e, Plain x (letsBlock E.m.isSwitch E.next e) → Q (visitBlock E e) (dueBlock E.m.isSwitch E.next e)
  | .mk n stmts none => by
    intro hp; rw [letsBlock] at hp; rw [visitBlock, dueBlock]; exact h.scope (plain_stmts h stmts hp.left)
  | .mk n stmts (some e) => by
    intro hp
    rw [letsBlock, letsOpt] at hp
    rw [visitBlock, dueBlock]
    exact h.scope (h.seq (plain_stmts h stmts hp.left) (h.seq (plain_expr h e hp.right) (h.step _)))
end

/-! ## New steps are in the current scope -/

/-- The scopes are untouched, and every new step is in the current one. -/
structure SegsHere (s s' : St) : Prop where
  scopes : s'.openScopes = s.openScopes
  next : s'.nextScope = s.nextScope
  graph : s'.scopeGraph = s.scopeGraph
  segs : ∀ g ∈ s'.segs, g ∈ s.segs ∨ s.currentScope = .ok g.scope

theorem SegsHere.refl (s : St) : SegsHere s s := ⟨rfl, rfl, rfl, fun _ h => .inl h⟩

theorem SegsHere.trans {a b c : St} (h1 : SegsHere a b) (h2 : SegsHere b c) : SegsHere a c := by
  refine ⟨h2.scopes.trans h1.scopes, h2.next.trans h1.next, h2.graph.trans h1.graph, fun g hg => ?_⟩
  rcases h2.segs g hg with h | h
  · exact h1.segs g h
  · right
    unfold St.currentScope at h ⊢
    rw [h1.scopes] at h
    exact h

theorem mkBranch_here {m : Mapper} {s s' : St} {l : Loc} {get : GetSpanner} {bid : Nat}
    (h : s.mkBranch m l get = .ok (bid, s')) : SegsHere s s' := by
  obtain ⟨scope, sw, b, i, f, sp, hsc, _, _, _, _, _, _, rfl⟩ := mkBranch_ok h
  refine ⟨rfl, rfl, rfl, fun g hg => ?_⟩
  unfold St.addBranch at hg
  dsimp only at hg
  rcases List.mem_append.1 hg with hg | hg
  · exact .inl hg
  · obtain ⟨t, _, rfl⟩ := List.mem_map.1 hg
    exact .inr hsc

theorem openChild_here {tie : Bool} {m : Mapper} {s s' : St} {p : Nat} {loc : Loc}
    (h : s.openChild tie m p loc = .ok s') : SegsHere s s' := by
  obtain ⟨child, s2, bp, bc, h1, _, _, rfl⟩ := openChild_ok h
  have := mkBranch_here h1
  exact ⟨this.scopes, this.next, this.graph, this.segs⟩

theorem insert_here {tie : Bool} {m : Mapper} (fuel : Nat) {s s' : St} {l : Loc} {sp : Nat}
    (h : s.insert tie m fuel l sp = .ok s') : SegsHere s s' := by
  induction fuel generalizing s with
  | zero => exact absurd h (by simp [St.insert])
  | succ fuel ih =>
    rw [St.insert] at h
    cases hf : s.findSuitable m l with
    | none =>
      rw [hf] at h
      simp only [Except.ok.injEq] at h
      subst h
      exact .refl _
    | nonLinear p loc =>
      rw [hf] at h
      dsimp only at h
      cases hc : s.openChild tie m p loc with
      | error e => rw [hc] at h; exact absurd h (by simp)
      | ok s1 =>
        rw [hc] at h
        exact (openChild_here hc).trans (ih h)
    | linear b i =>
      rw [hf] at h
      dsimp only at h
      cases hs : s.currentScope with
      | error e => rw [hs] at h; exact absurd h (by simp)
      | ok scope =>
        rw [hs] at h
        simp only [Except.ok.injEq] at h
        subst h
        refine ⟨rfl, rfl, rfl, fun g hg => ?_⟩
        change g ∈ s.segs ++ [⟨b.cur, _, sp, scope⟩] at hg
        rcases List.mem_append.1 hg with hg | hg
        · exact .inl hg
        · rw [List.mem_singleton] at hg
          subst hg
          exact .inr hs

theorem insertLeft_here (E : Env) (fuel : Nat) (s : St) (l : Loc) : SegsHere s (insertLeft E fuel s l) := by
  induction fuel generalizing s with
  | zero => exact .refl _
  | succ fuel ih =>
    rw [insertLeft]
    split
    · split
      · exact .refl _
      · rename_i s' hc
        exact (openChild_here hc).trans (ih s')
    · exact .refl _

/-- The visitor moves on without touching the scopes or the declared variables. -/
structure Here (v v' : V) : Prop where
  st : SegsHere v.st v'.st
  locals : v'.locals = v.locals

theorem Here.refl (v : V) : Here v v := ⟨.refl _, rfl⟩
theorem Here.trans {a b c : V} (h1 : Here a b) (h2 : Here b c) : Here a c :=
  ⟨h1.st.trans h2.st, h2.locals.trans h1.locals⟩
theorem Here.of_eq {v v' : V} (h1 : v'.st = v.st) (h2 : v'.locals = v.locals) : Here v v' :=
  ⟨by rw [h1]; exact .refl _, h2⟩

theorem here_insert {E : Env} {v v' : V} {l : Loc} {sp : Nat} {ok : Bool} (h : v.insert E l sp = .ok (v', ok)) :
    Here v v' := by
  rcases insert_ok h with ⟨_, s, hs, rfl⟩ | ⟨_, _, rfl⟩
  · exact ⟨insert_here _ hs, rfl⟩
  · exact ⟨insertLeft_here E E.fuel v.st l, rfl⟩

theorem here_openBranch {E : Env} {v v' : V} {l : Loc} {f : Spanner} {r : Option Nat}
    (h : v.openBranch E l f = .ok (v', r)) : Here v v' := by
  rcases openBranch_ok h with ⟨bid, s, _, hs, rfl⟩ | ⟨_, _, rfl⟩
  · exact ⟨mkBranch_here hs, rfl⟩
  · exact .of_eq rfl rfl

theorem here_closeBranch {v v' : V} {bid : Nat} (h : v.closeBranch bid = .ok v') : Here v v' := by
  obtain ⟨s, hs, rfl⟩ := vcloseBranch_ok h
  obtain ⟨b, _, rfl⟩ := closeBranch_eq hs
  exact ⟨⟨rfl, rfl, rfl, fun _ h => .inl h⟩, rfl⟩

theorem here_pop (v : V) (l : Loc) : Here v (v.pop l) := by
  unfold V.pop
  split
  · exact .refl _
  · split <;> exact .of_eq rfl rfl

theorem here_push (v : V) (l : Loc) : Here v (v.push l) := .of_eq rfl rfl

theorem here_guarded (v : V) (g : Option Visit) : Here v (v.guarded g) := by
  unfold V.guarded
  split <;> exact .of_eq rfl rfl

theorem here_step {E : Env} {n : Node} {v v' : V} (h : v.stepAfter E n = .ok v') : Here v v' := by
  rcases stepAfter_ok h with ⟨_, rfl⟩ | ⟨l, ok, _, hi⟩
  · exact .refl _
  · exact here_insert hi

/-! ## Scopes only grow -/

/-- New scopes and new declarations are above the counter; the open scopes are the same. -/
structure Grown (v v' : V) : Prop where
  scopes : v'.st.openScopes = v.st.openScopes
  next : v.st.nextScope ≤ v'.st.nextScope
  graph : ∃ es, v'.st.scopeGraph = v.st.scopeGraph ++ es ∧ ∀ e ∈ es, v.st.nextScope ≤ e.1
  locals : ∃ ls, v'.locals = v.locals ++ ls ∧ ∀ e ∈ ls, v.st.nextScope ≤ e.1
  keys : (∀ e ∈ v.locals, e.1 < v.st.nextScope) → ∀ e ∈ v'.locals, e.1 < v'.st.nextScope
  inv : ScopeInv v.st → ScopeInv v'.st

theorem Here.grown {v v' : V} (h : Here v v') : Grown v v' :=
  ⟨h.st.scopes, Nat.le_of_eq h.st.next.symm, ⟨[], by rw [h.st.graph]; simp, by simp⟩, ⟨[], by rw [h.locals]; simp, by simp⟩,
    by rw [h.locals, h.st.next]; exact id, fun hi => scopeInv_of_eq hi h.st.scopes h.st.graph h.st.next⟩

theorem Grown.trans {a b c : V} (h1 : Grown a b) (h2 : Grown b c) : Grown a c := by
  obtain ⟨e1, g1, g1'⟩ := h1.graph
  obtain ⟨e2, g2, g2'⟩ := h2.graph
  obtain ⟨l1, m1, m1'⟩ := h1.locals
  obtain ⟨l2, m2, m2'⟩ := h2.locals
  refine ⟨h2.scopes.trans h1.scopes, Nat.le_trans h1.next h2.next, ⟨e1 ++ e2, by rw [g2, g1, List.append_assoc], ?_⟩,
    ⟨l1 ++ l2, by rw [m2, m1, List.append_assoc], ?_⟩, fun h => h2.keys (h1.keys h), fun h => h2.inv (h1.inv h)⟩
  · intro e he
    rcases List.mem_append.1 he with he | he
    · exact g1' e he
    · exact Nat.le_trans h1.next (g2' e he)
  · intro e he
    rcases List.mem_append.1 he with he | he
    · exact m1' e he
    · exact Nat.le_trans h1.next (m2' e he)

/-- The visitor inside a new scope in which variables are declared (none for a block). -/
theorem inside_locals (v : V) (s : St) (l : List Nat) :
    (v.inside s l).locals = v.locals ∧ l = [] ∨ (v.inside s l).locals = v.locals ++ [(v.st.nextScope, l)] := by
  unfold V.inside
  cases l with
  | nil => exact .inl ⟨rfl, rfl⟩
  | cons a r => exact .inr rfl

theorem openScope_inv {s s' : St} (h : s.openScope = .ok (s.nextScope, s')) (hi : ScopeInv s) : ScopeInv s' := by
  obtain ⟨cur, hcur, _, rfl⟩ := openScope_eq h
  have hmem : cur ∈ s.openScopes := List.mem_of_getLast? hcur
  constructor
  · show (s.openScopes ++ [s.nextScope]).head? = some 0
    cases ho : s.openScopes with
    | nil => rw [ho] at hmem; simp at hmem
    | cons a r => have := hi.head; rw [ho] at this; simpa using this
  · show (s.openScopes ++ [s.nextScope]).Pairwise (· < ·)
    rw [List.pairwise_append]
    refine ⟨hi.sorted, by simp, ?_⟩
    intro a ha b hb
    simp only [List.mem_singleton] at hb
    subst hb
    exact hi.lt a ha
  · intro x hx
    show x < s.nextScope + 1
    rcases List.mem_append.1 hx with hx | hx
    · have := hi.lt x hx; omega
    · simp only [List.mem_singleton] at hx; omega
  · intro a p hap
    show p < a ∧ a < s.nextScope + 1
    rcases List.mem_append.1 hap with hap | hap
    · have := hi.edges a p hap; omega
    · simp only [List.mem_singleton, Prod.mk.injEq] at hap
      have := hi.lt cur hmem
      omega
  · intro a p q hp hq
    rcases List.mem_append.1 hp with hp | hp <;> rcases List.mem_append.1 hq with hq | hq
    · exact hi.uniq a p q hp hq
    · simp only [List.mem_singleton, Prod.mk.injEq] at hq
      have := hi.edges a p hp; omega
    · simp only [List.mem_singleton, Prod.mk.injEq] at hp
      have := hi.edges a q hq; omega
    · simp only [List.mem_singleton, Prod.mk.injEq] at hp hq
      omega
  · intro a h0 ha
    change a < s.nextScope + 1 at ha
    by_cases hx : a = s.nextScope
    · exact ⟨cur, by subst hx; simp⟩
    · obtain ⟨p, hp⟩ := hi.total a h0 (by omega)
      exact ⟨p, List.mem_append.2 (.inl hp)⟩
  · intro i a b h1 h2
    change (s.openScopes ++ [s.nextScope])[i]? = some a at h1
    change (s.openScopes ++ [s.nextScope])[i + 1]? = some b at h2
    by_cases hi' : i + 1 < s.openScopes.length
    · rw [List.getElem?_append_left (by omega)] at h1 h2
      exact List.mem_append.2 (.inl (hi.chain i a b h1 h2))
    · rw [List.getElem?_append_right (by omega)] at h2
      have hi2 : i + 1 - s.openScopes.length = 0 := by
        have := (List.getElem?_eq_some_iff.1 h2).1
        simp at this; omega
      rw [hi2] at h2
      simp only [List.getElem?_cons_zero, Option.some.injEq] at h2
      rw [List.getElem?_append_left (by omega)] at h1
      rw [List.getLast?_eq_getElem?, show s.openScopes.length - 1 = i by omega, h1] at hcur
      simp only [Option.some.injEq] at hcur
      subst hcur h2
      exact List.mem_append.2 (.inr (by simp))

/-- A scope that is opened, visited and closed again. -/
theorem grown_scope {v v1 v2 v' : V} {s : St} {cl : Bool} {ls : List Nat} (hi : ScopeInv v.st)
    (h1 : v.st.openScope = .ok (v.st.nextScope, s)) (hst : v1.st = s)
    (hl : v1.locals = v.locals ∧ ls = [] ∨ v1.locals = v.locals ++ [(v.st.nextScope, ls)])
    (h3 : Grown v1 v2) (h4 : v2.closeScope v.st.nextScope = .ok (v', cl)) :
    cl = true ∧ Grown v v' ∧ v'.st.segs = v2.st.segs ∧ v'.st.scopeGraph = v2.st.scopeGraph ∧ v'.locals = v2.locals ∧
      v'.st.nextScope = v2.st.nextScope := by
  have hi1 : ScopeInv v1.st := by rw [hst]; exact openScope_inv h1 hi
  have hi2 := h3.inv hi1
  obtain ⟨cur, hcur, _, hs⟩ := openScope_eq h1
  have hop : v2.st.openScopes = v.st.openScopes ++ [v.st.nextScope] := by rw [h3.scopes, hst, hs]
  have hnx : v1.st.nextScope = v.st.nextScope + 1 := by rw [hst, hs]
  have hgr : v1.st.scopeGraph = v.st.scopeGraph ++ [(v.st.nextScope, cur)] := by rw [hst, hs]
  have hpos : 0 < v.st.nextScope := hi.lt 0 (List.mem_of_head? hi.head)
  rcases vcloseScope_ok h4 with ⟨hcl, s', hs', rfl⟩ | ⟨_, h | h, _⟩
  · obtain ⟨_, _, rfl⟩ := closeScope_eq hs'
    have hos : v2.st.openScopes.dropLast = v.st.openScopes := by rw [hop, List.dropLast_concat]
    obtain ⟨es, g1, g2⟩ := h3.graph
    obtain ⟨ms, l1, l2⟩ := h3.locals
    have hle := h3.next
    rw [hgr] at g1
    refine ⟨hcl, ⟨hos, by change _ ≤ v2.st.nextScope; omega, ⟨(v.st.nextScope, cur) :: es, ?_, ?_⟩, ?_, ?_, ?_⟩,
      rfl, rfl, rfl, rfl⟩
    · change v2.st.scopeGraph = _
      rw [g1, List.append_assoc]
      rfl
    · intro e he
      rcases List.mem_cons.1 he with rfl | he
      · exact Nat.le_refl _
      · have := g2 e he; omega
    · rcases hl with ⟨hl, _⟩ | hl
      · exact ⟨ms, by change v2.locals = _; rw [l1, hl], fun e he => by have := l2 e he; omega⟩
      · refine ⟨(v.st.nextScope, ls) :: ms, by change v2.locals = _; rw [l1, hl, List.append_assoc]; rfl, ?_⟩
        intro e he
        rcases List.mem_cons.1 he with rfl | he
        · exact Nat.le_refl _
        · have := l2 e he; omega
    · intro hk
      refine h3.keys ?_
      intro e he
      rcases hl with ⟨hl, _⟩ | hl
      · rw [hl] at he
        have := hk e he
        omega
      · rw [hl] at he
        rcases List.mem_append.1 he with he | he
        · have := hk e he; omega
        · rw [List.mem_singleton] at he
          subst he
          dsimp only
          omega
    · intro _
      refine ⟨?_, ?_, ?_, hi2.edges, hi2.uniq, hi2.total, ?_⟩
      · change v2.st.openScopes.dropLast.head? = _
        rw [hos]; exact hi.head
      · change v2.st.openScopes.dropLast.Pairwise _
        rw [hos]; exact hi.sorted
      · intro x hx
        change x ∈ v2.st.openScopes.dropLast at hx
        rw [hos] at hx
        change x < v2.st.nextScope
        have := hi.lt x hx
        omega
      · intro i a b ha hb
        change v2.st.openScopes.dropLast[i]? = _ at ha
        change v2.st.openScopes.dropLast[i + 1]? = _ at hb
        rw [hos] at ha hb
        change _ ∈ v2.st.scopeGraph
        rw [g1]
        exact List.mem_append_left _ (List.mem_append_left _ (hi.chain i a b ha hb))
  · omega
  · exact absurd (by rw [hop, List.getLast?_concat]) h

theorem grown_closed (E : Env) : Closed E (fun a => ∀ v v', ScopeInv v.st → a v = .ok v' → Grown v v') where
  ok := by
    intro v v' _ h
    simp only [Except.ok.injEq] at h
    subst h
    exact (Here.refl _).grown
  seq := by
    intro a b ha hb v v' hi h
    obtain ⟨v1, h1, h2⟩ := seq_ok h
    have g1 := ha v v1 hi h1
    exact g1.trans (hb v1 v' (g1.inv hi) h2)
  step := by
    intro n v v' _ h
    exact (here_step h).grown
  under := by
    intro n a ha v v' hi h
    rcases under_ok h with ⟨_, rfl⟩ | ⟨l, v1, _, h1, rfl⟩
    · exact (Here.refl _).grown
    · exact (here_push v l).grown.trans ((ha (v.push l) _ hi h1).trans (here_pop _ _).grown)
  branch := by
    intro n cn c i en d hc hin v v' hi h
    cases branch_ok h with
    | skipped v1 h1 _ _ h2 => subst h2; exact hc v v' hi h1
    | noStep v1 l h1 _ h2 => exact (hc v v1 hi h1).trans (here_insert h2).grown
    | noBranch v1 v2 l h1 _ h2 h3 =>
      exact (hc v v1 hi h1).trans ((here_insert h2).grown.trans (here_openBranch h3).grown)
    | visited v1 v2 v3 v4 l bid h1 _ h2 h3 h4 h5 =>
      have g3 := (hc v v1 hi h1).trans ((here_insert h2).grown.trans (here_openBranch h3).grown)
      exact g3.trans ((hin _ _ (g3.inv hi) h4).trans (here_closeBranch h5).grown)
  arm := by
    intro n bn g b hg hb v v' hi h
    have hgd := (here_guarded v g).grown
    have hpush : ∀ a, Grown v ((v.guarded g).push a) := fun a => hgd.trans (here_push _ a).grown
    cases arm_ok h with
    | skipped _ h => subst h; exact hgd
    | noStep a l _ _ h => exact (hpush a).trans (here_insert h).grown
    | visited a l v1 v2 _ _ h1 h2 h3 =>
      subst h3
      have g1 := (hpush a).trans (here_insert h1).grown
      exact g1.trans ((hb _ _ (g1.inv hi) h2).trans (here_pop _ _).grown)
    | walked a v1 v2 _ _ h1 h2 h3 =>
      subst h3
      have g1 : Grown v v1 := by
        cases g with
        | none =>
          simp only [Option.getD_none, Except.ok.injEq] at h1
          subst h1
          exact hpush a
        | some x => exact (hpush a).trans (hg x rfl _ _ ((hpush a).inv hi) h1)
      exact g1.trans ((hb _ _ (g1.inv hi) h2).trans (here_pop _ _).grown)
  scope := by
    intro a ha v v' hi h
    obtain ⟨s, v2, cl, h1, h2, h3⟩ := inScope_ok h
    have hi1 : ScopeInv ({ v.called .openScope with st := s } : V).st := openScope_inv h1 hi
    exact (grown_scope (v1 := { v.called .openScope with st := s }) (ls := []) hi h1 rfl (.inl ⟨rfl, rfl⟩) (ha _ _ hi1 h2) h3).2.1
  stmt := by
    intro n locals a ha v v' hi h
    obtain ⟨s, v2, v3, cl, h1, h2, h3, h4⟩ := inStmt_ok h
    have g := (grown_scope hi h1 (inside_st _ _ _) (inside_locals _ _ _)
      (ha _ _ (by rw [inside_st]; exact openScope_inv h1 hi) h2) h3).2.1
    rcases h4 with ⟨_, rfl⟩ | ⟨_, h4⟩
    · exact g
    · exact g.trans (here_step h4).grown

/-! ## Nothing due, no new steps -/

theorem quiet_closed (E : Env) : DueClosed E (fun a w => w = [] → ∀ v v', a v = .ok v' → v'.st.segs = v.st.segs) where
  ok := by
    intro _ v v' h
    simp only [Except.ok.injEq] at h
    subst h
    rfl
  seq := by
    intro a b w1 w2 ha hb hw v v' h
    rw [List.append_eq_nil_iff] at hw
    obtain ⟨v1, h1, h2⟩ := seq_ok h
    exact (hb hw.2 v1 v' h2).trans (ha hw.1 v v1 h1)
  step := by
    intro n hw v v' h
    rcases stepAfter_ok h with ⟨_, rfl⟩ | ⟨l, ok, he, hi⟩
    · rfl
    · unfold dueAfter at hw
      rw [show after E.next n = some l from he] at hw
      exact absurd hw (by simp)
  under := by
    intro n a w ha hw v v' h
    rcases under_ok h with ⟨_, rfl⟩ | ⟨l, v1, he, h1, rfl⟩
    · rfl
    · unfold dueIf at hw
      rw [he, if_neg (by simp)] at hw
      have h2 := ha hw _ _ h1
      have h3 : (v1.pop l).st = v1.st := by
        unfold V.pop
        split
        · rfl
        · split <;> rfl
      rw [h3, h2]
      rfl
  branch := by
    intro n cn c i w1 w2 en d hc _ hw v v' h
    rw [List.append_eq_nil_iff] at hw
    have hne : ∀ l, (E.exitOf cn).or n.entry = some l → False := by
      intro l hl
      rw [dueFork_some hl] at hw
      exact absurd hw.2 (by simp)
    cases branch_ok h with
    | skipped v1 h1 _ _ h2 => subst h2; exact hc hw.1 v v' h1
    | noStep v1 l _ hl _ => exact (hne l hl).elim
    | noBranch v1 v2 l _ hl _ _ => exact (hne l hl).elim
    | visited v1 v2 v3 v4 l bid _ hl _ _ _ _ => exact (hne l hl).elim
  arm := by
    intro n bn g b wg wb hg hwg hb hw v v' h
    rw [List.append_eq_nil_iff] at hw
    have hgd : (v.guarded g).st = v.st := by unfold V.guarded; split <;> rfl
    have hpop : ∀ (u : V) (l : Loc), (u.pop l).st = u.st := by
      intro u l
      unfold V.pop
      split
      · rfl
      · split <;> rfl
    cases arm_ok h with
    | skipped _ h => subst h; rw [hgd]
    | noStep a l he hbe _ =>
      obtain ⟨_, hw⟩ := hw
      unfold dueIf at hw
      rw [he, if_neg (by simp), hbe] at hw
      exact absurd hw (by simp)
    | visited a l v1 v2 he hbe _ _ _ =>
      obtain ⟨_, hw⟩ := hw
      unfold dueIf at hw
      rw [he, if_neg (by simp), hbe] at hw
      exact absurd hw (by simp)
    | walked a v1 v2 he hbe h1 h2 h3 =>
      obtain ⟨_, hw⟩ := hw
      unfold dueIf at hw
      rw [he, if_neg (by simp), hbe] at hw
      dsimp only at hw
      rw [List.append_eq_nil_iff] at hw
      subst h3
      rw [hpop, hb hw.2 _ _ h2]
      cases g with
      | none =>
        simp only [Option.getD_none, Except.ok.injEq] at h1
        subst h1
        exact congrArg St.segs hgd
      | some x =>
        rw [hg x rfl hw.1 _ _ h1]
        exact congrArg St.segs hgd
  scope := by
    intro a w ha hw v v' h
    obtain ⟨s, v2, cl, h1, h2, h3⟩ := inScope_ok h
    obtain ⟨cur, _, _, hs⟩ := openScope_eq h1
    have h4 := ha hw _ _ h2
    have h5 : v'.st.segs = v2.st.segs := by
      rcases vcloseScope_ok h3 with ⟨_, s', hs', rfl⟩ | ⟨_, _, rfl⟩
      · obtain ⟨_, _, rfl⟩ := closeScope_eq hs'
        rfl
      · rfl
    rw [h5, h4, hs]
  stmt := by
    intro n locals a w ha hw v v' h
    rw [List.append_eq_nil_iff] at hw
    obtain ⟨s, v2, v3, cl, h1, h2, h3, h4⟩ := inStmt_ok h
    obtain ⟨cur, _, _, hs⟩ := openScope_eq h1
    have h5 := ha hw.1 _ _ h2
    rw [inside_st] at h5
    have h6 : v3.st.segs = v2.st.segs := by
      rcases vcloseScope_ok h3 with ⟨_, s', hs', rfl⟩ | ⟨_, _, rfl⟩
      · obtain ⟨_, _, rfl⟩ := closeScope_eq hs'
        rfl
      · rfl
    have h7 : v'.st.segs = v3.st.segs := by
      rcases h4 with ⟨_, rfl⟩ | ⟨_, h4⟩
      · rfl
      · rcases stepAfter_ok h4 with ⟨_, rfl⟩ | ⟨l, ok, he, hi⟩
        · rfl
        · obtain ⟨_, hw⟩ := hw
          unfold dueAfter at hw
          rw [show after E.next n = some l from he] at hw
          exact absurd hw (by simp)
    rw [h7, h6, h5, hs]

/-! ## No step is inside the `let` -/

/-- The variable is declared in the scope. -/
def Declares (ls : List (Nat × List Nat)) (scope x : Nat) : Prop := ∃ e ∈ ls, e.1 = scope ∧ x ∈ e.2

/-- The scope itself or one above it. -/
def Upto (edges : List (Nat × Nat)) (a sc : Nat) : Prop := sc = a ∨ Above edges a sc

/-- No step is in a scope that declares the variable, or below one. -/
structure Clear (x : Nat) (v : V) : Prop where
  inv : ScopeInv v.st
  keys : ∀ e ∈ v.locals, e.1 < v.st.nextScope
  segs : ∀ g ∈ v.st.segs, g.scope < v.st.nextScope ∧ ∀ sc, Upto v.st.scopeGraph g.scope sc → ¬ Declares v.locals sc x
  opened : ∀ o ∈ v.st.openScopes, ¬ Declares v.locals o x

theorem above_grown {edges es : List (Nat × Nat)} {n a x : Nat} (h1 : ∀ e ∈ es, n ≤ e.1)
    (h2 : ∀ p q, (p, q) ∈ edges → q < p) (ha : a < n) (h : Upto (edges ++ es) a x) : Upto edges a x ∧ x < n := by
  rcases h with rfl | h
  · exact ⟨.inl rfl, ha⟩
  suffices Above edges a x ∧ x < n from ⟨.inr this.1, this.2⟩
  induction h with
  | parent hp =>
    rcases List.mem_append.1 hp with hp | hp
    · exact ⟨.parent hp, by have := h2 _ _ hp; omega⟩
    · have := h1 _ hp; dsimp only at this; omega
  | up _ hp ih =>
    rcases List.mem_append.1 hp with hp | hp
    · exact ⟨.up ih.1 hp, by have := h2 _ _ hp; omega⟩
    · have := h1 _ hp; dsimp only at this; omega

theorem Grown.declares {v v' : V} (h : Grown v v') {sc x : Nat} (hlt : sc < v.st.nextScope)
    (hd : Declares v'.locals sc x) : Declares v.locals sc x := by
  obtain ⟨ls, h1, h2⟩ := h.locals
  obtain ⟨e, he, h3, h4⟩ := hd
  rw [h1] at he
  rcases List.mem_append.1 he with he | he
  · exact ⟨e, he, h3, h4⟩
  · have := h2 e he; omega

theorem Grown.seg {v v' : V} (h : Grown v v') {x : Nat} (hc : Clear x v) {g : Seg} (hg : g ∈ v.st.segs) :
    g.scope < v'.st.nextScope ∧ ∀ sc, Upto v'.st.scopeGraph g.scope sc → ¬ Declares v'.locals sc x := by
  obtain ⟨h1, h2⟩ := hc.segs g hg
  refine ⟨Nat.lt_of_lt_of_le h1 h.next, fun sc ha hd => ?_⟩
  obtain ⟨es, h3, h4⟩ := h.graph
  rw [h3] at ha
  obtain ⟨h5, h6⟩ := above_grown h4 (fun p q hpq => (hc.inv.edges p q hpq).1) h1 ha
  exact h2 sc h5 (h.declares h6 hd)

theorem Grown.opened {v v' : V} (h : Grown v v') {x : Nat} (hc : Clear x v) :
    ∀ o ∈ v'.st.openScopes, ¬ Declares v'.locals o x := by
  intro o ho hd
  rw [h.scopes] at ho
  exact hc.opened o ho (h.declares (hc.inv.lt o ho) hd)

/-- The current scope and those above it are open. -/
theorem above_current {s : St} (hi : ScopeInv s) {c sc : Nat} (hc : s.currentScope = .ok c)
    (ha : Upto s.scopeGraph c sc) : sc ∈ s.openScopes := by
  have hl : s.openScopes.getLast? = some c := by
    unfold St.currentScope at hc
    cases h : s.openScopes.getLast? with
    | none => rw [h] at hc; exact absurd hc (by simp)
    | some d => rw [h] at hc; simp only [Except.ok.injEq] at hc; rw [hc]
  have key : ∀ a p, a ∈ s.openScopes → (a, p) ∈ s.scopeGraph → p ∈ s.openScopes := by
    intro a p hm hp
    obtain ⟨i, hi'⟩ := List.getElem?_of_mem hm
    cases i with
    | zero =>
      have h0 := hi.head
      rw [List.head?_eq_getElem?, hi'] at h0
      simp only [Option.some.injEq] at h0
      subst h0
      have := (hi.edges _ _ hp).1
      omega
    | succ i =>
      have hlt : i < s.openScopes.length := by
        have := (List.getElem?_eq_some_iff.1 hi').1; omega
      have h1 := hi.chain i _ _ (List.getElem?_eq_getElem hlt) hi'
      rw [hi.uniq _ _ _ hp h1]
      exact List.getElem_mem hlt
  rcases ha with rfl | ha
  · exact List.mem_of_getLast? hl
  induction ha with
  | parent hp => exact key _ _ (List.mem_of_getLast? hl) hp
  | up _ hp ih => exact key _ _ ih hp

theorem Here.clear {v v' : V} (h : Here v v') {x : Nat} (hc : Clear x v) : Clear x v' := by
  refine ⟨h.grown.inv hc.inv, h.grown.keys hc.keys, fun g hg => ?_, h.grown.opened hc⟩
  rcases h.st.segs g hg with h1 | h1
  · exact h.grown.seg hc h1
  · rw [h.st.next, h.st.graph, h.locals]
    refine ⟨?_, fun sc ha => hc.opened sc (above_current hc.inv h1 ha)⟩
    apply hc.inv.lt
    unfold St.currentScope at h1
    cases hl : v.st.openScopes.getLast? with
    | none => rw [hl] at h1; exact absurd h1 (by simp)
    | some d =>
      rw [hl] at h1
      simp only [Except.ok.injEq] at h1
      rw [← h1]
      exact List.mem_of_getLast? hl

/-- A scope in which the variable is not declared. -/
theorem clear_open {v v1 : V} {s : St} {ls : List Nat} {x : Nat} (hc : Clear x v)
    (h1 : v.st.openScope = .ok (v.st.nextScope, s)) (hst : v1.st = s)
    (hl : v1.locals = v.locals ∧ ls = [] ∨ v1.locals = v.locals ++ [(v.st.nextScope, ls)]) (hx : x ∉ ls) :
    Clear x v1 := by
  have hi1 : ScopeInv v1.st := by rw [hst]; exact openScope_inv h1 hc.inv
  obtain ⟨cur, hcur, _, hs⟩ := openScope_eq h1
  have hop : v1.st.openScopes = v.st.openScopes ++ [v.st.nextScope] := by rw [hst, hs]
  have hnx : v1.st.nextScope = v.st.nextScope + 1 := by rw [hst, hs]
  have hgr : v1.st.scopeGraph = v.st.scopeGraph ++ [(v.st.nextScope, cur)] := by rw [hst, hs]
  have hsg : v1.st.segs = v.st.segs := by rw [hst, hs]
  have hd : ∀ sc, Declares v1.locals sc x → Declares v.locals sc x := by
    rintro sc ⟨e, he, h2, h3⟩
    rcases hl with ⟨hl, _⟩ | hl
    · rw [hl] at he; exact ⟨e, he, h2, h3⟩
    · rw [hl] at he
      rcases List.mem_append.1 he with he | he
      · exact ⟨e, he, h2, h3⟩
      · rw [List.mem_singleton] at he
        subst he
        exact absurd h3 hx
  refine ⟨hi1, ?_, ?_, ?_⟩
  · intro e he
    rw [hnx]
    rcases hl with ⟨hl, _⟩ | hl
    · rw [hl] at he; have := hc.keys e he; omega
    · rw [hl] at he
      rcases List.mem_append.1 he with he | he
      · have := hc.keys e he; omega
      · rw [List.mem_singleton] at he
        subst he
        exact Nat.lt_succ_self _
  · intro g hg
    rw [hsg] at hg
    obtain ⟨h2, h3⟩ := hc.segs g hg
    refine ⟨by omega, fun sc ha hdc => ?_⟩
    rw [hgr] at ha
    exact h3 sc (above_grown (n := v.st.nextScope) (by simp) (fun p q hpq => (hc.inv.edges p q hpq).1) h2 ha).1 (hd _ hdc)
  · intro o ho hdc
    rw [hop] at ho
    rcases List.mem_append.1 ho with ho | ho
    · exact hc.opened o ho (hd _ hdc)
    · rw [List.mem_singleton] at ho
      subst ho
      obtain ⟨e, he, h2, _⟩ := hd _ hdc
      have := hc.keys e he
      omega

theorem clear_close {v v2 v' : V} {x : Nat} (hg : Grown v v') (hc : Clear x v)
    (hs : v'.st.segs = v2.st.segs) (hgr : v'.st.scopeGraph = v2.st.scopeGraph) (hl : v'.locals = v2.locals)
    (hn : v'.st.nextScope = v2.st.nextScope) (h2 : Clear x v2) : Clear x v' := by
  refine ⟨hg.inv hc.inv, hg.keys hc.keys, ?_, hg.opened hc⟩
  rw [hs, hgr, hl, hn]
  exact h2.segs

/-- A visit, along with what is due in it. -/
structure Cleared (E : Env) (x : Nat) (a : Visit) (w : List Due) : Prop where
  grown : ∀ v v', ScopeInv v.st → a v = .ok v' → Grown v v'
  quiet : w = [] → ∀ v v', a v = .ok v' → v'.st.segs = v.st.segs
  clear : ∀ v v', a v = .ok v' → Clear x v → Clear x v'

theorem cleared_closed (E : Env) (x : Nat) : PlainClosed E x (Cleared E x) where
  ok := by
    refine ⟨(grown_closed E).ok, (quiet_closed E).ok, ?_⟩
    intro v v' h hc
    simp only [Except.ok.injEq] at h
    subst h
    exact hc
  seq := by
    intro a b w1 w2 ha hb
    refine ⟨(grown_closed E).seq ha.grown hb.grown, (quiet_closed E).seq ha.quiet hb.quiet, ?_⟩
    intro v v' h hc
    obtain ⟨v1, h1, h2⟩ := seq_ok h
    exact hb.clear v1 v' h2 (ha.clear v v1 h1 hc)
  step := by
    intro n
    refine ⟨(grown_closed E).step n, (quiet_closed E).step n, ?_⟩
    intro v v' h hc
    exact (here_step h).clear hc
  under := by
    intro n a w ha
    refine ⟨(grown_closed E).under n ha.grown, (quiet_closed E).under n ha.quiet, ?_⟩
    intro v v' h hc
    rcases under_ok h with ⟨_, rfl⟩ | ⟨l, v1, _, h1, rfl⟩
    · exact hc
    · exact (here_pop _ _).clear (ha.clear _ _ h1 ((here_push v l).clear hc))
  branch := by
    intro n cn c i w1 w2 en d hc hin
    refine ⟨(grown_closed E).branch n cn en d hc.grown hin.grown,
      (quiet_closed E).branch n cn en d hc.quiet hin.quiet, ?_⟩
    intro v v' h hcl
    cases branch_ok h with
    | skipped v1 h1 _ _ h2 => subst h2; exact hc.clear v v' h1 hcl
    | noStep v1 l h1 _ h2 => exact (here_insert h2).clear (hc.clear v v1 h1 hcl)
    | noBranch v1 v2 l h1 _ h2 h3 =>
      exact (here_openBranch h3).clear ((here_insert h2).clear (hc.clear v v1 h1 hcl))
    | visited v1 v2 v3 v4 l bid h1 _ h2 h3 h4 h5 =>
      exact (here_closeBranch h5).clear (hin.clear _ _ h4
        ((here_openBranch h3).clear ((here_insert h2).clear (hc.clear v v1 h1 hcl))))
  arm := by
    intro n bn g b wg wb hg hwg hb
    refine ⟨(grown_closed E).arm n bn (fun x hx => (hg x hx).grown) hb.grown,
      (quiet_closed E).arm n bn (fun x hx => (hg x hx).quiet) hwg hb.quiet, ?_⟩
    intro v v' h hc
    have hpush : ∀ a, Clear x ((v.guarded g).push a) := fun a => (here_push _ a).clear ((here_guarded v g).clear hc)
    cases arm_ok h with
    | skipped _ h => subst h; exact (here_guarded v g).clear hc
    | noStep a l _ _ h => exact (here_insert h).clear (hpush a)
    | visited a l v1 v2 _ _ h1 h2 h3 =>
      subst h3
      exact (here_pop _ _).clear (hb.clear _ _ h2 ((here_insert h1).clear (hpush a)))
    | walked a v1 v2 _ _ h1 h2 h3 =>
      subst h3
      have g1 : Clear x v1 := by
        cases g with
        | none =>
          simp only [Option.getD_none, Except.ok.injEq] at h1
          subst h1
          exact hpush a
        | some y => exact (hg y rfl).clear _ _ h1 (hpush a)
      exact (here_pop _ _).clear (hb.clear _ _ h2 g1)
  scope := by
    intro a w ha
    refine ⟨(grown_closed E).scope ha.grown, (quiet_closed E).scope ha.quiet, ?_⟩
    intro v v' h hc
    obtain ⟨s, v2, cl, h1, h2, h3⟩ := inScope_ok h
    have hi1 : ScopeInv ({ v.called .openScope with st := s } : V).st := openScope_inv h1 hc.inv
    obtain ⟨_, hg, e1, e2, e3, e4⟩ := grown_scope (v1 := { v.called .openScope with st := s })
      (ls := []) hc.inv h1 rfl (.inl ⟨rfl, rfl⟩)
      (ha.grown _ _ hi1 h2) h3
    exact clear_close hg hc e1 e2 e3 e4 (ha.clear _ _ h2 (clear_open (v1 := { v.called .openScope with st := s })
      (ls := []) hc h1 rfl (.inl ⟨rfl, rfl⟩) (by simp)))
  stmt := by
    intro n locals a w hx ha
    refine ⟨(grown_closed E).stmt n locals ha.grown, (quiet_closed E).stmt n locals ha.quiet, ?_⟩
    intro v v' h hc
    obtain ⟨s, v2, v3, cl, h1, h2, h3, h4⟩ := inStmt_ok h
    have g12 := ha.grown _ _ (by rw [inside_st]; exact openScope_inv h1 hc.inv) h2
    obtain ⟨_, hg, e1, e2, e3, e4⟩ := grown_scope hc.inv h1 (inside_st _ _ _) (inside_locals _ _ _) g12 h3
    have hc3 : Clear x v3 := by
      by_cases hm : x ∈ locals
      · refine ⟨hg.inv hc.inv, hg.keys hc.keys, ?_, hg.opened hc⟩
        obtain ⟨cur, _, _, hs⟩ := openScope_eq h1
        have hsame : v3.st.segs = v.st.segs := by rw [e1, ha.quiet (hx hm) _ _ h2, inside_st, hs]
        intro g hgm
        rw [hsame] at hgm
        exact hg.seg hc hgm
      · exact clear_close hg hc e1 e2 e3 e4
          (ha.clear _ _ h2 (clear_open hc h1 (inside_st _ _ _) (inside_locals _ _ _) hm))
    rcases h4 with ⟨_, rfl⟩ | ⟨_, h4⟩
    · exact hc3
    · exact (here_step h4).clear hc3

theorem clear_make (x : Nat) : Clear x V.make := by
  refine ⟨?_, by simp [V.make], by simp [V.make, St.make], ?_⟩
  · exact scopeInv_run (tie := true) (m := (default : Body).mapper) .make
  · rintro o _ ⟨e, he, _⟩
    simp [V.make] at he

/-- If nothing is due inside the `let`s that declare the variable, no step of the function lies in or below a
scope that declares it. -/
theorem no_step_inside {E : Env} {value : Expr} {f : Frozen} {locals : List (Nat × List Nat)}
    (h : compute E value = .steps f locals) {x : Nat} (hx : Plain x (letsExpr E.m.isSwitch E.next value)) :
    ∀ g ∈ f.segs, ∀ sc, Upto f.scopes g.scope sc → ¬ Declares locals sc x := by
  obtain ⟨v, h1, h2, h3, h4, h5⟩ := compute_steps h
  have hb := ((cleared_closed E x).seq (plain_expr (cleared_closed E x) value hx)
    ((cleared_closed E x).step value.node)).clear V.make v h1 (clear_make x)
  unfold St.freeze at h4
  split at h4
  · simp only [Except.ok.injEq] at h4
    subst h4
    subst h5
    exact fun g hg => (hb.segs g hg).2
  · exact absurd h4 (by simp)

end Verif.HirSteps
