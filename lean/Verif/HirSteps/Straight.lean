import Verif.HirSteps.Order
/-!
# C89: a function without conditionals
-/
namespace Verif.HirSteps

open Verif.Cfg Verif.Segments Verif.Graph

/-- The steps of a function without conditionals, from a location on: a step is made if its end lies on every path
from the last location to the exit and the last location lies on every path to its end. -/
def line (m : Mapper) : Loc → List Due → List (Loc × Loc × Nat)
  | _, [] => []
  | c, .step l sp :: r => if m.ldom c l && m.lpdom l c then (c, l, sp) :: line m l r else line m c r
  | c, _ :: r => line m c r

def lineEnd (m : Mapper) : Loc → List Due → Loc
  | c, [] => c
  | c, .step l _ :: r => if m.ldom c l && m.lpdom l c then lineEnd m l r else lineEnd m c r
  | c, _ :: r => lineEnd m c r

theorem line_append (m : Mapper) (c : Loc) (w w' : List Due) :
    line m c (w ++ w') = line m c w ++ line m (lineEnd m c w) w' ∧
      lineEnd m c (w ++ w') = lineEnd m (lineEnd m c w) w' := by
  induction w generalizing c with
  | nil => exact ⟨rfl, rfl⟩
  | cons d w ih =>
    cases d with
    | step l sp =>
      rw [List.cons_append, line, lineEnd, line, lineEnd]
      split
      · exact ⟨by rw [(ih l).1, List.cons_append], (ih l).2⟩
      · exact ih c
    | fork l => exact ih c
    | guard => exact ih c

/-! ## Induction on a body together with what is due -/

structure DueClosed (E : Env) (Q : Visit → List Due → Prop) : Prop where
  ok : Q .ok []
  seq : ∀ {a b w1 w2}, Q a w1 → Q b w2 → Q (seq a b) (w1 ++ w2)
  step : ∀ n, Q (fun v => v.stepAfter E n) (dueAfter E.next n)
  under : ∀ n {a w}, Q a w → Q (visitUnder n a) (dueIf n w)
  branch : ∀ n cn {c i w1 w2} en d, Q c w1 → Q i w2 → Q (handleBranch E n cn c i en d) (w1 ++ dueFork E.next n cn w2)
  arm : ∀ n bn {g : Option Visit} {b wg wb}, (∀ x, g = some x → Q x wg) → (g = none → wg = []) → Q b wb →
    Q (handleArm E n bn g b) ((if g.isSome then [.guard] else []) ++ dueIf n ((match bn.entry with
      | some l => [.step l n.lo]
      | none => wg) ++ wb))
  scope : ∀ {a w}, Q a w → Q (inScope a) w
  stmt : ∀ n locals {a w}, Q a w → Q (inStmt E n locals a) (w ++ dueAfter E.next n)

mutual
theorem due_expr {E : Env} {Q : Visit → List Due → Prop} (h : DueClosed E Q) :
    ∀ e, Q (visitExpr E e) (dueExpr E.m.isSwitch E.next e)
  | .ite n cnd thn els => by
    rw [visitExpr.eq_def, dueExpr]
    dsimp only
    exact h.branch _ _ _ _ (due_expr h cnd) (h.seq (h.under _ (due_expr h thn)) (due_else h els))
  | .whileLoop n cnd thn els => by
    rw [visitExpr, dueExpr]
    exact h.branch _ _ _ _ (due_expr h cnd)
      (h.seq (h.under _ (due_expr h thn)) (h.under _ (due_expr h els)))
  | .forLoop n cnd nothing item => by
    rw [visitExpr, dueExpr]
    exact h.branch _ _ _ _ (due_expr h cnd) (h.seq (due_dueArm h nothing) (due_dueArm h item))
  | .mtch n fromFor cnd arms => by
    rw [visitExpr, dueExpr, isPlain_eq]
    split
    · exact h.seq (due_expr h cnd) (due_arms h arms)
    · exact h.branch _ _ _ _ (due_expr h cnd) (due_arms h arms)
  | .other n parts => by
    rw [visitExpr, dueExpr]
    exact due_parts h parts
theorem due_else {E : Env} {Q : Visit → List Due → Prop} (h : DueClosed E Q) :
    ∀ e, Q (visitElse E e) (dueElse E.m.isSwitch E.next e)
  | none => by rw [visitElse, dueElse]; exact h.ok
  | some e => by rw [visitElse, dueElse]; exact h.under _ (due_expr h e)
theorem due_opt {E : Env} {Q : Visit → List Due → Prop} (h : DueClosed E Q) :
    ∀ e, Q (visitOpt E e) (dueOpt E.m.isSwitch E.next e)
  | none => by rw [visitOpt, dueOpt]; exact h.ok
  | some e => by rw [visitOpt, dueOpt]; exact due_expr h e
theorem due_parts {E : Env} {Q : Visit → List Due → Prop} (h : DueClosed E Q) :
    ∀ e, Q (visitParts E e) (dueParts E.m.isSwitch E.next e)
  | [] => by rw [visitParts, dueParts]; exact h.ok
  | p :: r => by rw [visitParts, dueParts]; exact h.seq (due_part h p) (due_parts h r)
theorem due_part {E : Env} {Q : Visit → List Due → Prop} (h : DueClosed E Q) :
    ∀ e, Q (visitPart E e) (duePart E.m.isSwitch E.next e)
  | .expr e => by rw [visitPart, duePart]; exact due_expr h e
  | .block b => by rw [visitPart, duePart]; exact due_block h b
  | .body e => by rw [visitPart, duePart]; exact h.seq (due_expr h e) (h.step _)
theorem due_arms {E : Env} {Q : Visit → List Due → Prop} (h : DueClosed E Q) :
    ∀ e, Q (visitArms E e) (dueArms E.m.isSwitch E.next e)
  | [] => by rw [visitArms, dueArms]; exact h.ok
  | p :: r => by rw [visitArms, dueArms]; exact h.seq (due_dueArm h p) (due_arms h r)
theorem due_dueArm {E : Env} {Q : Visit → List Due → Prop} (h : DueClosed E Q) :
    ∀ e, Q (visitArm E e) (dueArm E.m.isSwitch E.next e)
  | .mk n pat none body => by
    rw [visitArm, dueArm]
    exact h.arm n body.node (g := none) (by simp) (fun _ => rfl) (due_expr h body)
  | .mk n pat (some g) body => by
    rw [visitArm, dueArm]
    exact h.arm n body.node (g := some (visitExpr E g)) (by simpa using due_expr h g) (by simp)
      (due_expr h body)
theorem due_stmts {E : Env} {Q : Visit → List Due → Prop} (h : DueClosed E Q) :
    ∀ e, Q (visitStmts E e) (dueStmts E.m.isSwitch E.next e)
  | [] => by rw [visitStmts, dueStmts]; exact h.ok
  | p :: r => by rw [visitStmts, dueStmts]; exact h.seq (due_dueStmt h p) (due_stmts h r)
theorem due_dueStmt {E : Env} {Q : Visit → List Due → Prop} (h : DueClosed E Q) :
    ∀ e, Q (visitStmt E e) (dueStmt E.m.isSwitch E.next e)
  | .lt n locals init els => by
    rw [visitStmt, dueStmt]
    exact h.stmt _ _ (h.seq (due_opt h init) (due_optBlock h els))
  | .expr n e => by rw [visitStmt, dueStmt]; exact h.stmt _ _ (due_expr h e)
  | .item n bodies => by rw [visitStmt, dueStmt]; exact h.stmt _ _ (due_parts h bodies)
theorem due_optBlock {E : Env} {Q : Visit → List Due → Prop} (h : DueClosed E Q) :
    ∀ e, Q (visitOptBlock E e) (dueOptBlock E.m.isSwitch E.next e)
  | none => by rw [visitOptBlock, dueOptBlock]; exact h.ok
  | some b => by rw [visitOptBlock, dueOptBlock]; exact due_block h b
theorem due_block {E : Env} {Q : Visit → List Due → Prop} (h : DueClosed E Q) :
    ∀ e, Q (visitBlock E e) (dueBlock E.m.isSwitch E.next e)
  | .mk n stmts none => by rw [visitBlock, dueBlock]; exact h.scope (due_stmts h stmts)
  | .mk n stmts (some e) => by
    rw [visitBlock, dueBlock]
    exact h.scope (h.seq (due_stmts h stmts) (h.seq (due_expr h e) (h.step _)))
end

/-! ## One stretch -/

/-- Nothing but the stretch of the body itself is open. -/
structure Line (v : V) (c : Loc) : Prop where
  processing : v.st.processing = [⟨0, c⟩]
  branches : v.st.branches = []
  colls : v.st.colls = [⟨(List.range v.st.segs.length).map CF.linear, none⟩]
  scopes : ∃ os s, v.st.openScopes = os ++ [s]
  next : 0 < v.st.nextScope

/-- From one state to another along the stretch. -/
structure Along (m : Mapper) (w : List Due) (v : V) (c : Loc) (v' : V) : Prop where
  line : Line v' (lineEnd m c w)
  segs : v'.st.segs.map (fun g => (g.from, g.to, g.span)) = v.st.segs.map (fun g => (g.from, g.to, g.span)) ++
    Verif.HirSteps.line m c w
  scopes : v'.st.openScopes = v.st.openScopes
  hints : v'.hints = v.hints
  fatal : v'.fatal = v.fatal
  unsupported : v'.unsupported = v.unsupported + w.countP isGuard

theorem Along.same {m : Mapper} {v v' : V} {c : Loc} (hl : Line v' c) (h1 : v'.st.segs = v.st.segs)
    (h2 : v'.st.openScopes = v.st.openScopes) (h3 : v'.hints = v.hints) (h4 : v'.fatal = v.fatal)
    (h5 : v'.unsupported = v.unsupported) : Along m [] v c v' :=
  ⟨hl, by rw [h1]; simp [Verif.HirSteps.line], h2, h3, h4, by rw [h5]; rfl⟩

theorem Along.trans {m : Mapper} {w1 w2 : List Due} {v v1 v2 : V} {c : Loc} (h1 : Along m w1 v c v1)
    (h2 : Along m w2 v1 (lineEnd m c w1) v2) : Along m (w1 ++ w2) v c v2 where
  line := by rw [(line_append m c w1 w2).2]; exact h2.line
  segs := by rw [h2.segs, h1.segs, (line_append m c w1 w2).1, List.append_assoc]
  scopes := h2.scopes.trans h1.scopes
  hints := h2.hints.trans h1.hints
  fatal := h2.fatal.trans h1.fatal
  unsupported := by rw [h2.unsupported, h1.unsupported, List.countP_append]; omega

/-- The visit follows the stretch if there is no conditional. -/
def Follows (E : Env) (a : Visit) (w : List Due) : Prop :=
  (∀ l, Due.fork l ∉ w) → ∀ v c, Line v c → ∃ v', a v = .ok v' ∧ Along E.m w v c v'

theorem along_insert {E : Env} (hfu : E.fuel ≠ 0) {v : V} {c : Loc} (hl : Line v c) (l : Loc) (sp : Nat) :
    ∃ v', v.insert E l sp = .ok (v', true) ∧ Along E.m [.step l sp] v c v' := by
  obtain ⟨k, hk⟩ := Nat.exists_eq_succ_of_ne_zero hfu
  have hd := hl.colls
  obtain ⟨os, s0, hos⟩ := hl.scopes
  have hcs : v.st.currentScope = .ok s0 := by
    unfold St.currentScope
    rw [hos, List.getLast?_append]
    rfl
  have hfb : v.st.findBuilder E.m l = if E.m.ldom c l then some (⟨0, c⟩, 0) else none := by
    unfold St.findBuilder
    rw [hl.processing]
    simp only [List.zipIdx_cons, List.zipIdx_nil, List.reverse_singleton, List.find?_cons, List.find?_nil]
    cases E.m.ldom c l <;> rfl
  have hcb : v.st.containingBranch 0 = none := by
    unfold St.containingBranch
    rw [hl.branches]
    rfl
  have hfs : v.st.findSuitable E.m l =
      if E.m.ldom c l && E.m.lpdom l c then .linear ⟨0, c⟩ 0 else .none := by
    unfold St.findSuitable
    rw [hfb]
    cases h1 : E.m.ldom c l with
    | false => rfl
    | true =>
      rw [if_pos rfl]
      dsimp only
      cases h2 : E.m.lpdom l c with
      | false =>
        rw [if_neg (by simp), hcb]
        rfl
      | true => rfl
  have hend : v.st.insertEnd E.m ⟨0, c⟩ l = l := by
    unfold St.insertEnd
    rw [hd]
    rfl
  cases hb : (E.m.ldom c l && E.m.lpdom l c) with
  | false =>
    rw [hb] at hfs
    refine ⟨v.called (.insert l sp), ?_, ?_⟩
    · unfold V.insert
      change (match v.st.insert E.secondWins E.m E.fuel l sp with
        | .ok s => _
        | .error .fail => _
        | .error e => _) = _
      rw [hk, St.insert, hfs]
      rfl
    · have e1 : lineEnd E.m c [.step l sp] = c := by simp [lineEnd, hb]
      have e2 : line E.m c [.step l sp] = [] := by simp [line, hb]
      exact ⟨by rw [e1]; exact ⟨hl.processing, hl.branches, hl.colls, hl.scopes, hl.next⟩, by rw [e2, List.append_nil]; rfl,
        rfl, rfl, rfl, rfl⟩
  | true =>
    rw [hb] at hfs
    refine ⟨{ v.called (.insert l sp) with st := v.st.insertTo ⟨0, c⟩ 0 l sp s0 }, ?_, ?_⟩
    · unfold V.insert
      change (match v.st.insert E.secondWins E.m E.fuel l sp with
        | .ok s => _
        | .error .fail => _
        | .error e => _) = _
      rw [hk, St.insert, hfs]
      rw [if_pos rfl]
      dsimp only
      rw [hcs]
      dsimp only
      rw [hend]
    · have e1 : lineEnd E.m c [.step l sp] = l := by simp [lineEnd, hb]
      have e2 : line E.m c [.step l sp] = [(c, l, sp)] := by simp [line, hb]
      refine ⟨?_, ?_, rfl, rfl, rfl, rfl⟩
      · rw [e1]
        refine ⟨?_, hl.branches, ?_, hl.scopes, hl.next⟩
        · change v.st.processing.set 0 _ = _
          rw [hl.processing]
          rfl
        · change pushCF v.st.colls 0 (.linear v.st.segs.length) = [⟨(List.range (v.st.segs ++ [_]).length).map _, none⟩]
          rw [hd, List.length_append, List.length_singleton, List.range_succ, List.map_append]
          rfl
      · rw [e2]
        change (v.st.segs ++ [_]).map _ = _
        rw [List.map_append]
        rfl

theorem openScope_line {v : V} {c : Loc} (hl : Line v c) : ∃ s, v.st.openScope = .ok (v.st.nextScope, s) ∧
    v.openScope = .ok ({ v.called .openScope with st := s }, some v.st.nextScope) ∧
    s.openScopes = v.st.openScopes ++ [v.st.nextScope] ∧ s.segs = v.st.segs ∧
    Line { v.called .openScope with st := s } c := by
  obtain ⟨os, s0, hos⟩ := hl.scopes
  have hg : v.st.openScopes.getLast? = some s0 := by rw [hos, List.getLast?_append]; rfl
  have h1 : v.st.openScope = .ok (v.st.nextScope, { v.st with
      scopeGraph := v.st.scopeGraph ++ [(v.st.nextScope, s0)], nextScope := v.st.nextScope + 1,
      openScopes := v.st.openScopes ++ [v.st.nextScope] }) := by
    unfold St.openScope St.currentScope
    rw [hg]
  refine ⟨_, h1, ?_, rfl, rfl, ⟨hl.processing, hl.branches, hl.colls, ⟨_, _, rfl⟩, Nat.succ_pos _⟩⟩
  unfold V.openScope
  change (match v.st.openScope with
    | .ok (id, s) => _
    | .error .fail => _
    | .error e => _) = _
  rw [h1]

theorem closeScope_line {v : V} {c : Loc} (hl : Line v c) {os : List Nat} {id : Nat}
    (hos : v.st.openScopes = os ++ [id]) (hne : ∃ a b, os = a ++ [b]) (hid : 0 < id) :
    ∃ v', v.closeScope id = .ok (v', true) ∧ Line v' c ∧ v'.st.segs = v.st.segs ∧ v'.st.openScopes = os ∧
      v'.hints = v.hints ∧ v'.fatal = v.fatal ∧ v'.unsupported = v.unsupported := by
  have hg : v.st.openScopes.getLast? = some id := by rw [hos, List.getLast?_append]; rfl
  have h1 : v.st.closeScope id = .ok { v.st with openScopes := os } := by
    unfold St.closeScope
    rw [if_neg (by omega), hg]
    dsimp only
    rw [if_pos rfl, hos, List.dropLast_concat]
  refine ⟨{ v.called (.closeScope id) with st := { v.st with openScopes := os } }, ?_,
    ⟨hl.processing, hl.branches, hl.colls, hne, hl.next⟩, rfl, rfl, rfl, rfl, rfl⟩
  unfold V.closeScope
  change (match v.st.closeScope id with
    | .ok s => _
    | .error .fail => _
    | .error e => _) = _
  rw [h1]

theorem follows_step {E : Env} (hfu : E.fuel ≠ 0) (n : Node) :
    Follows E (fun v => v.stepAfter E n) (dueAfter E.next n) := by
  intro _ v c hl
  change ∃ v', v.stepAfter E n = .ok v' ∧ _
  unfold V.stepAfter Env.exitOf
  change ∃ v', (match after E.next n with
    | none => _
    | some exit => _) = Except.ok v' ∧ Along E.m (dueAfter E.next n) v c v'
  unfold dueAfter
  cases after E.next n with
  | none => exact ⟨v, rfl, .same hl rfl rfl rfl rfl rfl⟩
  | some l =>
    obtain ⟨v', e, h⟩ := along_insert hfu hl l n.span
    exact ⟨v', by dsimp only; rw [e], h⟩

theorem follows_closed {E : Env} (hfu : E.fuel ≠ 0) : DueClosed E (Follows E) where
  ok := by
    intro _ v c hl
    exact ⟨v, rfl, .same hl rfl rfl rfl rfl rfl⟩
  seq := by
    intro a b w1 w2 ha hb hn v c hl
    obtain ⟨v1, e1, l1⟩ := ha (fun l h => hn l (List.mem_append_left _ h)) v c hl
    obtain ⟨v2, e2, l2⟩ := hb (fun l h => hn l (List.mem_append_right _ h)) v1 _ l1.line
    exact ⟨v2, by rw [seq_eq e1, e2], l1.trans l2⟩
  step := follows_step hfu
  under := by
    intro n a w ha hn v c hl
    unfold visitUnder dueIf at *
    cases he : n.entry with
    | none =>
      rw [if_pos rfl]
      exact ⟨v, rfl, .same hl rfl rfl rfl rfl rfl⟩
    | some l =>
      rw [he, if_neg (by simp)] at hn
      rw [if_neg (by simp)]
      obtain ⟨v', e, h⟩ := ha hn (v.push l) c ⟨hl.processing, hl.branches, hl.colls, hl.scopes, hl.next⟩
      dsimp only
      rw [e]
      have hp : v'.pop l = { v' with hints := v.hints } := by
        unfold V.pop
        rw [show v'.hints = l :: v.hints from h.hints]
        dsimp only
        rw [if_pos rfl]
      exact ⟨v'.pop l, rfl, by
        rw [hp]
        exact ⟨⟨h.line.processing, h.line.branches, h.line.colls, h.line.scopes, h.line.next⟩, h.segs, h.scopes, rfl,
          h.fatal, h.unsupported⟩⟩
  branch := by
    intro n cn ci i w1 w2 en d hc _ hn v c hl
    obtain ⟨v1, e1, l1⟩ := hc (fun l h => hn l (List.mem_append_left _ h)) v c hl
    cases he : (E.exitOf cn).or n.entry with
    | some l =>
      rw [dueFork_some he] at hn
      exact absurd (by simp) (hn l)
    | none =>
      have h1 : after E.next cn = none := by
        cases h : after E.next cn with
        | none => rfl
        | some l => rw [show E.exitOf cn = some l from h] at he; exact absurd he (by simp)
      have h2 : n.entry = none := by
        rw [show E.exitOf cn = none from h1] at he
        simpa using he
      refine ⟨v1, ?_, ?_⟩
      · unfold handleBranch prelude
        rw [e1]
        dsimp only
        rw [he]
      · rw [show dueFork E.next n cn w2 = [] by unfold dueFork; rw [h1, h2], List.append_nil]
        exact l1
  arm := by
    intro n bn g b wg wb hg hwg hb hn v c hl
    have l0 : Along E.m (if g.isSome then [.guard] else []) v c (v.guarded g) := by
      unfold V.guarded
      split
      · exact ⟨⟨hl.processing, hl.branches, hl.colls, hl.scopes, hl.next⟩, by simp [line], rfl, rfl, rfl, rfl⟩
      · exact .same hl rfl rfl rfl rfl rfl
    have hn' : ∀ l, Due.fork l ∉ dueIf n ((match bn.entry with
      | some l => [.step l n.lo]
      | none => wg) ++ wb) := fun l h => hn l (List.mem_append_right _ h)
    have key : ∃ v', handleArm E n bn g b v = .ok v' ∧ Along E.m (dueIf n ((match bn.entry with
        | some l => [.step l n.lo]
        | none => wg) ++ wb)) (v.guarded g) (lineEnd E.m c (if g.isSome then [.guard] else [])) v' := by
      generalize hc : lineEnd E.m c (if g.isSome then [.guard] else []) = c1 at l0
      have hl1 : Line (v.guarded g) c1 := by rw [← hc]; exact l0.line
      unfold handleArm
      change ∃ v', (match n.entry with
        | none => Except.ok (v.guarded g)
        | some armEntry => match bn.entry with
          | some entry => match ((v.guarded g).push armEntry).insert E entry n.lo with
            | .error e => .error e
            | .ok (v, false) => .ok v
            | .ok (v, true) => match b v with
              | .error e => .error e
              | .ok v => .ok (v.pop armEntry)
          | none => match seq (g.getD .ok) b ((v.guarded g).push armEntry) with
            | .error e => .error e
            | .ok v => .ok (v.pop armEntry)) = _ ∧ _
      unfold dueIf at hn' ⊢
      cases he : n.entry with
      | none =>
        rw [if_pos rfl]
        exact ⟨_, rfl, .same hl1 rfl rfl rfl rfl rfl⟩
      | some a =>
        rw [he, if_neg (by simp)] at hn'
        rw [if_neg (by simp)]
        have hl2 : Line ((v.guarded g).push a) c1 := ⟨hl1.processing, hl1.branches, hl1.colls, hl1.scopes, hl1.next⟩
        have popped : ∀ {w : List Due} {v' : V}, Along E.m w ((v.guarded g).push a) c1 v' →
            Along E.m w (v.guarded g) c1 (v'.pop a) := by
          intro w v' h
          have hp : v'.pop a = { v' with hints := (v.guarded g).hints } := by
            unfold V.pop
            rw [show v'.hints = a :: (v.guarded g).hints from h.hints]
            dsimp only
            rw [if_pos rfl]
          rw [hp]
          exact ⟨⟨h.line.processing, h.line.branches, h.line.colls, h.line.scopes, h.line.next⟩, h.segs, h.scopes, rfl,
            h.fatal, h.unsupported⟩
        cases hbe : bn.entry with
        | some l =>
          rw [hbe] at hn'
          dsimp only at hn' ⊢
          obtain ⟨v1, e1, a1⟩ := along_insert hfu hl2 l n.lo
          obtain ⟨v2, e2, a2⟩ := hb (fun l h => hn' l (List.mem_append_right _ h)) v1 _ a1.line
          rw [e1]
          dsimp only
          rw [e2]
          exact ⟨_, rfl, popped (a1.trans a2)⟩
        | none =>
          rw [hbe] at hn'
          dsimp only at hn' ⊢
          have hgd : ∃ v1, g.getD .ok ((v.guarded g).push a) = .ok v1 ∧ Along E.m wg ((v.guarded g).push a) c1 v1 := by
            cases g with
            | none => rw [hwg rfl]; exact ⟨_, rfl, .same hl2 rfl rfl rfl rfl rfl⟩
            | some x => exact hg x rfl (fun l h => hn' l (List.mem_append_left _ h)) _ c1 hl2
          obtain ⟨v1, e1, a1⟩ := hgd
          obtain ⟨v2, e2, a2⟩ := hb (fun l h => hn' l (List.mem_append_right _ h)) v1 _ a1.line
          rw [seq_eq e1, e2]
          exact ⟨_, rfl, popped (a1.trans a2)⟩
    obtain ⟨v', e, a⟩ := key
    exact ⟨v', e, l0.trans a⟩
  scope := by
    intro a w ha hn v c hl
    obtain ⟨s, _, e1, o1, g1, l1⟩ := openScope_line hl
    obtain ⟨v2, e2, a2⟩ := ha hn _ c l1
    obtain ⟨v3, e3, l3, g3, o3, i3, f3, u3⟩ := closeScope_line a2.line (a2.scopes.trans o1) hl.scopes hl.next
    refine ⟨v3, ?_, l3, ?_, o3, i3.trans a2.hints, f3.trans a2.fatal, u3.trans a2.unsupported⟩
    · unfold inScope
      rw [e1]
      dsimp only
      rw [e2]
      dsimp only
      rw [e3]
    · rw [g3, a2.segs]
      change s.segs.map _ ++ _ = _
      rw [g1]
  stmt := by
    intro n locals a w ha hn v c hl
    obtain ⟨s, _, e1, o1, g1, l1⟩ := openScope_line hl
    have l2 : Line (v.inside s locals) c := by
      have h := inside_st v s locals
      exact ⟨by rw [h]; exact l1.processing, by rw [h]; exact l1.branches, by rw [h]; exact l1.colls,
        by rw [h]; exact l1.scopes, by rw [h]; exact l1.next⟩
    obtain ⟨v2, e2, a2⟩ := ha (fun l h => hn l (List.mem_append_left _ h)) _ c l2
    have o2 : v2.st.openScopes = v.st.openScopes ++ [v.st.nextScope] := by rw [a2.scopes, inside_st, o1]
    obtain ⟨v3, e3, l3, g3, o3, i3, f3, u3⟩ := closeScope_line a2.line o2 hl.scopes hl.next
    have hh : (v.inside s locals).hints = v.hints := by unfold V.inside; split <;> rfl
    have a3 : Along E.m w v c v3 := by
      refine ⟨l3, ?_, o3, by rw [i3, a2.hints, hh], by rw [f3, a2.fatal, inside_fatal],
        by rw [u3, a2.unsupported, inside_unsupported]⟩
      rw [g3, a2.segs, inside_st, g1]
    obtain ⟨v4, e4, a4⟩ := follows_step hfu n (fun l h => hn l (List.mem_append_right _ h)) v3 _ a3.line
    refine ⟨v4, ?_, a3.trans a4⟩
    unfold inStmt
    rw [e1]
    dsimp only
    have hin : (if locals.isEmpty = true then ({ v.called .openScope with st := s } : V)
        else { ({ v.called .openScope with st := s } : V) with
          locals := ({ v.called .openScope with st := s } : V).locals ++ [(v.st.nextScope, locals)] }) =
        v.inside s locals := by
      unfold V.inside
      split <;> rfl
    rw [hin, e2]
    dsimp only
    rw [e3]
    exact e4

/-- A function without conditionals and without guards is always given steps.  They follow one another from the
start of the function, and there is one for each due location that the straight walk through the function passes. -/
theorem C89_straight (b : Body) {fuel : Nat} (hfu : fuel ≠ 0) (order : List (Loc × Nat) → List (Loc × Nat))
    (value : Expr) (hn : ∀ l, Due.fork l ∉ dueBody b.mapper.isSwitch b.locationSuccessor value)
    (hg : Due.guard ∉ dueBody b.mapper.isSwitch b.locationSuccessor value) :
    ∃ f locals, compute (.ofBody b fuel order) value = .steps f locals ∧
      f.segs.map (fun g => (g.from, g.to, g.span)) =
        line b.mapper startLoc (dueBody b.mapper.isSwitch b.locationSuccessor value) ∧
      f.branches = [] ∧ f.colls = [⟨(List.range f.segs.length).map CF.linear, none⟩] := by
  have hl : Line V.make startLoc := ⟨rfl, rfl, rfl, ⟨[], 0, rfl⟩, Nat.one_pos⟩
  have hc : DueClosed (.ofBody b fuel order) (Follows (.ofBody b fuel order)) := follows_closed hfu
  obtain ⟨v, e, a⟩ := hc.seq (due_expr hc value) (hc.step value.node) hn V.make startLoc hl
  have hu : v.unsupported = 0 := by
    rw [a.unsupported]
    change 0 + List.countP isGuard (dueBody b.mapper.isSwitch b.locationSuccessor value) = 0
    rw [Nat.zero_add, List.countP_eq_zero]
    intro d hd hgd
    simp only [isGuard, decide_eq_true_eq] at hgd
    exact hg (hgd ▸ hd)
  have hf : v.fatal = [] := a.fatal
  have hz : v.st.freeze = .ok ⟨v.st.colls, v.st.branches, v.st.segs, v.st.scopeGraph⟩ := by
    unfold St.freeze
    rw [a.line.processing]
    rfl
  refine ⟨⟨v.st.colls, v.st.branches, v.st.segs, v.st.scopeGraph⟩, v.locals, ?_, a.segs,
    a.line.branches, a.line.colls⟩
  have e' : visitBody (.ofBody b fuel order) value V.make = .ok v := e
  unfold compute
  rw [e']
  dsimp only
  rw [if_neg (by simp [hu]), if_neg (by simp [hf]), hz]

/-- The steps of such a function follow one another. -/
theorem C89_contiguous (m : Mapper) (c : Loc) (w : List Due) :
    (∀ x, (line m c w)[0]? = some x → x.1 = c) ∧
      ∀ i x y, (line m c w)[i]? = some x → (line m c w)[i + 1]? = some y → y.1 = x.2.1 := by
  induction w generalizing c with
  | nil => exact ⟨by simp [line], by simp [line]⟩
  | cons d w ih =>
    cases d with
    | fork l => exact ih c
    | guard => exact ih c
    | step l sp =>
      rw [line]
      split
      · refine ⟨by simp, ?_⟩
        intro i x y hx hy
        cases i with
        | zero =>
          simp only [List.getElem?_cons_zero, Option.some.injEq, List.getElem?_cons_succ] at hx hy
          rw [← hx]
          exact (ih l).1 y hy
        | succ i => exact (ih l).2 i x y hx hy
      · exact ih c

/-- In a function that is one basic block, every step is made as long as the due locations do not go back. -/
theorem C89_block {b : Body} (w : List Due) (blk i : Nat)
    (hs : ∀ d ∈ w, ∃ k sp, d = .step ⟨blk, k⟩ sp) (ho : w.Pairwise (fun d d' => ∀ k sp k' sp', d = .step ⟨blk, k⟩ sp →
      d' = .step ⟨blk, k'⟩ sp' → k ≤ k')) (hi : ∀ k sp, w.head? = some (.step ⟨blk, k⟩ sp) → i ≤ k) :
    (line b.mapper ⟨blk, i⟩ w).map (fun x => Due.step x.2.1 x.2.2) = w := by
  induction w generalizing i with
  | nil => rfl
  | cons d w ih =>
    obtain ⟨k, sp, rfl⟩ := hs d List.mem_cons_self
    have hik := hi k sp rfl
    have h1 : b.mapper.ldom ⟨blk, i⟩ ⟨blk, k⟩ = true := by
      change ldominates b _ _ = true
      simp [ldominates, hik]
    have h2 : b.mapper.lpdom ⟨blk, k⟩ ⟨blk, i⟩ = true := by
      change lpostDominates b _ _ = true
      simp [lpostDominates, hik]
    rw [List.pairwise_cons] at ho
    rw [line, h1, h2, if_pos (by rfl), List.map_cons, ih k (fun d hd => hs d (List.mem_cons_of_mem _ hd)) ho.2]
    intro k' sp' h'
    cases w with
    | nil => exact absurd h' (by simp)
    | cons d w =>
      simp only [List.head?_cons, Option.some.injEq] at h'
      exact ho.1 d List.mem_cons_self k sp k' sp' rfl h'

/-- `a; b; c` -/
def straightBody : Body := [⟨3, .goto 1, false⟩, ⟨0, .ret, false⟩]
def straightFn : Expr := blockOf (some ⟨0, 0⟩) (some ⟨1, 0⟩) 1 [stm 0 0 0 2, stm 0 1 1 3, stm 0 2 2 4] none

example : dueBody straightBody.mapper.isSwitch straightBody.locationSuccessor straightFn =
    [.step ⟨0, 1⟩ 20, .step ⟨0, 2⟩ 30, .step ⟨0, 3⟩ 40, .step ⟨1, 0⟩ 10] ∧
    line straightBody.mapper startLoc (dueBody straightBody.mapper.isSwitch straightBody.locationSuccessor straightFn) =
      [(⟨0, 0⟩, ⟨0, 1⟩, 20), (⟨0, 1⟩, ⟨0, 2⟩, 30), (⟨0, 2⟩, ⟨0, 3⟩, 40), (⟨0, 3⟩, ⟨1, 0⟩, 10)] := by decide +kernel

end Verif.HirSteps
