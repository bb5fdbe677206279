import Verif.HirSteps.Spec
import Verif.HirSteps.Props
/-!
# Which steps are asked for
-/
namespace Verif.HirSteps

open Verif.Cfg Verif.Segments Verif.Graph

/-- The calls made between two states. -/
def V.dues (v : V) : List Due := v.calls.filterMap Call.due

def isGuard (d : Due) : Bool := decide (d = .guard)

/-- What is done of `w` between two states: all of it, if there is no error. -/
def Did (v v' : V) (w : List Due) : Prop :=
  ∃ w', w'.Sublist w ∧ v'.dues = v.dues ++ w'.filter (fun d => !isGuard d) ∧
    v'.unsupported = v.unsupported + w'.countP isGuard ∧ (v'.fatal = [] → v.fatal = [] ∧ w' = w)

def Does (a : Visit) (w : List Due) : Prop := ∀ v v', a v = .ok v' → Did v v' w

theorem Did.same {v v' : V} (h1 : v'.calls.filterMap Call.due = v.calls.filterMap Call.due)
    (h2 : v'.unsupported = v.unsupported) (h3 : v'.fatal = [] → v.fatal = []) : Did v v' [] :=
  ⟨[], .slnil, by simpa [V.dues] using h1, by simpa using h2, fun h => ⟨h3 h, rfl⟩⟩

theorem Did.refl (v : V) : Did v v [] := .same rfl rfl id

theorem Did.trans {v v1 v2 : V} {w1 w2 : List Due} (h1 : Did v v1 w1) (h2 : Did v1 v2 w2) : Did v v2 (w1 ++ w2) := by
  obtain ⟨a, s1, c1, u1, f1⟩ := h1
  obtain ⟨b, s2, c2, u2, f2⟩ := h2
  refine ⟨a ++ b, s1.append s2, by rw [c2, c1]; simp, by rw [u2, u1, List.countP_append]; omega, fun h => ?_⟩
  obtain ⟨h', rfl⟩ := f2 h
  obtain ⟨h'', rfl⟩ := f1 h'
  exact ⟨h'', rfl⟩

/-- Stopping early because of an error. -/
theorem Did.stop {v v1 : V} {w w2 : List Due} (h : Did v v1 w) (hf : v1.fatal ≠ []) : Did v v1 (w ++ w2) := by
  obtain ⟨a, s1, c1, u1, _⟩ := h
  exact ⟨a, s1.trans (List.sublist_append_left _ _), c1, u1, fun h => absurd h hf⟩

theorem did_insert {E : Env} {v v' : V} {l : Loc} {sp : Nat} {ok : Bool} (h : v.insert E l sp = .ok (v', ok)) :
    Did v v' [.step l sp] ∧ (ok = false → v'.fatal ≠ []) := by
  rcases insert_ok h with ⟨rfl, s, _, rfl⟩ | ⟨rfl, _, rfl⟩
  · exact ⟨⟨[.step l sp], .refl _, by simp [V.dues, V.called, Call.due, isGuard], by simp [V.called, isGuard],
      fun h => ⟨h, rfl⟩⟩, by simp⟩
  · exact ⟨⟨[.step l sp], .refl _, by simp [V.dues, V.called, V.failed, Call.due, isGuard],
      by simp [V.called, V.failed, isGuard], fun h => absurd h (by simp [V.failed])⟩, by simp [V.failed]⟩

theorem did_push (v : V) (l : Loc) : Did v (v.push l) [] := .same rfl rfl id

theorem did_pop (v : V) (l : Loc) : Did v (v.pop l) [] := by
  unfold V.pop
  split
  · exact .refl _
  · split
    · exact .same rfl rfl id
    · exact .same rfl rfl (fun h => absurd h (by simp [V.failed]))

theorem did_openBranch {E : Env} {v v' : V} {l : Loc} {f : Spanner} {r : Option Nat}
    (h : v.openBranch E l f = .ok (v', r)) : Did v v' [.fork l] ∧ (r = none → v'.fatal ≠ []) := by
  rcases openBranch_ok h with ⟨bid, s, rfl, _, rfl⟩ | ⟨rfl, _, rfl⟩
  · exact ⟨⟨[.fork l], .refl _, by simp [V.dues, V.called, Call.due, isGuard], by simp [V.called, isGuard],
      fun h => ⟨h, rfl⟩⟩, by simp⟩
  · exact ⟨⟨[.fork l], .refl _, by simp [V.dues, V.called, V.failed, Call.due, isGuard],
      by simp [V.called, V.failed, isGuard], fun h => absurd h (by simp [V.failed])⟩, by simp [V.failed]⟩

theorem did_closeBranch {v v' : V} {bid : Nat} (h : v.closeBranch bid = .ok v') : Did v v' [] := by
  obtain ⟨s, _, rfl⟩ := vcloseBranch_ok h
  exact .same (by simp [V.called, Call.due]) rfl id

theorem did_closeScope {v v' : V} {id : Nat} {ok : Bool} (h : v.closeScope id = .ok (v', ok)) :
    Did v v' [] ∧ (ok = false → v'.fatal ≠ []) := by
  rcases vcloseScope_ok h with ⟨rfl, s, _, rfl⟩ | ⟨rfl, _, rfl⟩
  · exact ⟨.same (by simp [V.called, Call.due]) rfl _root_.id, by simp⟩
  · exact ⟨.same (by simp [V.called, V.failed, Call.due]) rfl (fun h => absurd h (by simp [V.failed])),
      by simp [V.failed]⟩

theorem did_guarded (v : V) (g : Option Visit) : Did v (v.guarded g) (if g.isSome then [.guard] else []) := by
  unfold V.guarded
  split
  · exact ⟨[.guard], .refl _, by simp [V.dues, isGuard], by simp [isGuard], fun h => ⟨h, rfl⟩⟩
  · exact .refl _

theorem does_ok : Does .ok [] := by
  intro v v' h
  simp only [Except.ok.injEq] at h
  subst h
  exact .refl _

theorem does_seq {a b : Visit} {w1 w2 : List Due} (ha : Does a w1) (hb : Does b w2) : Does (seq a b) (w1 ++ w2) := by
  intro v v' h
  obtain ⟨v1, h1, h2⟩ := seq_ok h
  exact (ha v v1 h1).trans (hb v1 v' h2)

theorem does_step (E : Env) (n : Node) : Does (fun v => v.stepAfter E n) (dueAfter E.next n) := by
  intro v v' h
  rcases stepAfter_ok h with ⟨he, rfl⟩ | ⟨l, ok, he, hi⟩
  · rw [dueAfter, show after E.next n = none from he]
    exact .refl _
  · rw [dueAfter, show after E.next n = some l from he]
    exact (did_insert hi).1

theorem does_under (n : Node) {a : Visit} {w : List Due} (ha : Does a w) : Does (visitUnder n a) (dueIf n w) := by
  intro v v' h
  rcases under_ok h with ⟨he, rfl⟩ | ⟨l, v1, he, h1, rfl⟩
  · rw [dueIf, if_pos he]
    exact .refl _
  · rw [dueIf, if_neg (by rw [he]; simp)]
    simpa using (did_push v l).trans ((ha _ _ h1).trans (did_pop _ l))

theorem dueFork_some {E : Env} {n cn : Node} {w : List Due} {l : Loc} (h : (E.exitOf cn).or n.entry = some l) :
    dueFork E.next n cn w = [.step l cn.span] ++ ([.fork l] ++ w) := by
  unfold dueFork
  change (after E.next cn).or _ = _ at h
  cases ha : after E.next cn with
  | some x =>
    rw [ha] at h
    simp only [Option.some_or, Option.some.injEq] at h
    subst h
    rfl
  | none =>
    rw [ha] at h
    simp only [Option.none_or] at h
    rw [h]
    rfl

theorem does_branch (E : Env) (n cn : Node) {c i : Visit} {w1 w2 : List Due} (en : List (Loc × Nat)) (d : Nat)
    (hc : Does c w1) (hi : Does i w2) : Does (handleBranch E n cn c i en d) (w1 ++ dueFork E.next n cn w2) := by
  intro v v' h
  cases branch_ok h with
  | skipped v1 h1 he hn h2 =>
    subst h2
    rw [dueFork, show after E.next cn = none from he, hn]
    simpa using hc v v' h1
  | noStep v1 l h1 he h2 =>
    rw [dueFork_some he]
    obtain ⟨d1, d2⟩ := did_insert h2
    exact (hc v v1 h1).trans (d1.stop (d2 rfl))
  | noBranch v1 v2 l h1 he h2 h3 =>
    rw [dueFork_some he]
    obtain ⟨d1, d2⟩ := did_openBranch h3
    exact (hc v v1 h1).trans ((did_insert h2).1.trans (d1.stop (d2 rfl)))
  | visited v1 v2 v3 v4 l bid h1 he h2 h3 h4 h5 =>
    rw [dueFork_some he]
    have := (hi _ _ h4).trans (did_closeBranch h5)
    rw [List.append_nil] at this
    exact (hc v v1 h1).trans ((did_insert h2).1.trans ((did_openBranch h3).1.trans this))

theorem does_arm (E : Env) (n bn : Node) {g : Option Visit} {b : Visit} {wg wb : List Due}
    (hg : ∀ x, g = some x → Does x wg) (hwg : g = none → wg = []) (hb : Does b wb) :
    Does (handleArm E n bn g b) ((if g.isSome then [.guard] else []) ++ dueIf n ((match bn.entry with
      | some l => [.step l n.lo]
      | none => wg) ++ wb)) := by
  intro v v' h
  refine (did_guarded v g).trans ?_
  cases arm_ok h with
  | skipped he h =>
    subst h
    rw [dueIf, if_pos he]
    exact .refl _
  | noStep a l he hl h =>
    rw [dueIf, if_neg (by rw [he]; simp), hl]
    obtain ⟨d1, d2⟩ := did_insert h
    have := (did_push (v.guarded g) a).trans (d1.stop (w2 := wb) (d2 rfl))
    rwa [List.nil_append] at this
  | visited a l v1 v2 he hl h1 h2 h3 =>
    subst h3
    rw [dueIf, if_neg (by rw [he]; simp), hl]
    have := (did_push (v.guarded g) a).trans ((did_insert h1).1.trans ((hb _ _ h2).trans (did_pop _ a)))
    rwa [List.nil_append, List.append_nil] at this
  | walked a v1 v2 he hl h1 h2 h3 =>
    subst h3
    rw [dueIf, if_neg (by rw [he]; simp), hl]
    have hw : Does (g.getD .ok) wg := by
      cases g with
      | none => rw [hwg rfl]; exact does_ok
      | some x => exact hg x rfl
    have := (did_push (v.guarded g) a).trans ((hw _ _ h1).trans ((hb _ _ h2).trans (did_pop _ a)))
    rwa [List.nil_append, List.append_nil] at this

theorem does_scope {a : Visit} {w : List Due} (ha : Does a w) : Does (inScope a) w := by
  intro v v' h
  obtain ⟨s, v2, cl, h1, h2, h3⟩ := inScope_ok h
  have h0 : Did v { v.called .openScope with st := s } [] :=
    .same (by simp [V.called, Call.due]) rfl id
  have := h0.trans ((ha _ _ h2).trans (did_closeScope h3).1)
  rwa [List.nil_append, List.append_nil] at this

theorem does_stmt (E : Env) (n : Node) (locals : List Nat) {a : Visit} {w : List Due} (ha : Does a w) :
    Does (inStmt E n locals a) (w ++ dueAfter E.next n) := by
  intro v v' h
  obtain ⟨s, v2, v3, cl, h1, h2, h3, h4⟩ := inStmt_ok h
  have h0 : Did v (v.inside s locals) [] :=
    .same (by rw [inside_calls]; simp [Call.due]) (inside_unsupported _ _ _) (by rw [inside_fatal]; exact id)
  obtain ⟨c1, c2⟩ := did_closeScope h3
  have h5 := h0.trans ((ha _ _ h2).trans c1)
  rw [List.nil_append, List.append_nil] at h5
  rcases h4 with ⟨hcl, rfl⟩ | ⟨_, h4⟩
  · exact h5.stop (c2 hcl)
  · exact h5.trans (does_step E n _ _ h4)

theorem isPlain_eq (E : Env) (fromFor : Bool) (cn : Node) (k : Nat) :
    isPlain E.m.isSwitch E.next fromFor cn k = (fromFor && decide (k = 1) && !E.producedSwitch cn) := by
  unfold isPlain Env.producedSwitch
  change _ = (fromFor && decide (k = 1) && !(match after E.next cn with
    | some exit => E.m.isSwitch exit.block
    | none => true))
  cases after E.next cn <;> cases fromFor <;> by_cases h : k = 1 <;> simp [h]

mutual
theorem does_expr (E : Env) : ∀ e, Does (visitExpr E e) (dueExpr E.m.isSwitch E.next e)
  | .ite n cnd thn els => by
    rw [visitExpr.eq_def, dueExpr]
    dsimp only
    exact does_branch E _ _ _ _ (does_expr E cnd) (does_seq (does_under _ (does_expr E thn)) (does_else E els))
  | .whileLoop n cnd thn els => by
    rw [visitExpr, dueExpr]
    exact does_branch E _ _ _ _ (does_expr E cnd)
      (does_seq (does_under _ (does_expr E thn)) (does_under _ (does_expr E els)))
  | .forLoop n cnd nothing item => by
    rw [visitExpr, dueExpr]
    exact does_branch E _ _ _ _ (does_expr E cnd) (does_seq (does_dueArm E nothing) (does_dueArm E item))
  | .mtch n fromFor cnd arms => by
    rw [visitExpr, dueExpr, isPlain_eq]
    split
    · exact does_seq (does_expr E cnd) (does_arms E arms)
    · exact does_branch E _ _ _ _ (does_expr E cnd) (does_arms E arms)
  | .other n parts => by
    rw [visitExpr, dueExpr]
    exact does_parts E parts
theorem does_else (E : Env) : ∀ e, Does (visitElse E e) (dueElse E.m.isSwitch E.next e)
  | none => by rw [visitElse, dueElse]; exact does_ok
  | some e => by rw [visitElse, dueElse]; exact does_under _ (does_expr E e)
theorem does_opt (E : Env) : ∀ e, Does (visitOpt E e) (dueOpt E.m.isSwitch E.next e)
  | none => by rw [visitOpt, dueOpt]; exact does_ok
  | some e => by rw [visitOpt, dueOpt]; exact does_expr E e
theorem does_parts (E : Env) : ∀ e, Does (visitParts E e) (dueParts E.m.isSwitch E.next e)
  | [] => by rw [visitParts, dueParts]; exact does_ok
  | p :: r => by rw [visitParts, dueParts]; exact does_seq (does_part E p) (does_parts E r)
theorem does_part (E : Env) : ∀ e, Does (visitPart E e) (duePart E.m.isSwitch E.next e)
  | .expr e => by rw [visitPart, duePart]; exact does_expr E e
  | .block b => by rw [visitPart, duePart]; exact does_block E b
  | .body e => by rw [visitPart, duePart]; exact does_seq (does_expr E e) (does_step E _)
theorem does_arms (E : Env) : ∀ e, Does (visitArms E e) (dueArms E.m.isSwitch E.next e)
  | [] => by rw [visitArms, dueArms]; exact does_ok
  | p :: r => by rw [visitArms, dueArms]; exact does_seq (does_dueArm E p) (does_arms E r)
theorem does_dueArm (E : Env) : ∀ e, Does (visitArm E e) (dueArm E.m.isSwitch E.next e)
  | .mk n pat none body => by
    rw [visitArm, dueArm]
    exact does_arm E n body.node (g := none) (by simp) (fun _ => rfl) (does_expr E body)
  | .mk n pat (some g) body => by
    rw [visitArm, dueArm]
    exact does_arm E n body.node (g := some (visitExpr E g)) (by simpa using does_expr E g) (by simp)
      (does_expr E body)
theorem does_stmts (E : Env) : ∀ e, Does (visitStmts E e) (dueStmts E.m.isSwitch E.next e)
  | [] => by rw [visitStmts, dueStmts]; exact does_ok
  | p :: r => by rw [visitStmts, dueStmts]; exact does_seq (does_dueStmt E p) (does_stmts E r)
theorem does_dueStmt (E : Env) : ∀ e, Does (visitStmt E e) (dueStmt E.m.isSwitch E.next e)
  | .lt n locals init els => by
    rw [visitStmt, dueStmt]
    exact does_stmt E _ _ (does_seq (does_opt E init) (does_optBlock E els))
  | .expr n e => by rw [visitStmt, dueStmt]; exact does_stmt E _ _ (does_expr E e)
  | .item n bodies => by rw [visitStmt, dueStmt]; exact does_stmt E _ _ (does_parts E bodies)
theorem does_optBlock (E : Env) : ∀ e, Does (visitOptBlock E e) (dueOptBlock E.m.isSwitch E.next e)
  | none => by rw [visitOptBlock, dueOptBlock]; exact does_ok
  | some b => by rw [visitOptBlock, dueOptBlock]; exact does_block E b
theorem does_block (E : Env) : ∀ e, Does (visitBlock E e) (dueBlock E.m.isSwitch E.next e)
  | .mk n stmts none => by rw [visitBlock, dueBlock]; exact does_scope (does_stmts E stmts)
  | .mk n stmts (some e) => by
    rw [visitBlock, dueBlock]
    exact does_scope (does_seq (does_stmts E stmts) (does_seq (does_expr E e) (does_step E _)))
end

theorem does_body (E : Env) (e : Expr) : Does (visitBody E e) (dueBody E.m.isSwitch E.next e) := by
  rw [visitBody, dueBody]
  exact does_seq (does_expr E e) (does_step E _)

/-- If no error is reported, the steps and branches asked for are those that are due, in that order. -/
theorem C88_all (E : Env) (value : Expr) {v : V} (h : visitBody E value V.make = .ok v) (hf : v.fatal = []) :
    v.calls.filterMap Call.due = (dueBody E.m.isSwitch E.next value).filter (fun d => d ≠ .guard) := by
  obtain ⟨w', _, hc, _, hw⟩ := does_body E value V.make v h
  obtain ⟨_, rfl⟩ := hw hf
  rw [show v.calls.filterMap Call.due = v.dues from rfl, hc]
  simp [V.dues, V.make, isGuard]

/-- Whatever happens, nothing else is asked for, and the order is kept. -/
theorem C88_only (E : Env) (value : Expr) {v : V} (h : visitBody E value V.make = .ok v) :
    (v.calls.filterMap Call.due).Sublist (dueBody E.m.isSwitch E.next value) := by
  obtain ⟨w', hs, hc, _, _⟩ := does_body E value V.make v h
  rw [show v.calls.filterMap Call.due = v.dues from rfl, hc]
  exact (List.filter_sublist).trans hs

/-- A body with a guard that is due is never given steps. -/
theorem C86_guard (E : Env) (value : Expr) (hg : Due.guard ∈ dueBody E.m.isSwitch E.next value) :
    ∀ f locals, compute E value ≠ .steps f locals := by
  intro f locals hc
  unfold compute at hc
  cases hv : visitBody E value V.make with
  | error e => rw [hv] at hc; exact absurd hc (by simp)
  | ok v =>
    rw [hv] at hc
    dsimp only at hc
    obtain ⟨w', _, _, hu, hw⟩ := does_body E value V.make v hv
    by_cases h0 : v.unsupported = 0
    · by_cases hf : v.fatal = []
      · obtain ⟨_, rfl⟩ := hw hf
        have : 0 < (dueBody E.m.isSwitch E.next value).countP isGuard :=
          List.countP_pos_iff.2 ⟨_, hg, by simp [isGuard]⟩
        change v.unsupported = 0 + _ at hu
        omega
      · rw [if_neg (by simpa using h0), if_pos hf] at hc
        exact absurd hc (by simp)
    · rw [if_pos h0] at hc
      exact absurd hc (by simp)

/-- A body is reported as unsupported only if a guard is due, and always if one is due and nothing else is
wrong. -/
theorem C86_unsupported (E : Env) (value : Expr) :
    (compute E value = .unsupported → Due.guard ∈ dueBody E.m.isSwitch E.next value) ∧
    (Due.guard ∈ dueBody E.m.isSwitch E.next value → ∀ v, visitBody E value V.make = .ok v → v.fatal = [] →
      compute E value = .unsupported) := by
  constructor
  · intro hc
    unfold compute at hc
    cases hv : visitBody E value V.make with
    | error e => rw [hv] at hc; exact absurd hc (by simp)
    | ok v =>
      rw [hv] at hc
      dsimp only at hc
      obtain ⟨w', hs, _, hu, hw⟩ := does_body E value V.make v hv
      by_cases h0 : v.unsupported = 0
      · rw [if_neg (by simpa using h0)] at hc
        split at hc
        · exact absurd hc (by simp)
        · split at hc <;> exact absurd hc (by simp)
      · have : 0 < w'.countP isGuard := by
          change v.unsupported = 0 + _ at hu
          omega
        obtain ⟨d, hd, hg⟩ := List.countP_pos_iff.1 this
        simp only [isGuard, decide_eq_true_eq] at hg
        subst hg
        exact hs.subset hd
  · intro hg v hv hf
    obtain ⟨w', _, _, hu, hw⟩ := does_body E value V.make v hv
    obtain ⟨_, rfl⟩ := hw hf
    have : 0 < (dueBody E.m.isSwitch E.next value).countP isGuard :=
      List.countP_pos_iff.2 ⟨_, hg, by simp [isGuard]⟩
    change v.unsupported = 0 + _ at hu
    unfold compute
    rw [hv]
    dsimp only
    rw [if_pos (by omega)]

end Verif.HirSteps
