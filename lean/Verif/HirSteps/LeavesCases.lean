import Verif.HirSteps.Leaves
/-!
# C124: a `while` loop with a `break`, and an early return two arms deep
-/
namespace Verif.HirSteps

open Verif.Cfg Verif.Segments Verif.Graph

/-! ## Deciding the conditions on the graph -/

theorem splits_of {b : Body} (hv : Valid b) {l' : Loc} {a : Nat}
    (h : (b.mapper.isSwitch a && dominates b.succ b.length a l'.block && decide (l'.block ≠ a) &&
      (List.range b.length).all (fun j => decide (j = a) || !dominates b.succ b.length a j ||
        !isPostdominatedBy b.succ b.length b.returns a j)) = true) : Splits b l' a := by
  simp only [Bool.and_eq_true, decide_eq_true_eq, dominates_iff hv] at h
  obtain ⟨⟨⟨h1, h2⟩, h3⟩, h4⟩ := h
  refine ⟨h1, h2, h3, fun j hj hd hp => ?_⟩
  obtain ⟨hjl, hal⟩ := dom_lt hv hd
  have := List.all_eq_true.1 h4 j (List.mem_range.2 hjl)
  rw [(dominates_iff hv).2 hd, (C37_postdominates (succ_lt hv) _ hal hjl).2 hp] at this
  simp [hj] at this

theorem toward_of {b : Body} (hv : Valid b) {l l' : Loc} (q : Nat)
    (h : (dominates b.succ b.length l.block l'.block && decide (l'.block ≠ l.block) &&
      decide (q < (b.succ (switchOf b.mapper l)).length) &&
      (List.range (b.succ (switchOf b.mapper l)).length).all (fun x => decide (x = q) ||
        !dominates b.succ b.length ((b.succ (switchOf b.mapper l)).getD x 0) l'.block)) = true) : Toward b l l' := by
  simp only [Bool.and_eq_true, decide_eq_true_eq, dominates_iff hv] at h
  obtain ⟨⟨⟨h1, h2⟩, h3⟩, h4⟩ := h
  refine ⟨h1, h2, q, h3, fun x t hx hne hd => ?_⟩
  have hlt := (List.getElem?_eq_some_iff.1 hx).1
  have := List.all_eq_true.1 h4 x (List.mem_range.2 hlt)
  rw [List.getD_eq_getElem?_getD, hx, Option.getD_some, (dominates_iff hv).2 hd] at this
  simp [hne] at this

theorem not_dominates_of {b : Body} (hv : Valid b) {d x : Nat} (h : dominates b.succ b.length d x = false) :
    ¬ Dominates b.succ d x := fun hd => by
  rw [(dominates_iff hv).2 hd] at h
  exact absurd h (by simp)

/-! ## `let a; while c { s; if d { break; } q; } r;` -/

namespace LeavesCases

def node (entry exit : Option Loc) (span : Nat) : Node := ⟨entry, exit, span, 100 + span, 200 + span⟩
def at' (b i span : Nat) : Node := node (some ⟨b, i⟩) (some ⟨b, i⟩) span

/-- the blocks of the function; the false edges are those of the loop -/
def body : Body := [⟨1, .goto 1, false⟩, ⟨0, .falseUnwind 2, false⟩, ⟨1, .switchInt [6, 3], false⟩,
  ⟨2, .switchInt [4, 5], false⟩, ⟨3, .goto 1, false⟩, ⟨1, .goto 7, false⟩, ⟨1, .goto 7, false⟩, ⟨2, .ret, false⟩]

def cond : Expr := .ite (node (some ⟨3, 1⟩) none 15) (.other (at' 3 1 16) [])
  (.other (node (some ⟨5, 0⟩) (some ⟨5, 1⟩) 17) [.block (.mk (node (some ⟨5, 0⟩) (some ⟨5, 1⟩) 18)
    [.expr (node (some ⟨5, 0⟩) (some ⟨5, 1⟩) 19) (.other (node (some ⟨5, 0⟩) (some ⟨5, 1⟩) 20) [])] none)]) none

/-- the body of the loop, with something after the conditional or not -/
def inner (post : List Stmt) : Expr := .other (node (some ⟨3, 0⟩) none 10) [.block (.mk (node (some ⟨3, 0⟩) none 11)
  (.expr (at' 3 0 12) (.other (at' 3 0 13) []) :: .expr (node (some ⟨3, 1⟩) none 14) cond :: post) none)]

def loop (post : List Stmt) : Expr := .whileLoop (node (some ⟨2, 0⟩) none 8) (.other (at' 2 0 9) []) (inner post)
  (.other (node (some ⟨6, 0⟩) (some ⟨6, 1⟩) 23) [.block (.mk (node (some ⟨6, 0⟩) (some ⟨6, 1⟩) 24)
    [.expr (node (some ⟨6, 0⟩) (some ⟨6, 1⟩) 25) (.other (node (some ⟨6, 0⟩) (some ⟨6, 1⟩) 26) [])] none)])

def value (post : List Stmt) : Expr := .other (node (some ⟨0, 0⟩) (some ⟨7, 2⟩) 1)
  [.block (.mk (node (some ⟨0, 0⟩) (some ⟨7, 1⟩) 2)
    [.lt (at' 0 0 3) [4] (some (.other (at' 0 0 5) [])) none, .expr (node (some ⟨0, 1⟩) none 6) (loop post),
      .expr (at' 7 0 27) (.other (at' 7 0 28) [])] none)]

def q : Stmt := .expr (at' 4 1 21) (.other (at' 4 1 22) [])

theorem valid : Valid body := valid_of (by decide) (by decide)

theorem leaves : Leaves body ⟨4, 2⟩ [] false (.part (.body (value [q]))) := by
  have hin : Leaves body ⟨4, 2⟩ [] true (.expr (inner [q])) := by
    refine .inside List.mem_cons_self (.here (pre := [.stmt (.expr (at' 3 0 12) (.other (at' 3 0 13) []))])
      (x := .stmt (.expr (node (some ⟨3, 1⟩) none 14) cond)) (mid := []) (y := .stmt q) (post := []) (e := cond)
      (l := ⟨3, 2⟩) rfl (.cons List.mem_cons_self (.refl _)) rfl
      (splits_of valid (by decide +kernel)) (by simp) ?_)
    exact ⟨.after (at' 4 1 21), .cons (List.mem_cons_of_mem _ List.mem_cons_self) (.refl _),
      .inl ⟨_, rfl, by decide +kernel⟩⟩
  refine .inside (x := .expr (value [q])) List.mem_cons_self (.inside List.mem_cons_self
    (.inside (x := .stmt (.expr (node (some ⟨0, 1⟩) none 6) (loop [q]))) (List.mem_cons_of_mem _ List.mem_cons_self)
      (.inside (x := .expr (loop [q])) List.mem_cons_self ?_)))
  exact .arm (l := ⟨2, 1⟩) (j := 7) (x := inner [q]) rfl List.mem_cons_self
    (toward_of valid 1 (by decide +kernel)) (by simp) (by decide +kernel)
    (not_dominates_of valid (by decide +kernel)) hin

theorem straight (post : List Stmt) (hp : post = [] ∨ post = [q]) : ∀ l,
    Due.fork l ∈ dueBody body.mapper.isSwitch body.locationSuccessor (value post) →
      Dominates body.succ l.block (switchOf body.mapper l) := by
  have : ∀ post, post = [] ∨ post = [q] → ∀ d ∈ dueBody body.mapper.isSwitch body.locationSuccessor (value post),
      (match d with | .fork l => dominates body.succ body.length l.block (switchOf body.mapper l) | _ => true) = true := by
    rintro post (rfl | rfl) <;> decide +kernel
  intro l hl
  exact (dominates_iff valid).1 (this post hp _ hl)

/-- The function with the loop gets no steps. -/
theorem C124_while_break (fuel : Nat) (order : List (Loc × Nat) → List (Loc × Nat)) :
    ∀ f locals, compute (.ofBody body fuel order) (value [q]) ≠ .steps f locals :=
  C124_no_steps valid fuel order (straight _ (.inr rfl)) leaves

/-! ## `if a { if c { if d { return; } q; } s; } r;` -/

def deepBody : Body := [⟨1, .switchInt [7, 1], false⟩, ⟨1, .switchInt [5, 2], false⟩, ⟨1, .switchInt [4, 3], false⟩,
  ⟨1, .goto 8, false⟩, ⟨3, .goto 6, false⟩, ⟨1, .goto 6, false⟩, ⟨2, .goto 9, false⟩, ⟨1, .goto 9, false⟩,
  ⟨0, .ret, false⟩, ⟨2, .goto 8, false⟩]

def braces (n : Node) (ss : List Stmt) : Expr := .other n [.block (.mk n ss none)]
def leaf (b i span : Nat) : Stmt := .expr (at' b i span) (.other (at' b i span) [])

def ifD : Expr := .ite (node (some ⟨2, 0⟩) none 10) (.other (at' 2 0 11) []) (braces (at' 3 0 12) [leaf 3 0 13]) none
def thenC : Expr := braces (node (some ⟨2, 0⟩) none 14) [.expr (node (some ⟨2, 0⟩) none 15) ifD, leaf 4 1 16]
def ifC : Expr := .ite (node (some ⟨1, 0⟩) none 17) (.other (at' 1 0 18) []) thenC none
def thenA : Expr := braces (node (some ⟨1, 0⟩) none 19) [.expr (node (some ⟨1, 0⟩) none 20) ifC, leaf 6 0 21]
def ifA : Expr := .ite (node (some ⟨0, 0⟩) none 22) (.other (at' 0 0 23) []) thenA none
def deepValue : Expr := braces (node (some ⟨0, 0⟩) (some ⟨8, 0⟩) 24)
  [.expr (node (some ⟨0, 0⟩) none 25) ifA, leaf 9 0 26]

theorem valid_deep : Valid deepBody := valid_of (by decide) (by decide)

theorem leaves_deep : Leaves deepBody ⟨4, 2⟩ [] false (.part (.body deepValue)) := by
  have h1 : Leaves deepBody ⟨4, 2⟩ [1] true (.expr thenC) := by
    refine .inside List.mem_cons_self (.here (pre := []) (x := .stmt (.expr (node (some ⟨2, 0⟩) none 15) ifD)) (mid := [])
      (y := .stmt (leaf 4 1 16)) (post := []) (e := ifD) (l := ⟨2, 1⟩) rfl (.cons List.mem_cons_self (.refl _)) rfl
      (splits_of valid_deep (by decide +kernel)) (by simp) ?_)
    exact ⟨.after (at' 4 1 16), .cons (List.mem_cons_of_mem _ List.mem_cons_self) (.refl _),
      .inl ⟨_, rfl, by decide +kernel⟩⟩
  have h2 : Leaves deepBody ⟨4, 2⟩ [] true (.expr ifC) :=
    .armOfSplit (l := ⟨1, 1⟩) (x := thenC) rfl List.mem_cons_self (toward_of valid_deep 1 (by decide +kernel)) (by simp)
      (splits_of valid_deep (by decide +kernel)) h1
  have h3 : Leaves deepBody ⟨4, 2⟩ [] true (.expr thenA) :=
    .inside List.mem_cons_self (.inside (x := .stmt (.expr (node (some ⟨1, 0⟩) none 20) ifC)) List.mem_cons_self
      (.inside List.mem_cons_self h2))
  have h4 : Leaves deepBody ⟨4, 2⟩ [] false (.expr ifA) :=
    .arm (l := ⟨0, 1⟩) (j := 8) (x := thenA) rfl List.mem_cons_self (toward_of valid_deep 1 (by decide +kernel)) (by simp)
      (by decide +kernel) (not_dominates_of valid_deep (by decide +kernel)) h3
  exact .inside (x := .expr deepValue) List.mem_cons_self (.inside List.mem_cons_self
    (.inside (x := .stmt (.expr (node (some ⟨0, 0⟩) none 25) ifA)) List.mem_cons_self (.inside List.mem_cons_self h4)))

/-- The function with the early return two arms deep gets no steps. -/
theorem C124_deep_return (fuel : Nat) (order : List (Loc × Nat) → List (Loc × Nat)) :
    ∀ f locals, compute (.ofBody deepBody fuel order) deepValue ≠ .steps f locals := by
  refine C124_no_steps valid_deep fuel order ?_ leaves_deep
  have : ∀ d ∈ dueBody deepBody.mapper.isSwitch deepBody.locationSuccessor deepValue,
      (match d with
        | .fork l => dominates deepBody.succ deepBody.length l.block (switchOf deepBody.mapper l)
        | _ => true) = true := by decide +kernel
  intro l hl
  exact (dominates_iff valid_deep).1 (this _ hl)

end LeavesCases
end Verif.HirSteps
