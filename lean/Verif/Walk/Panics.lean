import Verif.Walk.Props
/-!
# C128: functions in which an arm of a conditional panics

A block that never gets to the `return` is post-dominated by nothing (`AllPostDominators`, post_dominators.rs:12-42).
Two places of the stepper ask for post-dominance of *everything* in a set of blocks: the exit of a source node
(ir_mapper/mod.rs:226-238) and the join of a branch, for everything the switch dominates
(segmented_mir.rs:467-514).  So one panic anywhere in a node leaves the node without an exit, and one panic anywhere
behind a conditional leaves the conditional without a join.

Here is a language of statements and conditionals whose arms may panic, its translation to blocks and source, and the
steps that are made.

Simplifications.
* An arm is one block of plain statements.  An arm that panics ends with a call that does not return; the blocks of
  unwinding are left out (the stepper removes them).
* Not both arms of a conditional panic.
* A condition is one statement.
-/
namespace Verif.Walk.Panics

open Verif.Cfg Verif.Segments Verif.Graph Verif.HirSteps Verif.Walk
open Verif.HirSteps.Prog (Slice Slice.tail next_inside filter_one)

/-! ## Any function -/

/-- A switch that dominates a block from which some `return` is never reached has no join. -/
theorem C128_no_join {b : Body} (hv : Valid b) (hret : b.returns ≠ []) {a x r : Nat} (hr : r ∈ b.returns)
    (hd : Dominates b.succ a x) (hx : ¬ Reach b.succ x r) : leastPostDominator b a = none := by
  cases h : leastPostDominator b a with
  | none => rfl
  | some j =>
    obtain ⟨⟨m, _, h2⟩, _⟩ := (C68_join hv hret a j).1 h
    exact absurd (h2 x hd r hr).1 hx

/-- A node of the source with a location in a block from which some `return` is never reached has no exit. -/
theorem C128_no_exit {b : Body} (hv : Valid b) {locs : List Loc} (hl : ∀ l ∈ locs, l.block < b.length) {o : Ordered}
    (h : b.mirLocations locs = some o) {l : Loc} (hm : l ∈ o.values) {r : Nat} (hr : r ∈ b.returns)
    (hx : ¬ Reach b.succ l.block r) : o.exitLocation = none := by
  cases he : o.exitBlock with
  | none =>
    unfold Ordered.exitLocation
    rw [he]
  | some e => exact absurd ((C39_exit hv hl h he).1 l hm r hr).1 hx

/-! ## Programs -/

/-- Which arms of a conditional go on. -/
inductive Fate
  | both
  | onlyElse
  | onlyThen
  deriving DecidableEq, Repr

/-- The `then` arm panics. -/
def Fate.thenDead : Fate → Bool
  | .onlyElse => true
  | _ => false

/-- The `else` arm panics. -/
def Fate.elseDead : Fate → Bool
  | .onlyThen => true
  | _ => false

/-- Statements.  The numbers are spans; an arm is the list of the spans of its statements. -/
inductive Code
  | fin
  /-- `x = 1;` -/
  | act (sp : Nat) (r : Code)
  /-- `if c { t } else { e }`; shown are the condition and the starts of the two blocks; `hi` is the end of the whole -/
  | ite (sp lt le hi : Nat) (t e : List Nat) (x : Fate) (r : Code)
  /-- `if c { t }`; shown are the condition, the start of the block and the end of the whole; the arm may panic -/
  | only (sp lt hi : Nat) (t : List Nat) (dead : Bool) (r : Code)
  deriving DecidableEq, Repr

/-- Somewhere there is a panic. -/
def Code.panics : Code → Bool
  | .fin => false
  | .act _ r => r.panics
  | .ite _ _ _ _ _ _ x r => x.thenDead || x.elseDead || r.panics
  | .only _ _ _ _ dead r => dead || r.panics

/-- The number of blocks. -/
def Code.size : Code → Nat
  | .fin => 1
  | .act _ r => r.size
  | .ite _ _ _ _ _ _ _ r => r.size + 3
  | .only _ _ _ _ _ r => r.size + 3

/-- The block of an arm: it goes to `j`, or calls what does not return. -/
def armBlock (dead : Bool) (t : List Nat) (j : Nat) : Cfg.Block :=
  if dead then ⟨t.length, .other [], false⟩ else ⟨t.length + 1, .goto j, false⟩

/-- The blocks, if the first one has the number `k` and already contains `n` statements. -/
def Code.code : Code → Nat → Nat → List Cfg.Block
  | .fin, _, n => [⟨n + 1, .ret, false⟩]
  | .act _ r, k, n => r.code k (n + 1)
  | .ite _ _ _ _ t e x r, k, n =>
    ⟨n + 1, .switchInt [k + 1, k + 2], false⟩ :: armBlock x.elseDead e (k + 3) :: armBlock x.thenDead t (k + 3) ::
      r.code (k + 3) 0
  | .only _ _ _ t dead r, k, n =>
    ⟨n + 1, .switchInt [k + 1, k + 2], false⟩ :: armBlock false [] (k + 3) :: armBlock dead t (k + 3) ::
      r.code (k + 3) 0

/-- The body of the function. -/
def Code.body (p : Code) : Body := p.code 0 0

/-- Where the final statement is. -/
def Code.finAt : Code → Nat → Nat → Loc
  | .fin, k, n => ⟨k, n⟩
  | .act _ r, k, n => r.finAt k (n + 1)
  | .ite _ _ _ _ _ _ _ r, k, _ => r.finAt (k + 3) 0
  | .only _ _ _ _ _ r, k, _ => r.finAt (k + 3) 0

/-! ## The source -/

/-- The exit of a node that lies in an arm: there is none if the arm panics (`C128_no_exit`). -/
def exitIn (dead : Bool) (l : Loc) : Option Loc := if dead then none else some l

/-- The statements of an arm, from the `n`-th one on; if the arm panics, the panic comes last. -/
def armStmts (dead : Bool) : List Nat → Nat → Nat → List Stmt
  | [], k, n => if dead then [.expr ⟨some ⟨k, n⟩, none, 0, 0, 0⟩ (.other ⟨some ⟨k, n⟩, none, 0, 0, 0⟩ [])] else []
  | sp :: t, k, n => .expr ⟨some ⟨k, n⟩, exitIn dead ⟨k, n⟩, sp, 0, 0⟩ (.other ⟨some ⟨k, n⟩, exitIn dead ⟨k, n⟩, sp, 0, 0⟩ []) ::
      armStmts dead t k (n + 1)

/-- The block of an arm, as an expression. -/
def armExpr (dead : Bool) (t : List Nat) (k lo : Nat) : Expr :=
  .other ⟨some ⟨k, 0⟩, exitIn dead ⟨k, t.length⟩, 0, lo, 0⟩
    [.block (.mk ⟨some ⟨k, 0⟩, exitIn dead ⟨k, t.length⟩, 0, lo, 0⟩ (armStmts dead t k 0) none)]

/-- The source, as the statements of a block. -/
def Code.stmts : Code → Nat → Nat → List Stmt
  | .fin, _, _ => []
  | .act sp r, k, n => .expr (one ⟨k, n⟩ sp) (.other (one ⟨k, n⟩ sp) []) :: r.stmts k (n + 1)
  | .ite sp lt le hi t e x r, k, n =>
    .expr ⟨some ⟨k, n⟩, none, 0, 0, 0⟩ (.ite ⟨some ⟨k, n⟩, none, 0, 0, hi⟩ (.other (one ⟨k, n⟩ sp) [])
      (armExpr x.thenDead t (k + 2) lt) (some (armExpr x.elseDead e (k + 1) le))) :: r.stmts (k + 3) 0
  | .only sp lt hi t dead r, k, n =>
    .expr ⟨some ⟨k, n⟩, none, 0, 0, 0⟩ (.ite ⟨some ⟨k, n⟩, none, 0, 0, hi⟩ (.other (one ⟨k, n⟩ sp) [])
      (armExpr dead t (k + 2) lt) none) :: r.stmts (k + 3) 0

/-- The source of the function: it has no exit if there is a panic (`C128_no_exit`). -/
def Code.source (p : Code) (sp : Nat) : Expr :=
  .other ⟨some ⟨0, 0⟩, exitIn p.panics (p.finAt 0 0), sp, 0, 0⟩
    [.block (.mk ⟨some ⟨0, 0⟩, exitIn p.panics (p.finAt 0 0), sp, 0, 0⟩ (p.stmts 0 0) none)]

/-! ## The steps -/

/-- The steps of an arm: one for each statement, none if the arm panics. -/
def armSteps (dead : Bool) : List Nat → Nat → Nat → List Step
  | [], _, _ => []
  | sp :: t, k, n => if dead then [] else (⟨k, n⟩, ⟨k, n + 1⟩, sp) :: armSteps dead t k (n + 1)

/-- Where the walk goes on after a conditional: where its arms come together; but at its switch if there is a panic in
it or behind it. -/
def resume (panics : Bool) (k n : Nat) : Loc := if panics then ⟨k, n + 1⟩ else ⟨k + 3, 0⟩

/-- The steps if the first one begins at `c`. -/
def Code.expected : Code → Nat → Nat → Loc → List Step
  | .fin, _, _, _ => []
  | .act sp r, k, n, c => (c, ⟨k, n + 1⟩, sp) :: r.expected k (n + 1) ⟨k, n + 1⟩
  | .ite sp lt le hi t e x r, k, n, c => (c, ⟨k, n + 1⟩, sp) :: (⟨k, n + 1⟩, ⟨k + 1, 0⟩, le) ::
      (⟨k, n + 1⟩, ⟨k + 2, 0⟩, lt) :: (armSteps x.thenDead t (k + 2) 0 ++ (armSteps x.elseDead e (k + 1) 0 ++
        r.expected (k + 3) 0 (resume (Code.ite sp lt le hi t e x r).panics k n)))
  | .only sp lt hi t dead r, k, n, c => (c, ⟨k, n + 1⟩, sp) :: (⟨k, n + 1⟩, ⟨k + 1, 0⟩, hi) ::
      (⟨k, n + 1⟩, ⟨k + 2, 0⟩, lt) :: (armSteps dead t (k + 2) 0 ++
        r.expected (k + 3) 0 (resume (Code.only sp lt hi t dead r).panics k n))

/-- The branches. -/
def Code.joins : Code → Nat → Nat → List Fork
  | .fin, _, _ => []
  | .act _ r, k, n => r.joins k (n + 1)
  | .ite sp lt le hi t e x r, k, n => (⟨k, n + 1⟩, resume (Code.ite sp lt le hi t e x r).panics k n,
      [(⟨k, n + 1⟩, ⟨k + 1, 0⟩, le), (⟨k, n + 1⟩, ⟨k + 2, 0⟩, lt)]) :: r.joins (k + 3) 0
  | .only sp lt hi t dead r, k, n => (⟨k, n + 1⟩, resume (Code.only sp lt hi t dead r).panics k n,
      [(⟨k, n + 1⟩, ⟨k + 1, 0⟩, hi), (⟨k, n + 1⟩, ⟨k + 2, 0⟩, lt)]) :: r.joins (k + 3) 0

/-- Where the walk is in the end. -/
def Code.last : Code → Nat → Nat → Loc → Loc
  | .fin, _, _, c => c
  | .act _ r, k, n, _ => r.last k (n + 1) ⟨k, n + 1⟩
  | .ite sp lt le hi t e x r, k, n, _ => r.last (k + 3) 0 (resume (Code.ite sp lt le hi t e x r).panics k n)
  | .only sp lt hi t dead r, k, n, _ => r.last (k + 3) 0 (resume (Code.only sp lt hi t dead r).panics k n)

theorem Code.last_fin : ∀ (p : Code) (k n : Nat), p.panics = false → p.last k n ⟨k, n⟩ = p.finAt k n
  | .fin, _, _, _ => rfl
  | .act _ r, k, n, h => r.last_fin k (n + 1) h
  | .ite sp lt le hi t e x r, k, n, h => by
    unfold Code.last Code.finAt
    rw [h]
    unfold Code.panics at h
    rw [Bool.or_eq_false_iff] at h
    exact r.last_fin (k + 3) 0 h.2
  | .only sp lt hi t dead r, k, n, h => by
    unfold Code.last Code.finAt
    rw [h]
    unfold Code.panics at h
    rw [Bool.or_eq_false_iff] at h
    exact r.last_fin (k + 3) 0 h.2

/-! ## The graph -/

theorem Code.size_pos : ∀ p : Code, 0 < p.size
  | .fin => Nat.one_pos
  | .act _ r => r.size_pos
  | .ite .. => Nat.succ_pos _
  | .only .. => Nat.succ_pos _

theorem Code.code_length : ∀ (p : Code) (k n : Nat), (p.code k n).length = p.size
  | .fin, _, _ => rfl
  | .act _ r, k, n => r.code_length k (n + 1)
  | .ite _ _ _ _ _ _ _ r, k, n => by simp [Code.code, Code.size, r.code_length]
  | .only _ _ _ _ _ r, k, n => by simp [Code.code, Code.size, r.code_length]

/-- What is known about a block of a body of `size` blocks. -/
structure Sound (size i : Nat) (d : Cfg.Block) : Prop where
  kept : d.cleanup = false
  reachable : d.term ≠ .unreachable
  real : ∀ r i, d.term ≠ .falseEdge r i
  up : ∀ t ∈ d.term.targets, i < t ∧ t < size
  ret : d.term = .ret ↔ i + 1 = size

theorem armBlock_sound {dead : Bool} {t : List Nat} {j size i : Nat} (h1 : i < j) (h2 : j < size) :
    Sound size i (armBlock dead t j) := by
  unfold armBlock
  cases dead
  · refine ⟨rfl, by simp, by simp, ?_, ?_⟩
    · intro x hx
      simp only [Bool.false_eq_true, if_false, Term.targets, List.mem_singleton] at hx
      omega
    · simp only [Bool.false_eq_true, if_false, reduceCtorEq, false_iff]
      omega
  · refine ⟨rfl, by simp, by simp, ?_, ?_⟩
    · intro x hx
      simp [Term.targets] at hx
    · simp only [if_true, reduceCtorEq, false_iff]
      omega

theorem switch_sound {n k size : Nat} (h : k + 3 < size) : Sound size k ⟨n, .switchInt [k + 1, k + 2], false⟩ := by
  refine ⟨rfl, by simp, by simp, ?_, ?_⟩
  · intro x hx
    simp only [Term.targets, List.mem_cons, List.not_mem_nil, or_false] at hx
    omega
  · simp only [reduceCtorEq, false_iff]
    omega

theorem Code.sound : ∀ (p : Code) (k n i : Nat) (d : Cfg.Block), (p.code k n)[i]? = some d → Sound (k + p.size) (k + i) d
  | .fin, k, n, i, d, h => by
    match i with
    | 0 =>
      cases h
      refine ⟨rfl, by simp, by simp, by simp [Term.targets], ?_⟩
      simp [Code.size]
    | i + 1 => simp [Code.code] at h
  | .act _ r, k, n, i, d, h => r.sound k (n + 1) i d h
  | .ite _ _ _ _ t e x r, k, n, i, d, h => by
    have hp := r.size_pos
    match i with
    | 0 =>
      cases h
      exact switch_sound (by simp only [Code.size]; omega)
    | 1 =>
      cases h
      exact armBlock_sound (by omega) (by simp only [Code.size]; omega)
    | 2 =>
      cases h
      exact armBlock_sound (by omega) (by simp only [Code.size]; omega)
    | i + 3 =>
      have := r.sound (k + 3) 0 i d h
      rw [show k + 3 + r.size = k + (Code.ite _ _ _ _ t e x r).size by simp only [Code.size]; omega,
        show k + 3 + i = k + (i + 3) by omega] at this
      exact this
  | .only _ _ _ t x r, k, n, i, d, h => by
    have hp := r.size_pos
    match i with
    | 0 =>
      cases h
      exact switch_sound (by simp only [Code.size]; omega)
    | 1 =>
      cases h
      exact armBlock_sound (by omega) (by simp only [Code.size]; omega)
    | 2 =>
      cases h
      exact armBlock_sound (by omega) (by simp only [Code.size]; omega)
    | i + 3 =>
      have := r.sound (k + 3) 0 i d h
      rw [show k + 3 + r.size = k + (Code.only _ _ _ t x r).size by simp only [Code.size]; omega,
        show k + 3 + i = k + (i + 3) by omega] at this
      exact this

/-- What is known about the whole. -/
structure Whole (b : Body) (ret : Nat) : Prop where
  valid : Valid b
  fine : Fine b
  returns : b.returns = [ret]
  up : ∀ u v, v ∈ b.succ u → u < v
  real : ∀ u, ¬ EndsInFalseEdge b u
  stop : b.succ ret = []
  length : b.length = ret + 1

theorem body_length (p : Code) : p.body.length = p.size := p.code_length 0 0

theorem body_sound (p : Code) {u : Nat} {d : Cfg.Block} (h : p.body[u]? = some d) : Sound p.size u d := by
  have := p.sound 0 0 u d h
  simpa using this

theorem body_fine (p : Code) : Fine p.body where
  kept := by
    intro d hd
    obtain ⟨u, hu⟩ := List.mem_iff_getElem?.1 hd
    exact ⟨(body_sound p hu).kept, (body_sound p hu).reachable⟩
  imaginary := by
    intro t r i h
    cases hd : p.body[t]? with
    | none =>
      unfold Body.term at h
      rw [hd] at h
      simp at h
    | some d =>
      rw [term_of hd] at h
      exact absurd h ((body_sound p hd).real r i)

theorem body_whole (p : Code) : Whole p.body (p.size - 1) where
  valid := by
    refine ⟨?_, ?_, ?_⟩
    · rintro a t ⟨d, hd, ht⟩
      rw [body_length]
      exact ((body_sound p hd).up t ht).2
    · intro a d t e hd hc
      rw [(body_sound p hd).kept] at hc
      simp at hc
    · rw [body_length]
      exact p.size_pos
  fine := body_fine p
  returns := by
    have hp := p.size_pos
    unfold Body.returns
    rw [body_length]
    refine filter_one (by omega) fun i hi => ?_
    have hd : p.body[i]? = some (p.body[i]'(by rw [body_length]; exact hi)) := List.getElem?_eq_getElem _
    rw [term_of hd, beq_iff_eq, (body_sound p hd).ret]
    omega
  up := by
    intro u v hv
    cases hd : p.body[u]? with
    | none =>
      unfold Body.succ Body.rawSucc Body.term at hv
      rw [hd] at hv
      simp [Term.targets] at hv
    | some d =>
      rw [(body_fine p).succ hd (fun t ht => by rw [body_length]; exact ((body_sound p hd).up t ht).2)] at hv
      exact ((body_sound p hd).up v hv).1
  real := by
    rintro u ⟨r, i, h⟩
    cases hd : p.body[u]? with
    | none =>
      unfold Body.term at h
      rw [hd] at h
      simp at h
    | some d =>
      rw [term_of hd] at h
      exact (body_sound p hd).real r i h
  stop := by
    have hp := p.size_pos
    have hd : p.body[p.size - 1]? = some (p.body[p.size - 1]'(by rw [body_length]; omega)) := List.getElem?_eq_getElem _
    have hr := (body_sound p hd).ret.2 (by omega)
    rw [(body_fine p).succ hd (fun t ht => by rw [body_length]; exact ((body_sound p hd).up t ht).2), hr]
    rfl
  length := by
    have hp := p.size_pos
    rw [body_length]
    omega

section
variable {b : Body} {ret : Nat} (W : Whole b ret)
include W

theorem path_between {u v : Nat} {l : List Nat} (h : Path b.succ u v l) : ∀ x ∈ l, u ≤ x ∧ x ≤ v := by
  induction h with
  | single a =>
    intro x hx
    rw [List.mem_singleton] at hx
    omega
  | @cons a c v l hc hp ih =>
    have h1 := W.up a c hc
    intro x hx
    rcases List.mem_cons.1 hx with rfl | hx
    · have := ih c hp.head_mem
      omega
    · have := ih x hx
      omega

theorem reach_le {u v : Nat} (h : Reach b.succ u v) : u ≤ v := by
  obtain ⟨l, hl⟩ := h.path
  exact (path_between W hl u hl.head_mem).2

theorem dom_le {u v : Nat} (h : Dominates b.succ u v) : u ≤ v := by
  obtain ⟨l, hl⟩ := h.1.path
  exact (path_between W hl u (h.2 l hl)).2

theorem reach_lt {v : Nat} (h : Reach b.succ 0 v) : v ≤ ret := by
  have := (dom_lt W.valid (d := v) (x := v) ⟨h, fun l hl => hl.last_mem⟩).1
  rw [W.length] at this
  omega

end

/-- All ways pass the block. -/
structure Cut (b : Body) (s : Nat) : Prop where
  reach : Reach b.succ 0 s
  cut : ∀ u v, v ∈ b.succ u → u < s → v ≤ s

theorem Cut.path {b : Body} {s u v : Nat} (h : Cut b s) {l : List Nat} (hp : Path b.succ u v l) (h1 : u ≤ s)
    (h2 : s ≤ v) : s ∈ l := by
  induction hp with
  | single a =>
    rw [List.mem_singleton]
    omega
  | @cons a c v l hc hp ih =>
    by_cases ha : a = s
    · subst ha
      exact List.mem_cons_self
    · exact List.mem_cons_of_mem _ (ih (h.cut a c hc (by omega)) h2)

theorem Cut.dom {b : Body} {s v : Nat} (h : Cut b s) (hv : Reach b.succ 0 v) (h2 : s ≤ v) : Dominates b.succ s v :=
  ⟨hv, fun _ hl => h.path hl (Nat.zero_le _) h2⟩

theorem Cut.reaches {b : Body} {s u v : Nat} (h : Cut b s) (hv : Reach b.succ u v) (h1 : u ≤ s) (h2 : s ≤ v) :
    Reach b.succ s v := by
  obtain ⟨l, hl⟩ := hv.path
  obtain ⟨_, _, _, h3, _⟩ := hl.split (h.path hl h1 h2)
  exact h3.reach

/-- A conditional whose arms are the two blocks behind its switch. -/
structure Fork2 (b : Body) (k : Nat) : Prop where
  cut : Cut b k
  sw : Switches b k
  succ : b.succ k = [k + 1, k + 2]
  one : ∀ v ∈ b.succ (k + 1), v = k + 3
  two : ∀ v ∈ b.succ (k + 2), v = k + 3
  on : (k + 3 ∈ b.succ (k + 1)) ∨ (k + 3 ∈ b.succ (k + 2))

theorem Fork2.reach1 {b : Body} {k : Nat} (h : Fork2 b k) : Reach b.succ 0 (k + 1) :=
  h.cut.reach.tail (by rw [h.succ]; simp)

theorem Fork2.reach2 {b : Body} {k : Nat} (h : Fork2 b k) : Reach b.succ 0 (k + 2) :=
  h.cut.reach.tail (by rw [h.succ]; simp)

theorem Fork2.next {b : Body} {k : Nat} (h : Fork2 b k) : Cut b (k + 3) where
  reach := h.on.elim (fun q => h.reach1.tail q) (fun q => h.reach2.tail q)
  cut := by
    intro u v hv hu
    by_cases h0 : u < k
    · have := h.cut.cut u v hv h0
      omega
    · by_cases h1 : u = k
      · subst h1
        rw [h.succ] at hv
        simp only [List.mem_cons, List.not_mem_nil, or_false] at hv
        omega
      · by_cases h2 : u = k + 1
        · subst h2
          rw [h.one v hv]
          omega
        · have h3 : u = k + 2 := by omega
          subst h3
          rw [h.two v hv]
          omega

section
variable {b : Body} {ret : Nat} (W : Whole b ret)
include W

theorem Fork2.not12 {k : Nat} (h : Fork2 b k) : ¬ Dominates b.succ (k + 1) (k + 2) := by
  intro hd
  obtain ⟨l, hl⟩ := h.cut.reach.path
  have h2 : Path b.succ k (k + 2) [k, k + 2] := .cons (by rw [h.succ]; simp) (.single _)
  have := hd.2 _ (hl.append h2)
  rw [List.mem_append] at this
  rcases this with q | q
  · have := (path_between W hl _ q).2
    omega
  · simp at q

theorem Fork2.not21 {k : Nat} (h : Fork2 b k) : ¬ Dominates b.succ (k + 2) (k + 1) := by
  intro hd
  have := dom_le W hd
  omega

/-- Nothing panics: the arms come together in the next block. -/
theorem Fork2.join {k : Nat} (h : Fork2 b k) (hk : k + 3 ≤ ret) (hall : ∀ y, k ≤ y → y ≤ ret → Reach b.succ y ret) :
    Join b k (k + 3) := by
  have hn := h.next
  have ha : ∀ y, Dominates b.succ k y → k ≤ y ∧ y ≤ ret := fun y hy => ⟨dom_le W hy, reach_lt W hy.1⟩
  have hret : Reach b.succ 0 ret := h.cut.reach.trans (hall k (Nat.le_refl _) (by omega))
  have hpd : ∀ y d, k ≤ y → y ≤ ret → (∀ l, Path b.succ y ret l → d ∈ l) → PostDominates b.succ b.returns y d := by
    intro y d h1 h2 h3 x hx
    rw [W.returns, List.mem_singleton] at hx
    subst hx
    exact ⟨hall y h1 h2, h3⟩
  refine ⟨⟨ret, h.cut.dom hret (by omega), fun x hx => ?_⟩, ⟨by omega, h.cut.dom hn.reach (by omega), W.real _, ?_⟩, ?_⟩
  · obtain ⟨h1, h2⟩ := ha x hx
    exact hpd x ret h1 h2 fun l hl => hl.last_mem
  · exact hpd k _ (Nat.le_refl _) (by omega) fun l hl => hn.path hl (by omega) hk
  · intro c hc
    obtain ⟨h1, h2⟩ := ha c hc.dominated
    have h3 := hc.ne
    have hon : ∀ u, k + 3 ∈ b.succ u → u ∈ b.succ k → c = u ∨ c = k ∨ k + 3 ≤ c := by
      intro u hu hku
      obtain ⟨l, hl⟩ := (hall (k + 3) (by omega) hk).path
      have hp : Path b.succ k ret (k :: u :: l) := .cons hku (.cons hu hl)
      have := (hc.post ret (by rw [W.returns]; simp)).2 _ hp
      rcases List.mem_cons.1 this with q | q
      · exact .inr (.inl q)
      · rcases List.mem_cons.1 q with q | q
        · exact .inl q
        · exact .inr (.inr (path_between W hl _ q).1)
    have hs : ∀ u, u = k + 1 ∨ u = k + 2 → k + 3 ∈ b.succ u := by
      intro u hu
      have hr : Reach b.succ u ret := hall u (by omega) (by omega)
      obtain ⟨l, hl⟩ := hr.path
      cases hl with
      | single => omega
      | @cons _ v _ _ hv hp =>
        have : v = k + 3 := hu.elim (fun q => h.one v (q ▸ hv)) (fun q => h.two v (q ▸ hv))
        exact this ▸ hv
    have q1 := hon (k + 1) (hs _ (.inl rfl)) (by rw [h.succ]; simp)
    have q2 := hon (k + 2) (hs _ (.inr rfl)) (by rw [h.succ]; simp)
    exact hn.dom hc.dominated.1 (by omega)

/-- Something panics: the arms do not come together. -/
theorem Fork2.apart {k : Nat} (h : Fork2 b k) {x : Nat} (hx : Reach b.succ k x) (hs : b.succ x = []) (hne : x ≠ ret) (j : Nat) :
    ¬ Join b k j := by
  have hnr : ¬ Reach b.succ x ret := by
    intro hr
    obtain ⟨l, hl⟩ := hr.path
    cases hl with
    | single => exact hne rfl
    | cons hv _ =>
      rw [hs] at hv
      simp at hv
  rintro ⟨⟨m, _, h2⟩, _⟩
  exact hnr (h2 x (h.cut.dom (h.cut.reach.trans hx) (reach_le W hx)) ret (by rw [W.returns]; simp)).1

/-- What there is in front of a location. -/
def Ready (b : Body) (k n : Nat) (c : Loc) : Prop := (c.block = k ∧ c.idx ≤ n) ∨ (c.block < k ∧ Cut b c.block)

omit W in
theorem Ready.earlier {k n m : Nat} {c : Loc} (h : Ready b k n c) (hc : Cut b k) (hm : n ≤ m) : Earlier b c ⟨k, m⟩ := by
  rcases h with h | h
  · exact .inl ⟨h.1, Nat.le_trans h.2 hm⟩
  · exact .inr ⟨Nat.ne_of_lt h.1, h.2.dom hc.reach (Nat.le_of_lt h.1)⟩

theorem Ready.later {k n m : Nat} {c : Loc} (h : Ready b k n c) (hc : Cut b k) (hm : n ≤ m) (hr : Reach b.succ k ret) :
    Later b c ⟨k, m⟩ := by
  rcases h with h | h
  · exact .inl ⟨h.1, Nat.le_trans h.2 hm⟩
  · refine .inr ⟨Nat.ne_of_lt h.1, ?_⟩
    intro x hx
    rw [W.returns, List.mem_singleton] at hx
    subst hx
    have h1 := Nat.le_of_lt h.1
    exact ⟨(h.2.reaches hc.reach (Nat.zero_le _) h1).trans hr, fun l hl => hc.path hl h1 (reach_le W hr)⟩

/-- The walk along a conditional. -/
theorem Fork2.goes {k n : Nat} (h : Fork2 b k) (hst : b.mapper.stmts k = n + 1) (hk : k + 3 ≤ ret) {f : Spanner} {s1 s2 : Nat}
    (h1 : f ⟨k + 1, 0⟩ = (⟨k + 1, 0⟩, s1)) (h2 : f ⟨k + 2, 0⟩ = (⟨k + 2, 0⟩, s2)) {panics : Bool}
    (hp : if panics then ∃ x, Reach b.succ k x ∧ b.succ x = [] ∧ x ≠ ret
      else ∀ y, k ≤ y → y ≤ ret → Reach b.succ y ret)
    {arms : List (List Deed)} {pick : List Nat} {ws : List (List Step)} {ends : Nat → Loc} (hn : pick.Nodup)
    (hpick : ∀ q ∈ pick, q < 2) (e1 : pick.length = arms.length) (e2 : ws.length = arms.length)
    (ha : ∀ (i : Nat) (d : List Deed) (q : Nat) (w : List Step), arms[i]? = some d → pick[i]? = some q → ws[i]? = some w →
      Goes b (fun y => y = k + 1 + q) (some ⟨k + 3, 0⟩) ⟨k + 1 + q, 0⟩ d w [] (ends i))
    {ds : List Deed} {w : List Step} {bs : List Fork} {c : Loc}
    (hrest : Goes b (fun _ => True) none (resume panics k n) ds w bs c) :
    Goes b (fun _ => True) none ⟨k, n + 1⟩ (.fork ⟨k, n + 1⟩ f arms :: ds)
      ((⟨k, n + 1⟩, ⟨k + 1, 0⟩, s1) :: (⟨k, n + 1⟩, ⟨k + 2, 0⟩, s2) :: (ws.flatten ++ w))
      ((⟨k, n + 1⟩, resume panics k n, [(⟨k, n + 1⟩, ⟨k + 1, 0⟩, s1), (⟨k, n + 1⟩, ⟨k + 2, 0⟩, s2)]) :: bs) c := by
  have hlen : (b.succ k).length = 2 := by rw [h.succ]; rfl
  have hstart : ∀ i p : Nat, (b.succ k)[i]? = some p →
      f ⟨p, 0⟩ = ((⟨k + 1 + i, 0⟩ : Loc), if i = 0 then s1 else s2) ∧ ((⟨k + 1 + i, 0⟩ : Loc).block = k + 1 + i) := by
    intro i p hi
    rw [h.succ] at hi
    match i with
    | 0 =>
      cases hi
      exact ⟨h1, rfl⟩
    | 1 =>
      cases hi
      exact ⟨h2, rfl⟩
    | i + 2 => simp at hi
  have hsep : Separate b (b.succ k).length (fun i y => y = k + 1 + i) := by
    intro i i' x y hi hi' hne hx hy
    rw [hlen] at hi hi'
    subst hx hy
    refine ⟨by omega, ?_⟩
    by_cases h0 : i = 0
    · have h1 : i' = 1 := by omega
      subst h0 h1
      exact h.not12 W
    · have h1 : i = 1 := by omega
      have h0 : i' = 0 := by omega
      subst h0 h1
      exact h.not21 W
  have hbss : ((List.replicate arms.length ([] : List Fork)).flatten) = [] := by simp
  have hr : ∀ g : Nat → Step, (List.range 2).map g = [g 0, g 1] := fun _ => rfl
  cases panics with
  | false =>
    have hj := h.join W hk (by simpa using hp)
    have G := Goes.fork (R := fun _ => True) (phi := none) (l := ⟨k, n + 1⟩) (f := f) (arms := arms) (a := k) (j := k + 3)
      (start := fun i => ⟨k + 1 + i, 0⟩) (span := fun i => if i = 0 then s1 else s2) (S := fun i y => y = k + 1 + i)
      (pick := pick) (ws := ws) (bss := List.replicate arms.length []) (ends := ends) (.here h.sw) hj trivial hstart hsep hn
      (by rw [hlen]; exact hpick) e1 e2 (by simp)
      (by
        intro i d q w bs q1 q2 q3 q4
        have : bs = [] := by
          rw [List.getElem?_replicate] at q4
          split at q4
          · cases q4; rfl
          · cases q4
        subst this
        exact ha i d q w q1 q2 q3) hrest
    rw [hlen, hr, hbss, hst] at G
    simpa [resume] using G
  | true =>
    obtain ⟨x, x1, x2, x3⟩ : ∃ x, Reach b.succ k x ∧ b.succ x = [] ∧ x ≠ ret := by simpa using hp
    have G := Goes.apart (R := fun _ => True) (phi := none) (l := ⟨k, n + 1⟩) (f := f) (arms := arms) (a := k)
      (start := fun i => ⟨k + 1 + i, 0⟩) (span := fun i => if i = 0 then s1 else s2) (S := fun i y => y = k + 1 + i)
      (pick := pick) (ws := ws) (bss := List.replicate arms.length []) (ends := ends) (e := ⟨k + 3, 0⟩) (.here h.sw)
      (h.apart W x1 x2 x3) hstart hsep
      (by
        intro i hi y hy hE
        rw [hlen] at hi
        rcases hE with q | q
        · have := q.1
          dsimp only at this
          omega
        · have := dom_le W q.2
          dsimp only at this
          omega)
      hn (by rw [hlen]; exact hpick) e1 e2 (by simp)
      (by
        intro i d q w bs q1 q2 q3 q4
        have : bs = [] := by
          rw [List.getElem?_replicate] at q4
          split at q4
          · cases q4; rfl
          · cases q4
        subst this
        exact ha i d q w q1 q2 q3) hrest
    rw [hlen, hr, hbss, hst] at G
    simpa [resume] using G

end

/-! ## The walk -/

theorem slice3 {b : Body} {k : Nat} {x y z : Cfg.Block} {r : List Cfg.Block} (h : Slice b k (x :: y :: z :: r)) :
    b[k]? = some x ∧ b[k + 1]? = some y ∧ b[k + 2]? = some z ∧ Slice b (k + 3) r := by
  obtain ⟨h1, h2⟩ := Slice.tail h
  obtain ⟨h3, h4⟩ := Slice.tail h2
  obtain ⟨h5, h6⟩ := Slice.tail h4
  exact ⟨h1, h3, h5, h6⟩

/-- The first block contains what it contained before, and more. -/
theorem Code.first {b : Body} : ∀ (p : Code) {k n : Nat}, Slice b k (p.code k n) → ∃ d, b[k]? = some d ∧ n < d.stmts
  | .fin, k, n, h => ⟨_, (Slice.tail h).1, Nat.lt_succ_self n⟩
  | .act _ r, k, n, h => by
    obtain ⟨d, h1, h2⟩ := r.first (n := n + 1) h
    exact ⟨d, h1, by omega⟩
  | .ite .., k, n, h => ⟨_, (slice3 h).1, Nat.lt_succ_self n⟩
  | .only .., k, n, h => ⟨_, (slice3 h).1, Nat.lt_succ_self n⟩

section
variable {b : Body} {ret : Nat} (W : Whole b ret)
include W

theorem succ_arm {u j : Nat} {dead : Bool} {t : List Nat} (h : b[u]? = some (armBlock dead t j)) (hj : j ≤ ret) :
    b.succ u = if dead then [] else [j] := by
  have hl := W.length
  rw [W.fine.succ h]
  · unfold armBlock
    cases dead <;> rfl
  · unfold armBlock
    cases dead <;> simp [Term.targets]
    omega

theorem fork_of {k n : Nat} {d1 d2 : Bool} {e t : List Nat} (hc : Cut b k)
    (h0 : b[k]? = some ⟨n, .switchInt [k + 1, k + 2], false⟩) (h1 : b[k + 1]? = some (armBlock d1 e (k + 3)))
    (h2 : b[k + 2]? = some (armBlock d2 t (k + 3))) (hd : (d1 && d2) = false) (hk : k + 3 ≤ ret) : Fork2 b k where
  cut := hc
  sw := ⟨_, term_of h0⟩
  succ := by
    have hl := W.length
    rw [W.fine.succ h0]
    · rfl
    · intro x hx
      simp only [Term.targets, List.mem_cons, List.not_mem_nil, or_false] at hx
      omega
  one := by
    rw [succ_arm W h1 hk]
    cases d1 <;> simp
  two := by
    rw [succ_arm W h2 hk]
    cases d2 <;> simp
  on := by
    rw [succ_arm W h1 hk, succ_arm W h2 hk]
    cases d1 <;> cases d2 <;> simp at hd ⊢

omit W in
theorem Fork2.reach3 {k : Nat} (h : Fork2 b k) : Reach b.succ k (k + 3) :=
  h.on.elim (fun q => (Reach.single (by rw [h.succ]; simp)).tail q) (fun q => (Reach.single (by rw [h.succ]; simp)).tail q)

omit W in
theorem Fate.one (x : Fate) : (x.elseDead && x.thenDead) = false := by cases x <;> rfl

/-- The `return` is reached from the first block. -/
theorem Code.exits : ∀ (p : Code) (k n : Nat), Slice b k (p.code k n) → k + p.size = ret + 1 → Cut b k →
    Reach b.succ k ret
  | .fin, k, n, hs, hk, hc => by
    have : k = ret := by simpa [Code.size] using hk
    subst this
    exact .refl
  | .act _ r, k, n, hs, hk, hc => r.exits k (n + 1) hs hk hc
  | .ite _ _ _ _ t e x r, k, n, hs, hk, hc => by
    obtain ⟨h0, h1, h2, h3⟩ := slice3 hs
    have hp := r.size_pos
    simp only [Code.size] at hk
    have F := fork_of W hc h0 h1 h2 x.one (by omega)
    exact F.reach3.trans (r.exits (k + 3) 0 h3 (by omega) F.next)
  | .only _ _ _ t x r, k, n, hs, hk, hc => by
    obtain ⟨h0, h1, h2, h3⟩ := slice3 hs
    have hp := r.size_pos
    simp only [Code.size] at hk
    have F := fork_of W hc h0 h1 h2 rfl (by omega)
    exact F.reach3.trans (r.exits (k + 3) 0 h3 (by omega) F.next)

/-- The blocks that panic, and those that do not. -/
theorem fate_of {k n : Nat} {d1 d2 q : Bool} {e t : List Nat} (hc : Cut b k)
    (h0 : b[k]? = some ⟨n, .switchInt [k + 1, k + 2], false⟩) (h1 : b[k + 1]? = some (armBlock d1 e (k + 3)))
    (h2 : b[k + 2]? = some (armBlock d2 t (k + 3))) (hd : (d1 && d2) = false) (hk : k + 3 ≤ ret)
    (hr : Reach b.succ (k + 3) ret)
    (hq : if q then ∃ x, Reach b.succ (k + 3) x ∧ b.succ x = [] ∧ x ≠ ret
      else ∀ y, k + 3 ≤ y → y ≤ ret → Reach b.succ y ret) :
    if d2 || d1 || q then ∃ x, Reach b.succ k x ∧ b.succ x = [] ∧ x ≠ ret
      else ∀ y, k ≤ y → y ≤ ret → Reach b.succ y ret := by
  have F := fork_of W hc h0 h1 h2 hd hk
  have s1 := succ_arm W h1 hk
  have s2 := succ_arm W h2 hk
  have r1 : Reach b.succ k (k + 1) := .single (by rw [F.succ]; simp)
  have r2 : Reach b.succ k (k + 2) := .single (by rw [F.succ]; simp)
  cases d1 with
  | true =>
    simp only [Bool.or_true, Bool.true_or, if_true] at s1 ⊢
    exact ⟨k + 1, r1, s1, by omega⟩
  | false =>
    cases d2 with
    | true =>
      simp only [Bool.true_or, if_true] at s2 ⊢
      exact ⟨k + 2, r2, s2, by omega⟩
    | false =>
      simp only [Bool.false_eq_true, if_false] at s1 s2
      cases q with
      | true =>
        simp only [if_true, Bool.or_true] at hq ⊢
        obtain ⟨x, x1, x2, x3⟩ := hq
        exact ⟨x, F.reach3.trans x1, x2, x3⟩
      | false =>
        simp only [Bool.or_self, Bool.false_eq_true, if_false] at hq ⊢
        intro y h1 h2
        by_cases y0 : y = k
        · subst y0
          exact F.reach3.trans hr
        · by_cases y1 : y = k + 1
          · subst y1
            exact .head (by rw [s1]; simp) hr
          · by_cases y2 : y = k + 2
            · subst y2
              exact .head (by rw [s2]; simp) hr
            · exact hq y (by omega) h2

theorem Code.fate : ∀ (p : Code) (k n : Nat), Slice b k (p.code k n) → k + p.size = ret + 1 → Cut b k →
    if p.panics then ∃ x, Reach b.succ k x ∧ b.succ x = [] ∧ x ≠ ret else ∀ y, k ≤ y → y ≤ ret → Reach b.succ y ret
  | .fin, k, n, hs, hk, hc => by
    have : k = ret := by simpa [Code.size] using hk
    subst this
    simp only [Code.panics, Bool.false_eq_true, if_false]
    intro y h1 h2
    have : y = k := by omega
    subst this
    exact .refl
  | .act _ r, k, n, hs, hk, hc => r.fate k (n + 1) hs hk hc
  | .ite _ _ _ _ t e x r, k, n, hs, hk, hc => by
    obtain ⟨h0, h1, h2, h3⟩ := slice3 hs
    have hp := r.size_pos
    simp only [Code.size] at hk
    have F := fork_of W hc h0 h1 h2 x.one (by omega)
    exact fate_of W hc h0 h1 h2 x.one (by omega) (r.exits W (k + 3) 0 h3 (by omega) F.next)
      (r.fate (k + 3) 0 h3 (by omega) F.next)
  | .only _ _ _ t x r, k, n, hs, hk, hc => by
    obtain ⟨h0, h1, h2, h3⟩ := slice3 hs
    have hp := r.size_pos
    simp only [Code.size] at hk
    have F := fork_of W hc h0 h1 h2 rfl (by omega)
    have := fate_of W hc h0 h1 h2 rfl (by omega) (r.exits W (k + 3) 0 h3 (by omega) F.next)
      (r.fate (k + 3) 0 h3 (by omega) F.next)
    rwa [Bool.or_false] at this

/-- The walk along an arm. -/
theorem arm_goes {u j : Nat} {dead : Bool} {ts : List Nat} (h : b[u]? = some (armBlock dead ts j)) (hj : u < j) (fuel : Nat)
    (order : List (Loc × Nat) → List (Loc × Nat)) : ∀ (t : List Nat) (n : Nat), n + t.length = ts.length →
    ∃ c, Goes b (fun y => y = u) (some ⟨j, 0⟩) ⟨u, n⟩ (deedStmts (.ofBody b fuel order) (armStmts dead t u n))
      (armSteps dead t u n) [] c
  | [], n, hn => by
    cases dead
    · exact ⟨_, .done⟩
    · exact ⟨_, .done⟩
  | sp :: t, n, hn => by
    obtain ⟨c, hg⟩ := arm_goes h hj fuel order t (n + 1) (by simp only [List.length_cons] at hn; omega)
    cases dead with
    | true =>
      have e1 : ∀ (t : List Nat) (n : Nat), deedStmts (.ofBody b fuel order) (armStmts true t u n) = [] := by
        intro t
        induction t with
        | nil => intro n; rfl
        | cons s t ih =>
          intro n
          simp only [armStmts, exitIn, if_true, deedStmts, deedStmt, deedExpr, deedParts, deedAfter_none, List.nil_append]
          exact ih (n + 1)
      rw [e1]
      exact ⟨_, .done⟩
    | false =>
      have hnext : b.locationSuccessor ⟨u, n⟩ = some ⟨u, n + 1⟩ := by
        refine next_inside h ?_
        simp only [armBlock, Bool.false_eq_true, if_false]
        simp only [List.length_cons] at hn
        omega
      simp only [armStmts, armSteps, exitIn, Bool.false_eq_true, if_false, deedStmts, deedStmt, deedExpr, deedParts,
        deedAfter_some hnext, List.nil_append, List.cons_append]
      refine ⟨c, .step rfl (.inl ⟨rfl, Nat.le_succ n⟩) (.inl ⟨rfl, Nat.le_succ n⟩) ?_ hg⟩
      intro p hp hE
      cases hp
      rcases hE with q | q
      · have := q.1
        dsimp only at this
        omega
      · have := dom_le W q.2
        dsimp only at this
        omega

theorem Fork2.spans {k : Nat} (h : Fork2 b k) {fuel : Nat} {order : List (Loc × Nat) → List (Loc × Nat)}
    (ho : ∀ l, (order l).Perm l) (s1 s2 d : Nat) :
    ((Env.ofBody b fuel order).spanner [(⟨k + 2, 0⟩, s2), (⟨k + 1, 0⟩, s1)] d ⟨k + 1, 0⟩ = (⟨k + 1, 0⟩, s1) ∧
      (Env.ofBody b fuel order).spanner [(⟨k + 2, 0⟩, s2), (⟨k + 1, 0⟩, s1)] d ⟨k + 2, 0⟩ = (⟨k + 2, 0⟩, s2)) ∧
    (Env.ofBody b fuel order).spanner [(⟨k + 2, 0⟩, s2)] d ⟨k + 1, 0⟩ = (⟨k + 1, 0⟩, d) ∧
      (Env.ofBody b fuel order).spanner [(⟨k + 2, 0⟩, s2)] d ⟨k + 2, 0⟩ = (⟨k + 2, 0⟩, s2) := by
  have a11 : b.mapper.ldom ⟨k + 1, 0⟩ ⟨k + 1, 0⟩ = true := (earlier_ldom W.valid).2 (.inl ⟨rfl, Nat.le_refl _⟩)
  have a22 : b.mapper.ldom ⟨k + 2, 0⟩ ⟨k + 2, 0⟩ = true := (earlier_ldom W.valid).2 (.inl ⟨rfl, Nat.le_refl _⟩)
  have a12 : b.mapper.ldom ⟨k + 1, 0⟩ ⟨k + 2, 0⟩ = false := not_ldom W.valid (by
    rintro (q | q)
    · have := q.1
      dsimp only at this
      omega
    · exact h.not12 W q.2)
  have a21 : b.mapper.ldom ⟨k + 2, 0⟩ ⟨k + 1, 0⟩ = false := not_ldom W.valid (by
    rintro (q | q)
    · have := q.1
      dsimp only at this
      omega
    · exact h.not21 W q.2)
  refine ⟨⟨spanner_hit ho (by simp) a11 ?_, spanner_hit ho (by simp) a22 ?_⟩, spanner_miss ho ?_, spanner_hit ho (by simp) a22 ?_⟩
  · intro x hx hl
    simp only [List.mem_cons, List.not_mem_nil, or_false] at hx
    rcases hx with rfl | rfl
    · exact absurd (a12.symm.trans hl) (by simp)
    · rfl
  · intro x hx hl
    simp only [List.mem_cons, List.not_mem_nil, or_false] at hx
    rcases hx with rfl | rfl
    · rfl
    · exact absurd (a21.symm.trans hl) (by simp)
  · intro x hx
    rw [List.mem_singleton] at hx
    subst hx
    exact a12
  · intro x hx _
    rwa [List.mem_singleton] at hx

theorem resume_ready {k n : Nat} {q : Bool} (F : Fork2 b k) : Ready b (k + 3) 0 (resume q k n) := by
  unfold resume
  cases q
  · exact .inl ⟨rfl, Nat.le_refl _⟩
  · exact .inr ⟨by simp only [if_true]; omega, F.cut⟩

theorem Code.goes (fuel : Nat) {order : List (Loc × Nat) → List (Loc × Nat)} (ho : ∀ l, (order l).Perm l) :
    ∀ (p : Code) (k n : Nat) (c : Loc), Slice b k (p.code k n) → k + p.size = ret + 1 → Cut b k → Ready b k n c →
    Goes b (fun _ => True) none c (deedStmts (.ofBody b fuel order) (p.stmts k n)) (p.expected k n c) (p.joins k n)
      (p.last k n c)
  | .fin, k, n, c, hs, hk, hc, hR => .done
  | .act sp r, k, n, c, hs, hk, hc, hR => by
    have hex := r.exits W k (n + 1) hs hk hc
    have := Code.goes fuel ho r k (n + 1) ⟨k, n + 1⟩ hs hk hc (.inl ⟨rfl, Nat.le_refl _⟩)
    have hnext : b.locationSuccessor ⟨k, n⟩ = some ⟨k, n + 1⟩ := by
      obtain ⟨d, h1, h2⟩ : ∃ d, b[k]? = some d ∧ n + 1 < d.stmts := r.first hs
      exact next_inside h1 (by omega)
    simp only [Code.stmts, deedStmts, deedStmt, deedExpr, deedParts, one, deedAfter_some hnext, List.nil_append,
      List.cons_append]
    exact .step trivial (hR.earlier hc (Nat.le_succ n)) (hR.later W hc (Nat.le_succ n) hex) (fun q hq => by cases hq) this
  | .ite sp lt le hi t e x r, k, n, c, hs, hk, hc, hR => by
    have hfate := Code.fate W (.ite sp lt le hi t e x r) k n hs hk hc
    have hex := Code.exits W (.ite sp lt le hi t e x r) k n hs hk hc
    obtain ⟨h0, h1, h2, h3⟩ := slice3 hs
    have hp := r.size_pos
    have hk' : k + 3 + r.size = ret + 1 := by simp only [Code.size] at hk; omega
    have F := fork_of W hc h0 h1 h2 x.one (by omega)
    have gr := Code.goes fuel ho r (k + 3) 0 (resume (Code.ite sp lt le hi t e x r).panics k n) h3 hk' F.next (resume_ready W F)
    obtain ⟨ct, gt⟩ := arm_goes W h2 (by omega) fuel order t 0 (by omega)
    obtain ⟨ce, ge⟩ := arm_goes W h1 (by omega) fuel order e 0 (by omega)
    have hnext := next_inside h0 (n := n) (Nat.lt_succ_self n)
    obtain ⟨⟨f1, f2⟩, _⟩ := F.spans W (fuel := fuel) ho le lt hi
    have hen : setSpan (setSpan [] ⟨k + 2, 0⟩ lt) ⟨k + 1, 0⟩ le = [(⟨k + 2, 0⟩, lt), (⟨k + 1, 0⟩, le)] := by
      refine setSpan_new (m := [(⟨k + 2, 0⟩, lt)]) ?_
      intro x hx h
      rw [List.mem_singleton] at hx
      subst hx
      have := congrArg Loc.block h
      dsimp only at this
      omega
    have G := F.goes W (n := n) (stmts_of h0) (by omega) f1 f2 hfate
      (arms := [deedStmts (.ofBody b fuel order) (armStmts x.thenDead t (k + 2) 0),
        deedStmts (.ofBody b fuel order) (armStmts x.elseDead e (k + 1) 0)]) (pick := [1, 0])
      (ws := [armSteps x.thenDead t (k + 2) 0, armSteps x.elseDead e (k + 1) 0])
      (ends := fun i => if i = 0 then ct else ce) (by simp) (by simp) rfl rfl
      (by
        intro i d q w q1 q2 q3
        match i with
        | 0 =>
          cases q1
          cases q2
          cases q3
          exact gt
        | 1 =>
          cases q1
          cases q2
          cases q3
          exact ge
        | i + 2 => cases q1) gr
    simp only [Code.stmts, deedStmts, deedStmt, deedExpr, deedParts, deedPart, deedBlock, deedFork, deedElse, Expr.node,
      one, after_next hnext, deedAfter_none, ifEntries, setEntry, armExpr, Option.map_some, Option.some_or, deedIf,
      reduceCtorEq, if_false, List.append_nil, List.nil_append, List.cons_append, hen]
    refine .step trivial (hR.earlier hc (Nat.le_succ n)) (hR.later W hc (Nat.le_succ n) hex) (fun q hq => by cases hq) ?_
    simp only [Code.joins, Code.last]
    simpa only [List.flatten_cons, List.flatten_nil, List.append_nil, List.append_assoc, List.cons_append,
      List.nil_append] using G
  | .only sp lt hi t x r, k, n, c, hs, hk, hc, hR => by
    have hfate := Code.fate W (.only sp lt hi t x r) k n hs hk hc
    have hex := Code.exits W (.only sp lt hi t x r) k n hs hk hc
    obtain ⟨h0, h1, h2, h3⟩ := slice3 hs
    have hp := r.size_pos
    have hk' : k + 3 + r.size = ret + 1 := by simp only [Code.size] at hk; omega
    have F := fork_of W hc h0 h1 h2 rfl (by omega)
    have gr := Code.goes fuel ho r (k + 3) 0 (resume (Code.only sp lt hi t x r).panics k n) h3 hk' F.next (resume_ready W F)
    obtain ⟨ct, gt⟩ := arm_goes W h2 (by omega) fuel order t 0 (by omega)
    have hnext := next_inside h0 (n := n) (Nat.lt_succ_self n)
    obtain ⟨_, f1, f2⟩ := F.spans W (fuel := fuel) ho 0 lt hi
    have hen : setSpan [] ⟨k + 2, 0⟩ lt = [(⟨k + 2, 0⟩, lt)] := rfl
    have G := F.goes W (n := n) (stmts_of h0) (by omega) f1 f2 hfate
      (arms := [deedStmts (.ofBody b fuel order) (armStmts x t (k + 2) 0)]) (pick := [1])
      (ws := [armSteps x t (k + 2) 0]) (ends := fun _ => ct) (by simp) (by simp) rfl rfl
      (by
        intro i d q w q1 q2 q3
        match i with
        | 0 =>
          cases q1
          cases q2
          cases q3
          exact gt
        | i + 1 => cases q1) gr
    simp only [Code.stmts, deedStmts, deedStmt, deedExpr, deedParts, deedPart, deedBlock, deedFork, deedElse, Expr.node,
      one, after_next hnext, deedAfter_none, ifEntries, setEntry, armExpr, Option.map_none, Option.some_or, deedIf,
      reduceCtorEq, if_false, List.append_nil, List.nil_append, List.cons_append, hen]
    refine .step trivial (hR.earlier hc (Nat.le_succ n)) (hR.later W hc (Nat.le_succ n) hex) (fun q hq => by cases hq) ?_
    simp only [Code.joins, Code.last]
    simpa only [List.flatten_cons, List.flatten_nil, List.append_nil, List.append_assoc, List.cons_append,
      List.nil_append] using G

end

/-! ## The results -/

theorem body_slice (p : Code) : Slice p.body 0 (p.code 0 0) := by
  intro i d h
  rw [Nat.zero_add]
  exact h

theorem Code.fin_inside {b : Body} : ∀ (p : Code) {k n : Nat}, Slice b k (p.code k n) →
    ∃ d, b[(p.finAt k n).block]? = some d ∧ (p.finAt k n).idx < d.stmts
  | .fin, k, n, h => ⟨_, (Slice.tail h).1, Nat.lt_succ_self n⟩
  | .act _ r, k, n, h => r.fin_inside (n := n + 1) h
  | .ite _ _ _ _ _ _ _ r, k, n, h => r.fin_inside (slice3 h).2.2.2
  | .only _ _ _ _ _ r, k, n, h => r.fin_inside (slice3 h).2.2.2

/-- The steps and the branches of every function of the language, in which arms of conditionals may panic. -/
theorem C128_steps (p : Code) (sp : Nat) {fuel : Nat} (hfu : fuel ≠ 0)
    {order : List (Loc × Nat) → List (Loc × Nat)} (ho : ∀ l, (order l).Perm l) :
    ∃ f locals, compute (.ofBody p.body fuel order) (p.source sp) = .steps f locals ∧
      f.segs.map (fun g => (g.from, g.to, g.span)) = p.expected 0 0 ⟨0, 0⟩ ++
        (if p.panics then [] else [(p.finAt 0 0, ⟨(p.finAt 0 0).block, (p.finAt 0 0).idx + 1⟩, sp)]) ∧
      Branched f (p.joins 0 0) := by
  have W := body_whole p
  have hp := p.size_pos
  have hc : Cut p.body 0 := ⟨.refl, fun u v _ hu => absurd hu (Nat.not_lt_zero u)⟩
  have g := Code.goes W fuel ho p 0 0 ⟨0, 0⟩ (body_slice p) (by omega) hc (.inl ⟨rfl, Nat.le_refl _⟩)
  have hd : deedBody (.ofBody p.body fuel order) (p.source sp) = deedStmts (.ofBody p.body fuel order) (p.stmts 0 0) ++
      (if p.panics then [] else [.step ⟨(p.finAt 0 0).block, (p.finAt 0 0).idx + 1⟩ sp]) := by
    obtain ⟨d, hd, hn⟩ := p.fin_inside (body_slice p)
    have hnext : p.body.locationSuccessor (p.finAt 0 0) = some ⟨(p.finAt 0 0).block, (p.finAt 0 0).idx + 1⟩ :=
      next_inside hd hn
    unfold deedBody
    simp only [Code.source, Expr.node, deedExpr, deedParts, deedPart, deedBlock, List.append_nil]
    unfold exitIn
    cases p.panics with
    | true => simp only [if_true, deedAfter_none]
    | false => simp only [Bool.false_eq_true, if_false, deedAfter_some hnext]
  cases hq : p.panics with
  | true =>
    rw [hq] at hd
    simp only [if_true, List.append_nil] at hd ⊢
    exact C102_steps W.valid (by rw [W.returns]; simp) hfu order (p.source sp) trivial (by rw [hd]; exact g)
  | false =>
    rw [hq] at hd
    simp only [Bool.false_eq_true, if_false] at hd ⊢
    rw [p.last_fin 0 0 hq] at g
    have := Goes.append g (Goes.step (sp := sp) (ds := []) (l := ⟨(p.finAt 0 0).block, (p.finAt 0 0).idx + 1⟩) trivial
      (.inl ⟨rfl, Nat.le_succ _⟩) (.inl ⟨rfl, Nat.le_succ _⟩) (fun q hq => by cases hq) .done)
    rw [List.append_nil] at this
    exact C102_steps W.valid (by rw [W.returns]; simp) hfu order (p.source sp) trivial (by rw [hd]; exact this)

/-- The conditionals in the order of the source: does one of the arms panic? -/
def Code.conds : Code → List Bool
  | .fin => []
  | .act _ r => r.conds
  | .ite _ _ _ _ _ _ x r => decide (x ≠ .both) :: r.conds
  | .only _ _ _ _ dead r => dead :: r.conds

theorem Code.panics_iff : ∀ p : Code, p.panics = true ↔ ∃ j : Nat, p.conds[j]? = some true
  | .fin => by simp [Code.panics, Code.conds]
  | .act _ r => r.panics_iff
  | .ite _ _ _ _ _ _ x r => by
    have := r.panics_iff
    simp only [Code.panics, Code.conds, Bool.or_eq_true]
    constructor
    · rintro (h | h)
      · exact ⟨0, by cases x <;> simp [Fate.thenDead, Fate.elseDead] at h ⊢⟩
      · obtain ⟨j, hj⟩ := this.1 h
        exact ⟨j + 1, hj⟩
    · rintro ⟨j, hj⟩
      match j with
      | 0 => exact .inl (by cases x <;> simp [Fate.thenDead, Fate.elseDead] at hj ⊢)
      | j + 1 => exact .inr (this.2 ⟨j, hj⟩)
  | .only _ _ _ _ x r => by
    have := r.panics_iff
    simp only [Code.panics, Code.conds, Bool.or_eq_true]
    constructor
    · rintro (h | h)
      · exact ⟨0, by rw [h]; rfl⟩
      · obtain ⟨j, hj⟩ := this.1 h
        exact ⟨j + 1, hj⟩
    · rintro ⟨j, hj⟩
      match j with
      | 0 => exact .inl (by simpa using hj)
      | j + 1 => exact .inr (this.2 ⟨j, hj⟩)

theorem resume_iff {q : Bool} {k n : Nat} : resume q k n = ⟨k, n + 1⟩ ↔ q = true := by
  unfold resume
  cases q
  · simp
  · simp

theorem Code.joins_length : ∀ (p : Code) (k n : Nat), (p.joins k n).length = p.conds.length
  | .fin, _, _ => rfl
  | .act _ r, k, n => r.joins_length k (n + 1)
  | .ite _ _ _ _ _ _ _ r, k, n => by simp [Code.joins, Code.conds, r.joins_length]
  | .only _ _ _ _ _ r, k, n => by simp [Code.joins, Code.conds, r.joins_length]

theorem Code.joins_iff : ∀ (p : Code) (k n i : Nat) (y : Fork), (p.joins k n)[i]? = some y →
    (y.2.1 = y.1 ↔ ∃ j : Nat, i ≤ j ∧ p.conds[j]? = some true)
  | .fin, _, _, _, _, h => by simp [Code.joins] at h
  | .act _ r, k, n, i, y, h => r.joins_iff k (n + 1) i y h
  | .ite sp lt le hi t e x r, k, n, i, y, h => by
    match i with
    | 0 =>
      cases h
      rw [resume_iff, Code.panics_iff]
      simp
    | i + 1 =>
      rw [r.joins_iff (k + 3) 0 i y h]
      constructor
      · rintro ⟨j, h1, h2⟩
        exact ⟨j + 1, by omega, h2⟩
      · rintro ⟨j, h1, h2⟩
        obtain ⟨j, rfl⟩ : ∃ m, j = m + 1 := ⟨j - 1, by omega⟩
        exact ⟨j, by omega, h2⟩
  | .only sp lt hi t x r, k, n, i, y, h => by
    match i with
    | 0 =>
      cases h
      rw [resume_iff, Code.panics_iff]
      simp
    | i + 1 =>
      rw [r.joins_iff (k + 3) 0 i y h]
      constructor
      · rintro ⟨j, h1, h2⟩
        exact ⟨j + 1, by omega, h2⟩
      · rintro ⟨j, h1, h2⟩
        obtain ⟨j, rfl⟩ : ∃ m, j = m + 1 := ⟨j - 1, by omega⟩
        exact ⟨j, by omega, h2⟩

/-- There is one branch for each conditional, and a conditional is left without a join, its branch ending where it
begins, exactly if it or a conditional behind it has an arm that panics. -/
theorem C128_joins (p : Code) (sp : Nat) {fuel : Nat} (hfu : fuel ≠ 0)
    {order : List (Loc × Nat) → List (Loc × Nat)} (ho : ∀ l, (order l).Perm l) :
    ∃ f locals, compute (.ofBody p.body fuel order) (p.source sp) = .steps f locals ∧
      f.branches.length = p.conds.length ∧
      ∀ (i : Nat) (x : Branch), f.branches[i]? = some x → (x.reachTo = x.reachFrom ↔ ∃ j, i ≤ j ∧ p.conds[j]? = some true) := by
  obtain ⟨f, locals, h1, _, h3⟩ := C128_steps p sp hfu ho
  have h4 := h3.ends
  refine ⟨f, locals, h1, ?_, ?_⟩
  · have := congrArg List.length h4
    rwa [List.length_map, List.length_map, Code.joins_length] at this
  · intro i x hx
    have h5 : (f.branches.map (fun x => (x.reachFrom, x.reachTo)))[i]? = some (x.reachFrom, x.reachTo) := by
      rw [List.getElem?_map, hx]
      rfl
    rw [h4, List.getElem?_map, Option.map_eq_some_iff] at h5
    obtain ⟨y, h6, h7⟩ := h5
    have := p.joins_iff 0 0 i y h6
    simp only [Prod.mk.injEq] at h7
    rw [← this, h7.1, h7.2]

/-- One after the other. -/
def Code.andThen : Code → Code → Code
  | .fin, q => q
  | .act sp r, q => .act sp (r.andThen q)
  | .ite sp lt le hi t e x r, q => .ite sp lt le hi t e x (r.andThen q)
  | .only sp lt hi t x r, q => .only sp lt hi t x (r.andThen q)

theorem Code.expected_andThen (q : Code) : ∀ (p : Code) (k n : Nat) (c : Loc), ∃ pre c',
    (p.andThen q).expected k n c = pre ++ q.expected (p.finAt k n).block (p.finAt k n).idx c'
  | .fin, k, n, c => ⟨[], c, rfl⟩
  | .act sp r, k, n, c => by
    obtain ⟨pre, c', h⟩ := Code.expected_andThen q r k (n + 1) ⟨k, n + 1⟩
    exact ⟨(c, ⟨k, n + 1⟩, sp) :: pre, c', by simp only [Code.andThen, Code.expected, Code.finAt, h, List.cons_append]⟩
  | .ite sp lt le hi t e x r, k, n, c => by
    obtain ⟨pre, c', h⟩ := Code.expected_andThen q r (k + 3) 0
      (resume (Code.ite sp lt le hi t e x (r.andThen q)).panics k n)
    exact ⟨(c, ⟨k, n + 1⟩, sp) :: (⟨k, n + 1⟩, ⟨k + 1, 0⟩, le) :: (⟨k, n + 1⟩, ⟨k + 2, 0⟩, lt) ::
      (armSteps x.thenDead t (k + 2) 0 ++ (armSteps x.elseDead e (k + 1) 0 ++ pre)), c', by
        simp only [Code.andThen, Code.expected, Code.finAt, h, List.cons_append, List.append_assoc]⟩
  | .only sp lt hi t x r, k, n, c => by
    obtain ⟨pre, c', h⟩ := Code.expected_andThen q r (k + 3) 0
      (resume (Code.only sp lt hi t x (r.andThen q)).panics k n)
    exact ⟨(c, ⟨k, n + 1⟩, sp) :: (⟨k, n + 1⟩, ⟨k + 1, 0⟩, hi) :: (⟨k, n + 1⟩, ⟨k + 2, 0⟩, lt) ::
      (armSteps x t (k + 2) 0 ++ pre), c', by
        simp only [Code.andThen, Code.expected, Code.finAt, h, List.cons_append, List.append_assoc]⟩

/-- The first step after a conditional, wherever in the function it is: it begins where the arms come together if nothing
in the conditional or behind it panics, and otherwise at the switch, before the arms that have been shown already. -/
theorem C128_restart (p : Code) (sc lt le hi : Nat) (t e : List Nat) (x : Fate) (s : Nat) (r : Code) (sp : Nat) {fuel : Nat}
    (hfu : fuel ≠ 0) {order : List (Loc × Nat) → List (Loc × Nat)} (ho : ∀ l, (order l).Perm l) :
    ∃ f locals, compute (.ofBody (p.andThen (.ite sc lt le hi t e x (.act s r))).body fuel order)
        ((p.andThen (.ite sc lt le hi t e x (.act s r))).source sp) = .steps f locals ∧
      (if x = .both ∧ r.panics = false then (⟨(p.finAt 0 0).block + 3, 0⟩ : Loc)
        else ⟨(p.finAt 0 0).block, (p.finAt 0 0).idx + 1⟩, (⟨(p.finAt 0 0).block + 3, 1⟩ : Loc), s) ∈
        f.segs.map (fun g => (g.from, g.to, g.span)) := by
  obtain ⟨f, locals, h1, h2, _⟩ := C128_steps (p.andThen (.ite sc lt le hi t e x (.act s r))) sp hfu ho
  refine ⟨f, locals, h1, ?_⟩
  rw [h2]
  obtain ⟨pre, c', h⟩ := Code.expected_andThen (.ite sc lt le hi t e x (.act s r)) p 0 0 ⟨0, 0⟩
  rw [h]
  have hr : (if x = .both ∧ r.panics = false then (⟨(p.finAt 0 0).block + 3, 0⟩ : Loc)
      else ⟨(p.finAt 0 0).block, (p.finAt 0 0).idx + 1⟩) =
      resume (Code.ite sc lt le hi t e x (.act s r)).panics (p.finAt 0 0).block (p.finAt 0 0).idx := by
    unfold resume
    simp only [Code.panics]
    rcases Bool.eq_false_or_eq_true r.panics with hq | hq <;> cases x <;> simp [hq, Fate.thenDead, Fate.elseDead]
  rw [hr]
  refine List.mem_append_left _ (List.mem_append_right _ ?_)
  simp only [Code.expected]
  simp

/-! ## Two programs

```text
if c { x = 1; } else { x = 2; }           if c { x = 1; } else { x = 2; }
y = 3;                                    y = 3;
                                          if d { z = 4; panic!() }
```
-/

namespace Example

def plain : Code := .ite 10 11 12 13 [14] [15] .both (.act 16 .fin)

def panicking : Code := .ite 10 11 12 13 [14] [15] .both (.act 16 (.only 17 18 19 [20] true .fin))

example : plain.expected 0 0 ⟨0, 0⟩ = [(⟨0, 0⟩, ⟨0, 1⟩, 10), (⟨0, 1⟩, ⟨1, 0⟩, 12), (⟨0, 1⟩, ⟨2, 0⟩, 11),
    (⟨2, 0⟩, ⟨2, 1⟩, 14), (⟨1, 0⟩, ⟨1, 1⟩, 15), (⟨3, 0⟩, ⟨3, 1⟩, 16)] := rfl

/-- The step of `y = 3` begins at the condition of the first `if`; there is no step for `z = 4`. -/
example : panicking.expected 0 0 ⟨0, 0⟩ = [(⟨0, 0⟩, ⟨0, 1⟩, 10), (⟨0, 1⟩, ⟨1, 0⟩, 12), (⟨0, 1⟩, ⟨2, 0⟩, 11),
    (⟨2, 0⟩, ⟨2, 1⟩, 14), (⟨1, 0⟩, ⟨1, 1⟩, 15), (⟨0, 1⟩, ⟨3, 1⟩, 16), (⟨3, 1⟩, ⟨3, 2⟩, 17), (⟨3, 2⟩, ⟨4, 0⟩, 19),
    (⟨3, 2⟩, ⟨5, 0⟩, 18)] := rfl

example : panicking.body.returns = [6] ∧ leastPostDominator panicking.body 0 = none ∧
    leastPostDominator plain.body 0 = some 3 := by decide +kernel

/-- The nodes of the source: the assignment in the arm that panics, and the whole function. -/
example : (panicking.body.mirLocations [⟨5, 0⟩]).map Ordered.exitLocation = some none ∧
    (panicking.body.mirLocations [⟨0, 0⟩, ⟨2, 0⟩, ⟨5, 1⟩, ⟨6, 0⟩]).map Ordered.exitLocation = some none ∧
    (panicking.body.mirLocations [⟨2, 0⟩]).map Ordered.exitLocation = some (some ⟨2, 0⟩) := by decide +kernel

/-- What comes later in a function changes how a conditional is shown: it has a join in the one program and none in the
other, although both programs agree up to there. -/
theorem C128_later {fuel : Nat} (hfu : fuel ≠ 0) {order : List (Loc × Nat) → List (Loc × Nat)} (ho : ∀ l, (order l).Perm l) :
    ∃ f f' locals locals', compute (.ofBody plain.body fuel order) (plain.source 0) = .steps f locals ∧
      compute (.ofBody panicking.body fuel order) (panicking.source 0) = .steps f' locals' ∧
      plain.stmts 0 0 = (panicking.stmts 0 0).take 2 ∧
      (f.branches.map (fun x => (x.reachFrom, x.reachTo)))[0]? = some (⟨0, 1⟩, ⟨3, 0⟩) ∧
      (f'.branches.map (fun x => (x.reachFrom, x.reachTo)))[0]? = some (⟨0, 1⟩, ⟨0, 1⟩) ∧
      (f.segs.map (fun g => (g.from, g.to, g.span)))[5]? = some (⟨3, 0⟩, ⟨3, 1⟩, 16) ∧
      (f'.segs.map (fun g => (g.from, g.to, g.span)))[5]? = some (⟨0, 1⟩, ⟨3, 1⟩, 16) := by
  obtain ⟨f, locals, h1, h2, h3⟩ := C128_steps plain 0 hfu ho
  obtain ⟨f', locals', h1', h2', h3'⟩ := C128_steps panicking 0 hfu ho
  refine ⟨f, f', locals, locals', h1, h1', rfl, ?_, ?_, ?_, ?_⟩
  · rw [h3.ends]; rfl
  · rw [h3'.ends]; rfl
  · rw [h2]; rfl
  · rw [h2']; rfl

end Example

end Verif.Walk.Panics
