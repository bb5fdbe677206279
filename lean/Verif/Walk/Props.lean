import Verif.Walk.Programs
/-!
# C102: what the stepper shows of programs with conditionals, `match`es and loops
-/
namespace Verif.Walk

open Verif.Cfg Verif.Segments Verif.Graph Verif.HirSteps
open Verif.HirSteps.Prog (Slice Slice.tail next_inside)

/-- The branches of a body are these: their switches, their joins and the steps into their arms, in order. -/
def Branched (f : Frozen) (bs : List Fork) : Prop :=
  f.branches.map (fun x => (x.reachFrom, x.reachTo,
      x.splits.map (fun sid => (f.segs[sid]?).map (fun g => (g.from, g.to, g.span))))) =
    bs.map (fun y => (y.1, y.2.1, y.2.2.map some))

theorem Branched.ends {f : Frozen} {bs : List Fork} (h : Branched f bs) :
    f.branches.map (fun x => (x.reachFrom, x.reachTo)) = bs.map (fun y => (y.1, y.2.1)) := by
  have := congrArg (List.map (fun y : Loc × Loc × List (Option Step) => (y.1, y.2.1))) h
  rwa [List.map_map, List.map_map] at this

/-- The steps and branches of any function are those of a walk along its control flow, if there is one: the visitor and
the builder make exactly the steps of the walk, in its order, and record exactly its branches, each with the steps into
its arms. -/
theorem C102_steps {b : Body} (hv : Valid b) (hret : b.returns ≠ []) {fuel : Nat} (hfu : fuel ≠ 0)
    (order : List (Loc × Nat) → List (Loc × Nat)) (value : Expr) {R : Nat → Prop} (hR : R 0) {w : List Step}
    {bs : List Fork} {c : Loc}
    (hw : Goes b R none startLoc (deedBody (.ofBody b fuel order) value) w bs c) :
    ∃ f locals, compute (.ofBody b fuel order) value = .steps f locals ∧
      f.segs.map (fun g => (g.from, g.to, g.span)) = w ∧
      Branched f bs := by
  obtain ⟨f, locals, h1, h2, h3⟩ := steps hv hret hfu order value hR hw
  refine ⟨f, locals, h1, h2, ?_⟩
  subst h2
  unfold Branched
  rw [show (fun y : Fork => (y.1, y.2.1, y.2.2.map some)) = Fork.real from rfl, ← h3]
  apply List.map_congr_left
  intro x _
  unfold forkOf
  simp only [List.getElem?_map]

/-! ## Programs -/

theorem fin_inside {b : Body} : ∀ (p : Prog) (k n : Nat) (last : Term), Slice b k (p.code k n last) →
    ∃ d, b[(p.finAt k n).block]? = some d ∧ (p.finAt k n).idx < d.stmts
  | .fin, k, n, last, h => ⟨_, (Slice.tail h).1, Nat.lt_succ_self n⟩
  | .act _ r, k, n, last, h => fin_inside r k (n + 1) last h
  | .bind _ _ r, k, n, last, h => fin_inside r k (n + 1) last h
  | .call _ r, k, n, last, h => fin_inside r (k + 1) 0 last (Slice.tail h).2
  | .ite _ _ _ _ t e r, k, n, last, h => fin_inside r _ 0 last (slice_ite h).2.2.2
  | .only _ _ _ t r, k, n, last, h => fin_inside r _ 0 last (slice_only h).2.2.2
  | .mtch _ _ _ f as r, k, n, last, h => fin_inside r _ 0 last (slice_mtch h).2.2.2.2
  | .whl _ _ _ _ _ c t r, k, n, last, h => fin_inside r _ 1 last (slice_whl h).2.2.2.2.2
  | .frl _ _ _ _ _ _ _ _ t r, k, n, last, h => fin_inside r _ 1 last (slice_frl h).2.2.2.2.2.2.2

/-- Every program of statements, `let`s, calls, `if`s, `match`es and `while` and `for` loops, nested in any way: the
stepper succeeds, makes exactly the steps one expects, in the order of the source, and records exactly one branch for
each construct, which ends where its arms come together and has the steps into its arms. -/
theorem C102_programs (p : Prog) (sp : Nat) {fuel : Nat} (hfu : fuel ≠ 0)
    {order : List (Loc × Nat) → List (Loc × Nat)} (ho : ∀ l, (order l).Perm l) :
    ∃ f locals, compute (.ofBody p.body fuel order) (p.source sp) = .steps f locals ∧
      f.segs.map (fun g => (g.from, g.to, g.span)) =
        p.expected 0 0 ++ [(p.finAt 0 0, ⟨(p.finAt 0 0).block, (p.finAt 0 0).idx + 1⟩, sp)] ∧
      Branched f (p.joins 0 0) := by
  have W := body_whole p
  have g := Prog.goes (body_fine p) W fuel ho p 0 0 .ret .fin [] (In 0 (0 + p.size)) none
    (by intro _ _ h; cases h) (.plain (body_place p)) (body_slice p)
    (fun _ hy => In.plain hy) (fun _ _ q hq => by cases hq)
  have h0 : In 0 (0 + p.size) 0 := ⟨Nat.le_refl _, by have := p.size_pos; omega⟩
  have hf := g.mem h0
  obtain ⟨d, hd, hn⟩ := fin_inside p 0 0 .ret (body_slice p)
  have hnext : p.body.locationSuccessor (p.finAt 0 0) = some ⟨(p.finAt 0 0).block, (p.finAt 0 0).idx + 1⟩ :=
    next_inside hd hn
  refine C102_steps W.valid (by rw [W.returns]; simp) hfu order (p.source sp)
    (c := ⟨(p.finAt 0 0).block, (p.finAt 0 0).idx + 1⟩) h0 ?_
  have := Goes.append g (Goes.step (sp := sp) (ds := []) (l := ⟨(p.finAt 0 0).block, (p.finAt 0 0).idx + 1⟩) hf
    (.inl ⟨rfl, Nat.le_succ _⟩) (.inl ⟨rfl, Nat.le_succ _⟩) (fun q hq => by cases hq) .done)
  have hd : deedBody (.ofBody p.body fuel order) (p.source sp) = deedStmts (.ofBody p.body fuel order) (p.stmts 0 0) ++
      [.step ⟨(p.finAt 0 0).block, (p.finAt 0 0).idx + 1⟩ sp] := by
    unfold deedBody
    simp only [Prog.source, Expr.node, deedAfter_some hnext]
    simp [deedExpr, deedParts, deedPart, deedBlock]
  rw [List.append_nil] at this
  rw [hd]
  exact this

/-! ## What follows -/

mutual
/-- The number of `if`s, `match`es and loops, at any depth. -/
def Prog.forks : Prog → Nat
  | .fin => 0
  | .act _ r => r.forks
  | .bind _ _ r => r.forks
  | .call _ r => r.forks
  | .ite _ _ _ _ t e r => 1 + t.forks + e.forks + r.forks
  | .only _ _ _ t r => 1 + t.forks + r.forks
  | .mtch _ _ _ f as r => 1 + f.forks + as.forks + r.forks
  | .whl _ _ _ _ _ _ t r => 1 + t.forks + r.forks
  | .frl _ _ _ _ _ _ _ _ t r => 1 + t.forks + r.forks
def Arms.forks : Arms → Nat
  | .last _ f => f.forks
  | .cons _ f as => f.forks + as.forks
end

mutual
/-- The spans of the statements that are no branching constructs, at any depth. -/
def Prog.says : Prog → List Nat
  | .fin => []
  | .act sp r => sp :: r.says
  | .bind sp _ r => sp :: r.says
  | .call sp r => sp :: r.says
  | .ite _ _ _ _ t e r => t.says ++ (e.says ++ r.says)
  | .only _ _ _ t r => t.says ++ r.says
  | .mtch _ _ _ f as r => f.says ++ (as.says ++ r.says)
  | .whl _ _ _ _ _ _ t r => t.says ++ r.says
  | .frl _ _ _ _ _ _ _ _ t r => t.says ++ r.says
def Arms.says : Arms → List Nat
  | .last _ f => f.says
  | .cons _ f as => f.says ++ as.says
end

mutual
/-- The spans of the steps that are made for branching constructs, at any depth: for the condition, for each of the ways
that begin there, at the start of each arm, and for the loop. -/
def Prog.ways : Prog → List Nat
  | .fin => []
  | .act _ r => r.ways
  | .bind _ _ r => r.ways
  | .call _ r => r.ways
  | .ite sp lt le hi t e r => sp :: le :: lt :: (t.ways ++ (e.ways ++ r.ways))
  | .only sp lt hi t r => sp :: hi :: lt :: (t.ways ++ r.ways)
  | .mtch sp _ i f as r => sp :: i.pat :: i.lo :: (f.ways ++ (as.ways ++ r.ways))
  | .whl sp sc lt hi sb _ t r => sc :: hi :: lt :: sb :: sp :: (t.ways ++ r.ways)
  | .frl sp sa sc hi sn lb li _ t r => sa :: sc :: hi :: lb :: sn :: li :: sp :: (t.ways ++ r.ways)
def Arms.ways : Arms → List Nat
  | .last i f => i.pat :: i.lo :: f.ways
  | .cons i f as => i.pat :: i.lo :: (f.ways ++ as.ways)
end

mutual
theorem Prog.joins_length : ∀ (p : Prog) (k n : Nat), (p.joins k n).length = p.forks
  | .fin, _, _ => rfl
  | .act _ r, k, n => Prog.joins_length r k (n + 1)
  | .bind _ _ r, k, n => Prog.joins_length r k (n + 1)
  | .call _ r, k, n => Prog.joins_length r (k + 1) 0
  | .ite _ _ _ _ t e r, k, n => by
    simp only [Prog.joins, Prog.forks, List.length_cons, List.length_append, Prog.joins_length t, Prog.joins_length e,
      Prog.joins_length r]
    omega
  | .only _ _ _ t r, k, n => by
    simp only [Prog.joins, Prog.forks, List.length_cons, List.length_append, Prog.joins_length t, Prog.joins_length r]
    omega
  | .mtch _ _ _ f as r, k, n => by
    simp only [Prog.joins, Prog.forks, List.length_cons, List.length_append, Prog.joins_length f, Arms.joins_length as,
      Prog.joins_length r]
    omega
  | .whl _ _ _ _ _ _ t r, k, n => by
    simp only [Prog.joins, Prog.forks, List.length_cons, List.length_append, Prog.joins_length t, Prog.joins_length r]
    omega
  | .frl _ _ _ _ _ _ _ _ t r, k, n => by
    simp only [Prog.joins, Prog.forks, List.length_cons, List.length_append, Prog.joins_length t, Prog.joins_length r]
    omega
theorem Arms.joins_length : ∀ (as : Arms) (k : Nat), (as.joins k).flatten.length = as.forks
  | .last i f, k => by
    simp only [Arms.joins, List.flatten_cons, List.flatten_nil, List.append_nil, Arms.forks, Prog.joins_length f]
  | .cons i f as, k => by
    simp only [Arms.joins, List.flatten_cons, List.length_append, Arms.forks, Prog.joins_length f, Arms.joins_length as]
end

/-- How often a step is shown at the span. -/
def shown (s : Nat) (w : List Step) : Nat := (w.map (·.2.2)).count s

theorem shown_nil (s : Nat) : shown s [] = 0 := rfl

theorem shown_cons (s : Nat) (x : Step) (w : List Step) : shown s (x :: w) = shown s w + if x.2.2 == s then 1 else 0 := by
  rw [shown, List.map_cons, List.count_cons]
  rfl

theorem shown_append (s : Nat) (w w' : List Step) : shown s (w ++ w') = shown s w + shown s w' := by
  rw [shown, List.map_append, List.count_append]
  rfl

mutual
theorem Prog.shown : ∀ (p : Prog) (k n s : Nat), Walk.shown s (p.expected k n) = p.says.count s + p.ways.count s
  | .fin, _, _, _ => rfl
  | .act sp r, k, n, s => by
    simp only [Prog.expected, Prog.says, Prog.ways, shown_cons, List.count_cons, Prog.shown r]
    omega
  | .bind sp _ r, k, n, s => by
    simp only [Prog.expected, Prog.says, Prog.ways, shown_cons, List.count_cons, Prog.shown r]
    omega
  | .call sp r, k, n, s => by
    simp only [Prog.expected, Prog.says, Prog.ways, shown_cons, List.count_cons, Prog.shown r]
    omega
  | .ite sp lt le hi t e r, k, n, s => by
    simp only [Prog.expected, Prog.says, Prog.ways, shown_cons, shown_append, List.count_cons, List.count_append,
      Prog.shown t, Prog.shown e, Prog.shown r]
    omega
  | .only sp lt hi t r, k, n, s => by
    simp only [Prog.expected, Prog.says, Prog.ways, shown_cons, shown_append, List.count_cons, List.count_append,
      Prog.shown t, Prog.shown r]
    omega
  | .mtch sp ds i f as r, k, n, s => by
    have := Arms.shown as (k + 1 + 1 + f.size) s ⟨k, n + 1⟩
    simp only [Prog.expected, Prog.says, Prog.ways, shown_cons, shown_append, List.map_cons, List.count_cons,
      List.count_append, Prog.shown f, Prog.shown r]
    omega
  | .whl sp sc lt hi sb c t r, k, n, s => by
    simp only [Prog.expected, Prog.says, Prog.ways, shown_cons, shown_append, List.count_cons, List.count_append,
      Prog.shown t, Prog.shown r]
    omega
  | .frl sp sa sc hi sn lb li nb t r, k, n, s => by
    simp only [Prog.expected, Prog.says, Prog.ways, shown_cons, shown_append, List.count_cons, List.count_append,
      Prog.shown t, Prog.shown r]
    omega
theorem Arms.shown : ∀ (as : Arms) (k s : Nat) (l : Loc),
    Walk.shown s ((as.entries k).map (fun e => (l, e.1, e.2))) + Walk.shown s (as.expected k).flatten =
      as.says.count s + as.ways.count s
  | .last i f, k, s, l => by
    simp only [Arms.entries, Arms.expected, Arms.says, Arms.ways, List.map_cons, List.map_nil, List.flatten_cons,
      List.flatten_nil, List.append_nil, shown_cons, shown_nil, List.count_cons, Prog.shown f]
    omega
  | .cons i f as, k, s, l => by
    have := Arms.shown as (k + 1 + f.size) s l
    simp only [Arms.entries, Arms.expected, Arms.says, Arms.ways, List.map_cons, List.flatten_cons, shown_cons,
      shown_append, List.count_cons, List.count_append, Prog.shown f]
    omega
end

/-- Nothing is left out and nothing is shown twice: the spans at which the steps of a program are shown are those of its
statements, of its branching constructs and of the whole, each as often as it occurs there; and there are as many
branches as branching constructs. -/
theorem C102_complete (p : Prog) (sp : Nat) {fuel : Nat} (hfu : fuel ≠ 0)
    {order : List (Loc × Nat) → List (Loc × Nat)} (ho : ∀ l, (order l).Perm l) :
    ∃ f locals, compute (.ofBody p.body fuel order) (p.source sp) = .steps f locals ∧
      (f.segs.map (·.span)).Perm (p.says ++ (p.ways ++ [sp])) ∧ f.branches.length = p.forks := by
  obtain ⟨f, locals, h1, h2, h3⟩ := C102_programs p sp hfu ho
  refine ⟨f, locals, h1, ?_, ?_⟩
  · have h4 : f.segs.map (·.span) = ((p.expected 0 0 ++
        [(p.finAt 0 0, ⟨(p.finAt 0 0).block, (p.finAt 0 0).idx + 1⟩, sp)] : List Step)).map (fun x => x.2.2) := by
      rw [← h2, List.map_map]
      rfl
    rw [List.perm_iff_count]
    intro s
    rw [h4, List.map_append, List.count_append, List.count_append, List.count_append]
    have := p.shown 0 0 s
    unfold Walk.shown at this
    rw [this, Nat.add_assoc]
    rfl
  · have := congrArg List.length h3
    rwa [List.length_map, List.length_map, Prog.joins_length] at this

/-- The order of the entries of the spanner does not matter. -/
theorem C102_order (p : Prog) (sp : Nat) {fuel fuel' : Nat} (hfu : fuel ≠ 0) (hfu' : fuel' ≠ 0)
    {order order' : List (Loc × Nat) → List (Loc × Nat)} (ho : ∀ l, (order l).Perm l) (ho' : ∀ l, (order' l).Perm l) :
    ∃ f f' locals locals', compute (.ofBody p.body fuel order) (p.source sp) = .steps f locals ∧
      compute (.ofBody p.body fuel' order') (p.source sp) = .steps f' locals' ∧
      f.segs.map (fun g => (g.from, g.to, g.span)) = f'.segs.map (fun g => (g.from, g.to, g.span)) ∧
      f.branches.map (fun x => (x.reachFrom, x.reachTo)) = f'.branches.map (fun x => (x.reachFrom, x.reachTo)) := by
  obtain ⟨f, locals, h1, h2, h3⟩ := C102_programs p sp hfu ho
  obtain ⟨f', locals', h1', h2', h3'⟩ := C102_programs p sp hfu' ho'
  exact ⟨f, f', locals, locals', h1, h1', by rw [h2, h2'], by rw [h3.ends, h3'.ends]⟩

/-! ## A program

```text
let x = 1;
while c(x) {
  match y { A(a) => { f(); } B => { if d { z = 1; } } C => { } }
}
for p in e { if g { h(); } else { w = 2; } }
```
-/

namespace Example

def small : Prog :=
  .bind 10 [0] (.whl 20 21 22 23 24 1
    (.mtch 30 1 ⟨31, 32, 1⟩ (.call 33 .fin) (.last ⟨34, 35, 0⟩ .fin) .fin) .fin)

/-- The loop has a call in its condition; the arms of the `match` begin behind the variables of their patterns. -/
example : small.size = 11 ∧ small.forks = 2 ∧ small.says = [10, 33] ∧
    small.expected 0 0 = [(⟨0, 0⟩, ⟨0, 1⟩, 10), (⟨0, 1⟩, ⟨3, 1⟩, 21), (⟨3, 1⟩, ⟨10, 0⟩, 23), (⟨3, 1⟩, ⟨4, 0⟩, 22),
      (⟨4, 0⟩, ⟨4, 1⟩, 30), (⟨4, 1⟩, ⟨6, 1⟩, 31), (⟨4, 1⟩, ⟨8, 0⟩, 34), (⟨6, 1⟩, ⟨6, 1⟩, 32), (⟨6, 1⟩, ⟨7, 0⟩, 33),
      (⟨8, 0⟩, ⟨8, 0⟩, 35), (⟨10, 0⟩, ⟨10, 0⟩, 24), (⟨10, 0⟩, ⟨10, 1⟩, 20)] ∧
    small.joins 0 0 = [(⟨3, 1⟩, ⟨10, 0⟩, [(⟨3, 1⟩, ⟨10, 0⟩, 23), (⟨3, 1⟩, ⟨4, 0⟩, 22)]),
      (⟨4, 2⟩, ⟨9, 0⟩, [(⟨4, 1⟩, ⟨6, 1⟩, 31), (⟨4, 1⟩, ⟨8, 0⟩, 34)])] := by decide

/-- What the model shows of it, run on the example, not by the theorem. -/
example : (match compute (.ofBody small.body 3 id) (small.source 50) with
    | .steps f _ => decide (f.segs.map (fun g => (g.from, g.to, g.span)) = small.expected 0 0 ++
        [(⟨10, 1⟩, ⟨10, 2⟩, 50)] ∧ f.branches.map (fun x => (x.reachFrom, x.reachTo, x.splits)) =
          [(⟨3, 1⟩, ⟨10, 0⟩, [2, 3]), (⟨4, 2⟩, ⟨9, 0⟩, [5, 6])])
    | _ => false) = true := by decide +kernel

/-- A larger one; the theorems hold of it. -/
def large : Prog :=
  .bind 10 [0] (.whl 20 21 22 23 24 1
    (.mtch 30 1 ⟨31, 32, 1⟩ (.call 33 .fin) (.cons ⟨34, 35, 0⟩ (.only 36 37 38 (.act 39 .fin) .fin) (.last ⟨40, 41, 0⟩ .fin))
      .fin)
    (.frl 50 51 52 53 54 55 56 1 (.ite 60 61 62 65 (.call 63 .fin) (.act 64 .fin) .fin) .fin))

example : large.size = 27 ∧ large.forks = 5 ∧ large.says = [10, 33, 39, 63, 64] ∧ (large.expected 0 0).length = 30 := by
  decide

example : ∃ f locals, compute (.ofBody large.body 3 List.reverse) (large.source 70) = .steps f locals ∧
    f.segs.length = 31 ∧ f.branches.length = 5 := by
  obtain ⟨f, locals, h1, h2, h3⟩ := C102_programs large 70 (by decide : 3 ≠ 0) (order := List.reverse)
    (fun l => List.reverse_perm l)
  refine ⟨f, locals, h1, ?_, ?_⟩
  · have := congrArg List.length h2
    rw [List.length_map] at this
    exact this
  · have := congrArg List.length h3
    rw [List.length_map, List.length_map] at this
    exact this

end Example

end Verif.Walk
