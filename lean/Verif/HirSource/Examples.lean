import Verif.HirSource.Page
import Verif.HirSteps.Examples

/-! # C99: a function with two statements -/
namespace Verif.HirSource

open Verif.Cfg Verif.Mapper Verif.HirSteps Verif.Graph Verif.Segments

/-- `{ let x = make(); use(x); }`: the two calls end blocks, the last block is the clean-up of the second call. -/
def twoCalls : Body :=
  [⟨1, .other [1], false⟩, ⟨1, .other [2, 3], false⟩, ⟨1, .ret, false⟩, ⟨0, .other [], true⟩]

def twoParent : Nat → Option Nat
  | 1 => some 0
  | 2 => some 1
  | 3 => some 2
  | 4 => some 3
  | 5 => some 4
  | 6 => some 2
  | 7 => some 6
  | _ => none

theorem twoParent_lt : ∀ i p, twoParent i = some p → p < i := by
  intro i p h
  unfold twoParent at h
  split at h <;> simp at h <;> omega

def twoHir : Hir := ⟨twoParent, twoParent_lt⟩

/-- The storage of `x` ends at the end of the block, which is node 2, or in the wrong one, node 4, as part of the
`let`. -/
def twoSource (dead : Nat) : Source where
  body := twoCalls
  hir := twoHir
  hirOf := fun l => match l.block, l.idx with
    | 0, 0 => 4
    | 0, 1 => 5
    | 1, 0 => 4
    | 1, 1 => 7
    | 2, 0 => dead
    | 2, 1 => 1
    | _, _ => 7
  span := fun i => 10 * i
  lo := fun i => 10 * i + 1
  hi := fun i => 10 * i + 2
  letRead := fun l => if l = ⟨1, 0⟩ then some 1 else none

def twoValue : RExpr :=
  .other 1 [.block (.mk 2 [.lt 3 4 (some (.other 5 [])) none, .expr 6 (.other 7 [])] none)]

macro "unfold_source" : tactic => `(tactic| simp only [Source.compute, twoValue, Source.expr, Source.parts, Source.part,
  Source.block, Source.stmts, Source.stmt, Source.optExpr, Source.optBlock, compute, visitBody, visitExpr,
  visitOpt, visitParts, visitPart, visitStmts, visitStmt, visitOptBlock, visitBlock, Expr.node])

theorem two_units : units twoValue = [3, 6, 1] := by
  simp [units, twoValue, unitsExpr, unitsParts, unitsPart, unitsBlock, unitsStmts, unitsStmt, unitsOpt, unitsOptBlock,
    RExpr.id]

theorem two_straight : straightExpr twoValue = true := by
  simp [twoValue, straightExpr, straightParts, straightPart, straightBlock, straightStmts, straightStmt, straightOpt,
    straightOptBlock]

theorem two_valid : Valid twoCalls := by
  have h : (List.range 4).all (fun a => match twoCalls[a]? with
      | none => true
      | some d => d.term.targets.all fun t => decide (t < 4) && (!d.cleanup || match twoCalls[t]? with
        | none => true
        | some e => e.cleanup)) = true := by decide +kernel
  rw [List.all_eq_true] at h
  constructor
  · rintro a t ⟨d, hd, ht⟩
    have hlt := (List.getElem?_eq_some_iff.1 hd).1
    have := h a (List.mem_range.2 hlt)
    rw [hd] at this
    have := List.all_eq_true.1 this t ht
    simp only [Bool.and_eq_true, decide_eq_true_eq] at this
    exact this.1
  · rintro a d t e hd hc he ⟨d', hd', ht⟩
    rw [hd] at hd'
    cases hd'
    have hlt := (List.getElem?_eq_some_iff.1 hd).1
    have := h a (List.mem_range.2 hlt)
    rw [hd] at this
    have := List.all_eq_true.1 this t ht
    rw [he, hc] at this
    simp only [Bool.and_eq_true, decide_eq_true_eq, Bool.not_true, Bool.false_or] at this
    exact this.2
  · decide

theorem two_chain : Chain twoCalls [0, 1, 2] where
  head := rfl
  nodup := by decide
  step := by
    intro i x y hx hy
    have hi : i < 3 := (List.getElem?_eq_some_iff.1 hx).1
    have : i = 0 ∨ i = 1 ∨ i = 2 := by omega
    rcases this with rfl | rfl | rfl
    · cases hx; cases hy; decide +kernel
    · cases hx; cases hy; decide +kernel
    · cases hy
  last := by
    intro i x hx hy
    have hi : i < 3 := (List.getElem?_eq_some_iff.1 hx).1
    have : i = 0 ∨ i = 1 ∨ i = 2 := by omega
    rcases this with rfl | rfl | rfl
    · cases hy
    · cases hy
    · cases hx; exact ⟨by decide +kernel, by decide +kernel⟩
  all := by
    rintro n ⟨d, hd, hc, ht⟩
    have hn : n < 4 := (List.getElem?_eq_some_iff.1 hd).1
    have : n = 0 ∨ n = 1 ∨ n = 2 ∨ n = 3 := by omega
    rcases this with rfl | rfl | rfl | rfl <;> try (simp; done)
    cases hd
    simp at hc

/-- All locations of one node come before those of another. -/
def beforeAll (path : List Nat) (s : Source) (u w : Nat) : Bool :=
  match s.locations u true, s.locations w true with
  | some o, some o' => o.values.all fun l => o'.values.all fun l' =>
      decide (l.block ∈ path) && decide (l'.block ∈ path) &&
        (decide (path.idxOf l.block < path.idxOf l'.block) ||
          (decide (path.idxOf l.block = path.idxOf l'.block) && decide (l.idx ≤ l'.idx)))
  | _, _ => true

theorem beforeAll_spec {path : List Nat} {s : Source} {u w : Nat} (h : beforeAll path s u w = true) :
    ∀ l l', LocOf s u l → LocOf s w l' → Before path l l' := by
  intro l l' hl hl'
  obtain ⟨o, ho, hm⟩ := values_ne hl
  obtain ⟨o', ho', hm'⟩ := values_ne hl'
  unfold beforeAll at h
  rw [ho, ho'] at h
  have := List.all_eq_true.1 (List.all_eq_true.1 h l hm) l' hm'
  simp only [Bool.and_eq_true, decide_eq_true_eq, Bool.or_eq_true] at this
  obtain ⟨⟨h1, h2⟩, h3⟩ := this
  have key : ∀ {x : Nat}, x ∈ path → path[path.idxOf x]? = some x := fun hx => by
    rw [List.getElem?_eq_getElem (List.idxOf_lt_length_of_mem hx), List.getElem_idxOf]
  exact ⟨_, _, key h1, key h2, h3⟩

theorem two_inOrder : InOrder [0, 1, 2] (twoSource 2) (units twoValue) := by
  rw [two_units]
  unfold InOrder
  simp only [List.pairwise_cons, List.mem_cons, List.not_mem_nil, or_false, forall_eq_or_imp, forall_eq,
    false_implies, implies_true, List.Pairwise.nil, and_true]
  refine ⟨⟨.inr (beforeAll_spec (by decide +kernel)), .inl ?_⟩, .inl ?_⟩
  · exact .up (p := 2) rfl (.up (p := 1) rfl .here)
  · exact .up (p := 2) rfl (.up (p := 1) rfl .here)

/-- The hypotheses of `C99_statements` hold of this function, -/
theorem two_steps : ∃ f locals, (twoSource 2).compute 5 id twoValue = .steps f locals ∧
    f.segs.map (fun g => (g.from, g.to, g.span)) = consecutive startLoc (ends (twoSource 2) (units twoValue)) ∧
    f.branches = [] :=
  C99_statements (s := twoSource 2) two_valid two_chain (by decide) id two_straight two_inOrder

/-- and its steps are these: the `let`, the call and the end of the function. -/
example : consecutive startLoc (ends (twoSource 2) (units twoValue)) =
    [(⟨0, 0⟩, ⟨1, 1⟩, 30), (⟨1, 1⟩, ⟨2, 0⟩, 60), (⟨2, 0⟩, ⟨2, 1⟩, 10)] := by
  rw [two_units]
  decide +kernel

/-- The `let` declares `x`. -/
example : (twoSource 2).declared 4 = [1] := by decide +kernel

/-- The visitor itself agrees. -/
example : outcomeSegs ((twoSource 2).compute 5 id twoValue) =
    some [(⟨0, 0⟩, ⟨1, 1⟩, 30), (⟨1, 1⟩, ⟨2, 0⟩, 60), (⟨2, 0⟩, ⟨2, 1⟩, 10)] := by
  unfold_source
  decide +kernel

/-- **C99 (the order matters).** If code at the end of a block is mapped to a statement before the last, the statements
after it get no steps of their own. -/
theorem C99_out_of_order : outcomeSegs ((twoSource 4).compute 5 id twoValue) =
    some [(⟨0, 0⟩, ⟨2, 1⟩, 30), (⟨2, 1⟩, ⟨2, 1⟩, 10)] := by
  unfold_source
  decide +kernel

end Verif.HirSource
