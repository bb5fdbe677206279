import Verif.Boundaries.WholeOrder
/-!
# C98: examples and counterexamples
-/
namespace Verif.Boundaries

open Verif.Permissions (Perms Place)
open Verif.Cfg (Loc)

/-- Facts with one loan of path 1, live at the given points. -/
def demoFacts (mutLoan : Bool) (live : List Nat) : Facts.Input :=
  { cfgEdge := [(0, 1), (1, 2), (2, 3), (3, 4), (4, 5)], uninitExit := [], childPath := [], moves := []
    interior := fun _ => [], parents := fun _ => [], assigned := [], conflict := fun a b => a == b
    issued := [0], borrowed := fun _ => 1, isMutLoan := fun _ => mutLoan, loanLive := live.map fun p => (0, p)
    paths := [1, 2], varLive := [], varOf := id, writeEnabled := fun _ => true, dropEnabled := fun _ => true
    copyable := fun _ => false }

def emptyOut : Facts.Output :=
  ⟨fun _ _ => none, fun _ _ => none, fun _ _ => none, fun _ _ => false, fun _ _ => none, fun _ => []⟩

def noFlows : Flow.Input := ⟨[], [], [], [], [], []⟩

/-- `{ let r = &mut v; v.push(1); take(r) }`: the loan of `v` is live until `r` is given away. -/
def demo : Whole :=
  { root := .other ⟨0, none, false, false⟩
      [.addrOf ⟨1, none, false, false⟩ true (.var ⟨2, none, false, false⟩),
       .methodCall ⟨3, none, false, false⟩ false (.var ⟨4, some true, false, false⟩) [.lit ⟨5, none, true, false⟩],
       .other ⟨6, none, false, false⟩ [.var ⟨7, none, false, false⟩]]
    src := ⟨fun n => ⟨10 * n, 10 * n + 5⟩, fun n => if n = 1 then some 11 else if n = 3 then some 13 else
      if n = 6 then some 6 else none⟩
    cfg := [⟨3, .ret, false⟩]
    hirToMir := [(1, [⟨0, 0⟩]), (4, [⟨0, 1⟩]), (7, [⟨0, 2⟩])]
    parents := fun n => if n = 1 then [11, 0] else if n = 4 then [3, 13, 0] else if n = 7 then [6, 0] else if n = 0 then [] else [0]
    order := id
    stmtAt := fun l => match l.idx with
      | 0 => .assign ⟨2, []⟩ [⟨1, []⟩]
      | 1 => .assign ⟨3, []⟩ [⟨1, []⟩]
      | 2 => .assign ⟨4, []⟩ [⟨2, []⟩]
      | _ => .other
    similar := fun _ => none
    visible := fun _ => true
    start := fun l => 2 * l.idx
    mid := fun l => 2 * l.idx + 1
    path := fun p => p.local_
    facts := demoFacts true [1, 2, 3, 4]
    out := (Facts.derive 10 (demoFacts true [1, 2, 3, 4])).getD emptyOut
    subsetBase := [], placeholders := []
    flows := (Flow.computeFlows noFlows).getD ⟨0, id, [], [], [], [], []⟩
    flowOn := true, asLocal := some, firstError := none }

/-- The borrow needs R and W and has both, the call needs both and has neither, giving `r` away needs R and O. -/
example : demo.boundaries =
    [⟨20, 20, ⟨true, true, false⟩, ⟨true, true, true⟩, none⟩,
     ⟨45, 45, ⟨true, true, false⟩, ⟨false, false, false⟩, none⟩,
     ⟨70, 70, ⟨true, false, true⟩, ⟨true, true, true⟩, none⟩] := by decide +kernel

theorem demo_fits : Fits demo noFlows where
  derived := ⟨10, by
    show _ = some ((Facts.derive 10 (demoFacts true [1, 2, 3, 4])).getD emptyOut)
    cases h : Facts.derive 10 (demoFacts true [1, 2, 3, 4]) with
    | none => exact absurd (congrArg Option.isSome h) (by decide +kernel)
    | some o => exact h⟩
  flows := by
    show _ = some ((Flow.computeFlows noFlows).getD ⟨0, id, [], [], [], [], []⟩)
    cases h : Flow.computeFlows noFlows with
    | none => exact absurd (congrArg Option.isSome h) (by decide)
    | some o => rfl
  constraints := rfl
  inBody := by
    intro k ls h l hl
    simp only [demo, List.mem_cons, Prod.mk.injEq, List.not_mem_nil, or_false] at h
    rcases h with ⟨_, rfl⟩ | ⟨_, rfl⟩ | ⟨_, rfl⟩ <;> simp at hl <;> subst hl <;> simp [demo]
  order := fun m => List.Perm.refl m

/-- The second boundary says that `v` cannot be read, because of a loan of it. -/
example : CannotRead demo 2 ⟨1, []⟩ :=
  .inr (.inr ⟨0, ⟨by decide, by decide, by decide, by decide⟩, rfl⟩)

/-- `{ &v }` as the value of a function: the loan's region 1 flows into region 2 of the return type. -/
def leakFlows : Flow.Input := ⟨[(1, 2)], [], [2], [], [(1, false)], []⟩

def leak : Whole :=
  { demo with
    root := .other ⟨0, none, false, false⟩ [.addrOf ⟨1, none, false, false⟩ false (.var ⟨2, none, false, false⟩)]
    src := ⟨fun n => ⟨10 * n, 10 * n + 5⟩, fun n => if n = 1 then some 1 else none⟩
    hirToMir := [(1, [⟨0, 0⟩])]
    subsetBase := [(1, 2, 1)]
    flows := (Flow.computeFlows leakFlows).getD ⟨0, id, [], [], [], [], []⟩
    firstError := some 3 }

/-- The boundary is after the error and shown because of the flow, which is not allowed. -/
example : leak.boundaries = [⟨20, 20, ⟨true, false, false⟩, ⟨true, true, true⟩, some true⟩] := by decide +kernel

/-- Without flow permissions it is not reported. -/
example : { leak with flowOn := false }.boundaries = [] := by decide +kernel

/-- A body in which a node has statements in two blocks, about different variables. -/
def twoBlocks : Whole :=
  { demo with
    root := .var ⟨4, none, true, false⟩
    cfg := [⟨0, .switchInt [1, 2], false⟩, ⟨1, .goto 3, false⟩, ⟨1, .goto 3, false⟩, ⟨0, .ret, false⟩]
    hirToMir := [(4, [⟨1, 0⟩, ⟨2, 0⟩])]
    parents := fun _ => []
    stmtAt := fun l => if l.idx = 0 then (if l.block = 1 then .assign ⟨3, []⟩ [⟨1, []⟩] else .assign ⟨3, []⟩ [⟨2, []⟩])
      else .other
    start := fun l => 2 * l.block
    mid := fun l => 2 * l.block + 1 }

/-- **Disagreement.** With statements in two blocks the boundary depends on the order in which a hash map is
iterated: read permission is missing in one order and present in the other. -/
theorem C98_order_matters :
    twoBlocks.boundaries = [⟨40, 40, ⟨true, false, false⟩, ⟨false, false, false⟩, none⟩] ∧
    (twoBlocks.reorder List.reverse).boundaries = [⟨40, 40, ⟨true, false, false⟩, ⟨true, true, true⟩, none⟩] := by
  constructor <;> decide +kernel

/-- `f(x, &mut y)` in which the statement for `x` was not attributed to the node of `x`. -/
def elsewhere : Whole :=
  { demo with
    root := .other ⟨0, none, false, false⟩ [.var ⟨1, none, true, false⟩, .var ⟨2, none, true, false⟩]
    src := ⟨fun n => ⟨10 * n, 10 * n + 5⟩, fun _ => none⟩
    hirToMir := [(2, [⟨0, 1⟩])]
    parents := fun n => if n = 0 then [] else [0] }

/-- **Disagreement.** A use whose node has no statements is judged by a statement of another use in the same
expression. -/
theorem C98_elsewhere : ∃ pb pt p, elsewhere.find pb = some (pt, p) ∧
    UseIn elsewhere.src 0 elsewhere.root pb.node pb.isLhs .copy 0 ⟨10, 10⟩ ∧
    ¬ (∃ l, LocOf elsewhere pb.node.node.id l) ∧
    LocOf elsewhere 2 ⟨0, 1⟩ ∧ pt = elsewhere.start ⟨0, 1⟩ := by
  refine ⟨⟨.var ⟨1, none, true, false⟩, false, fromCopy⟩, 2, ⟨1, []⟩, by decide +kernel, ?_, ?_, ?_, rfl⟩
  · exact .inside (c' := 0) (.inr ⟨rfl, rfl⟩) (.part (by simp))
      (.var (.inr ⟨rfl, rfl⟩) rfl)
  · rintro ⟨l, k, ls, h1, h2, h3⟩
    simp only [elsewhere, List.mem_singleton, Prod.mk.injEq] at h1
    obtain ⟨rfl, rfl⟩ := h1
    simp [elsewhere, Expr.node] at h3
  · exact ⟨2, [⟨0, 1⟩], by simp [elsewhere], by simp, .inl rfl⟩

end Verif.Boundaries
