import Verif.Pipeline.Straight

/-! # C97: examples and counterexamples -/
namespace Verif.Pipeline

open Verif.Cfg Verif.Segments Verif.Steps Verif.Permissions Verif.HirSteps

/-- One basic block with three statements. -/
def oneBlock : Body := [⟨3, .ret, false⟩]

/-- `{ let x = 1; use(x); }`: the assignment, the fake read of the `let`, the use -/
def openFn : Expr := blockOf (some ⟨0, 0⟩) (some ⟨0, 3⟩) 1
  [.lt (at' 0 0 1 2) [1] (some (leaf 0 0 0 4)) none, stm 0 2 2 5] none

/-- `{ let x = { 1 }; use(x); }` -/
def hiddenFn : Expr := blockOf (some ⟨0, 0⟩) (some ⟨0, 3⟩) 1
  [.lt (at' 0 0 1 2) [1] (some (blockOf (some ⟨0, 0⟩) (some ⟨0, 0⟩) 3 [] (some (leaf 0 0 0 4)))) none, stm 0 2 2 5] none

def openFrozen : Frozen :=
  ⟨[⟨[.linear 0, .linear 1, .linear 2], none⟩], [],
    [⟨⟨0, 0⟩, ⟨0, 2⟩, 20, 1⟩, ⟨⟨0, 2⟩, ⟨0, 3⟩, 50, 1⟩, ⟨⟨0, 3⟩, ⟨0, 3⟩, 10, 0⟩], [(1, 0), (2, 1), (3, 1)]⟩

def hiddenFrozen : Frozen :=
  ⟨[⟨[.linear 0, .linear 1, .linear 2, .linear 3], none⟩], [],
    [⟨⟨0, 0⟩, ⟨0, 1⟩, 40, 3⟩, ⟨⟨0, 1⟩, ⟨0, 2⟩, 20, 1⟩, ⟨⟨0, 2⟩, ⟨0, 3⟩, 50, 1⟩, ⟨⟨0, 3⟩, ⟨0, 3⟩, 10, 0⟩],
    [(1, 0), (2, 1), (3, 2), (4, 1)]⟩

theorem open_steps : compute (plainEnv oneBlock) openFn = .steps openFrozen [(2, [1])] := by
  unfold openFn
  unfold_visit
  decide +kernel

theorem hidden_steps : compute (plainEnv oneBlock) hiddenFn = .steps hiddenFrozen [(2, [1])] := by
  unfold hiddenFn
  unfold_visit
  decide +kernel

def px : Place := ⟨1, []⟩

/-- A value that may be read and dropped between its assignment and its last use. -/
def pxData (l : Loc) : Data :=
  { typeDroppable := true, typeWriteable := false, typeCopyable := true, isLive := l.idx = 1 || l.idx = 2,
    pathUninitialized := l.idx = 0, pathMoved := none, loanReadRefined := none, loanWriteRefined := none,
    loanDropRefined := none }

/-- The opening brace on line 0, the `let` on line 1, the use on line 2, the closing brace on line 3. -/
def exSrc : List Char := ['{', '\n', 'a', 'b', '\n', 'c', '\n', '}']

def exCtxt : Ctxt where
  places := [px]
  data := fun l _ => pxData l
  endOf := fun sp => match sp with | 40 => 3 | 20 => 4 | 50 => 6 | _ => 8
  locSpan := fun _ => (0, 0)
  start := ⟨0, 0⟩
  brace := 1

/-- The rows on the page: the line, the variable and what the cells say. -/
def rowsOf (ds : Option (List Display)) : Option (List (Nat × Nat × List Bool)) :=
  ds.map (·.flatMap fun d => d.state.map fun e => (lineOf exSrc d.pos, e.1.local_,
    (Frontend.cells e.2).flatMap (fun c => [c.mark.says.1, c.mark.says.2])))

/-- Of `let x = 1; use(x);` the page shows the gain and the loss. -/
theorem open_rows : rowsOf (finalizeBody exCtxt openFrozen [(2, [1])] id exSrc none (fun _ => true) .changes) =
    some [(1, 1, [false, true, false, false, false, true]), (2, 1, [true, false, false, false, true, false])] := by decide +kernel

/-- **C97 (a gain that is never shown).** Of `let x = { 1 }; use(x);` the page shows only the loss: the variable
gets its permissions in a step inside the initialiser of its own `let`, where it is filtered out, and the step of
the `let` itself no longer changes anything. -/
theorem C97_block_hides : compute (plainEnv oneBlock) hiddenFn = .steps hiddenFrozen [(2, [1])] ∧
    rowsOf (finalizeBody exCtxt hiddenFrozen [(2, [1])] id exSrc none (fun _ => true) .changes) =
      some [(2, 1, [true, false, false, false, true, false])] ∧
    (∃ s ∈ hiddenFrozen.segs, lineOf exSrc (exCtxt.endOf s.span) = 1 ∧
      (exCtxt.data s.from px).permissions = ⟨false, false, false⟩ ∧
      (exCtxt.data s.to px).permissions = ⟨true, false, true⟩) :=
  ⟨hidden_steps, by decide +kernel, ⟨⟨0, 0⟩, ⟨0, 1⟩, 40, 3⟩, by decide +kernel, by decide +kernel, by decide +kernel,
    by decide +kernel⟩

/-! ## The hypotheses can be met -/

example : Straight oneBlock 5 id openFn := by
  refine ⟨by decide, ?_, ?_⟩
  · intro l
    have : (dueBody oneBlock.mapper.isSwitch oneBlock.locationSuccessor openFn).all (fun d => match d with
        | .fork _ => false
        | _ => true) = true := by decide +kernel
    intro h
    simpa using List.all_eq_true.1 this _ h
  · decide +kernel

end Verif.Pipeline
