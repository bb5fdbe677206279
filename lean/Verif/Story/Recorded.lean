import Verif.Story.Recursion
import Verif.Value.Layout
/-!
# The model against recorded outputs: the interpreter

`crates/aquascope/tests/snapshots/interpreter__*.snap` are outputs of the real tool for the programs in
`crates/aquascope/tests/interpreter/`. Here the executions of the programs are written as stories, and the states that are
shown by C126 are compared with the recorded ones: the functions on the stack and the place of each, where line `l` and
column `c` are the number `100 l + c`. Function 0 is `main`. These are tests of the model, not proofs about it.
-/
namespace Verif.Story.Recorded
open Verif.Mapper Verif.Story Verif.Story.Spec Verif.Value

/-- `fn main() {` and `||` -/
def head : Nat → Span
  | 0 => ⟨0, 9⟩
  | _ => ⟨210, 212⟩

/-- What is shown of a story: the call stacks. -/
def shown (p : Program Nat) : List CallStack :=
  (joined ((p.stretches head).filter fun x => Seen x.2)).map (·.2)

/-- The visits of a function that works at each of the places, and calls nothing of the user's. -/
def visits : List Span → Visits Nat
  | [] => .done
  | sp :: r => .visit (some sp) (.work 0 1 (.work 1 2 .done)) (visits r)

def straight (places : List Span) : Program Nat where
  before := []
  first := (0, 0)
  main := 0
  body := visits places
  after := []

/-- basic.test: `let mut x = 1; let y = x; x += 1;` -/
example : shown (straight [⟨102, 116⟩, ⟨202, 212⟩, ⟨302, 309⟩, ⟨400, 401⟩]) =
    [[(0, some ⟨0, 9⟩)], [(0, some ⟨102, 116⟩)], [(0, some ⟨202, 212⟩)], [(0, some ⟨302, 309⟩)], [(0, some ⟨400, 401⟩)]] := by decide +kernel

/-- box.test: `let mut x = Box::new(0); *x += 1; let y = x;` -/
example : shown (straight [⟨102, 126⟩, ⟨202, 210⟩, ⟨302, 312⟩, ⟨400, 401⟩]) =
    [[(0, some ⟨0, 9⟩)], [(0, some ⟨102, 126⟩)], [(0, some ⟨202, 210⟩)], [(0, some ⟨302, 312⟩)], [(0, some ⟨400, 401⟩)]] := by decide +kernel

/-- error.test: `let mut v = vec![1, 2, 3]; let y = &v[0]; v.push(0); let n = *y;` -/
example : shown (straight [⟨102, 128⟩, ⟨202, 216⟩, ⟨302, 312⟩, ⟨402, 413⟩]) =
    [[(0, some ⟨0, 9⟩)], [(0, some ⟨102, 128⟩)], [(0, some ⟨202, 216⟩)], [(0, some ⟨302, 312⟩)], [(0, some ⟨402, 413⟩)]] := by decide +kernel

/-- nested-ref.test: `let x = [(0, 1), (2, 3)]; let y = &x[1].1;` -/
example : shown (straight [⟨102, 127⟩, ⟨202, 218⟩, ⟨300, 301⟩]) =
    [[(0, some ⟨0, 9⟩)], [(0, some ⟨102, 127⟩)], [(0, some ⟨202, 218⟩)], [(0, some ⟨300, 301⟩)]] := by decide +kernel

/-- stackref.test: `let mut x = 1; let y = &mut x; *y += 1;` -/
example : shown (straight [⟨102, 116⟩, ⟨202, 217⟩, ⟨302, 310⟩, ⟨400, 401⟩]) =
    [[(0, some ⟨0, 9⟩)], [(0, some ⟨102, 116⟩)], [(0, some ⟨202, 217⟩)], [(0, some ⟨302, 310⟩)], [(0, some ⟨400, 401⟩)]] := by decide +kernel

/-- tuple.test: `let mut x = (0, String::from("Hello")); x.0 += 1;` -/
example : shown (straight [⟨102, 141⟩, ⟨202, 211⟩, ⟨300, 301⟩]) =
    [[(0, some ⟨0, 9⟩)], [(0, some ⟨102, 141⟩)], [(0, some ⟨202, 211⟩)], [(0, some ⟨300, 301⟩)]] := by decide +kernel

/-- closure.test: `let x = 0; let f = || x; let y = f();`. The closure has no block: its work is at no place, until the
last character of its text, which counts as its closing brace. -/
def closureStory : Program Nat where
  before := []
  first := (0, 0)
  main := 0
  body :=
    .visit (some ⟨102, 112⟩) (.work 0 1 .done) <| .visit (some ⟨202, 215⟩) (.work 1 2 .done) <|
      .visit (some ⟨302, 314⟩)
        (.work 2 3 (.call 3 4 1 (.visit none (.work 4 5 .done) (.visit (some ⟨213, 214⟩) (.work 5 6 .done) .done)) 6 7
          (.work 7 8 .done))) <|
      .visit (some ⟨400, 401⟩) (.work 8 9 .done) .done
  after := []

example : shown closureStory =
    [[(0, some ⟨0, 9⟩)], [(0, some ⟨102, 112⟩)], [(0, some ⟨202, 215⟩)], [(0, some ⟨302, 314⟩)],
      [(0, some ⟨302, 314⟩), (1, some ⟨210, 212⟩)], [(0, some ⟨302, 314⟩), (1, some ⟨213, 214⟩)],
      [(0, some ⟨302, 314⟩)], [(0, some ⟨400, 401⟩)]] := by decide +kernel

/-! The recorded paths of the pointers. -/

/-- nested-ref.test: `&x[1].1` in `[(0, 1), (2, 3)]`, 12 bytes behind its start -/
example : locateAddress (.array (.tuple (.cons 0 (.prim 4) (.cons 4 (.prim 4) .nil)) 8) 2) 16 none 12 =
    .ok [.index 1, .field 1] := by
  simp [locateAddress, locate, locateFields, Ty.size]

/-- box.test: the number in `Box::new(0)` -/
example : locateAddress (.prim 4) 4 none 0 = .ok [] := by
  simp [locateAddress, locate, locateFields, Ty.size]

/-- error.test: the first number of a vector, before and after it has grown; tuple.test: the first byte of a string -/
example : locateAddress (.prim 4) 12 none 0 = .ok [.index 0] ∧ locateAddress (.prim 4) 24 none 0 = .ok [.index 0] ∧
    locateAddress (.prim 1) 5 none 0 = .ok [.index 0] := by
  simp [locateAddress, locate, locateFields, Ty.size]

end Verif.Story.Recorded
