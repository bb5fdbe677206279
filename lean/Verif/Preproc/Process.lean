import Verif.Preproc.Model
/-!
# Waiting for the analyser

Model of the lines of `run_aquascope` that start the analyser and wait for it
(crates/mdbook-aquascope/src/preprocessor.rs:86-94): the two output streams are pipes, the parent waits at most ten
seconds for the child to exit, and reads the pipes only after that.

Simplifications. A pipe holds `cap` bytes (65536 by default on Linux) and a write blocks while it is full; a write is
done byte by byte. The child is a fixed sequence of writes and other work, it reads nothing and is not disturbed.
Its descendants are part of it. Waiting itself does not fail. A timeline is the sequence of the child's turns and of
the seconds that pass; a turn in which the child is blocked does nothing.
-/
namespace Verif.Preproc.Process

/-- What the child does next. -/
inductive Act
  | out (b : UInt8)
  | err (b : UInt8)
  | work
  deriving DecidableEq, Repr

/-- The child: what it does before it exits, and whether its exit status is success. -/
structure Child where
  acts : List Act
  success : Bool
  deriving Repr

/-- The child's progress and the contents of the pipes. -/
structure Pipes where
  todo : List Act
  out : List UInt8
  err : List UInt8
  deriving DecidableEq, Repr

/-- A turn of the child: a write to a full pipe blocks. -/
def turn (cap : Nat) (p : Pipes) : Pipes :=
  match p.todo with
  | [] => p
  | .work :: r => { p with todo := r }
  | .out b :: r => if p.out.length < cap then { p with todo := r, out := p.out ++ [b] } else p
  | .err b :: r => if p.err.length < cap then { p with todo := r, err := p.err ++ [b] } else p

/-- An event of the timeline. -/
inductive Event
  | child
  | second
  deriving DecidableEq, Repr

/-- How the wait ends. `running`: the timeline ended before. `exited`: the output that `wait_with_output` collects
(preprocessor.rs:94). `timedOut`: the child is killed (preprocessor.rs:89-91). -/
inductive Ended
  | running
  | exited (success : Bool) (out err : List UInt8)
  | timedOut
  deriving DecidableEq, Repr

/-- `child.wait_timeout(Duration::from_secs(10))` followed by `child.wait_with_output()` (preprocessor.rs:88-94);
`left`: the seconds that remain. The exit of the child is noticed at once. -/
def wait (cap : Nat) (success : Bool) : Nat → Pipes → List Event → Ended
  | left, p, es =>
    if p.todo = [] then .exited success p.out p.err
    else if left = 0 then .timedOut
    else match es with
      | [] => .running
      | .child :: r => wait cap success left (turn cap p) r
      | .second :: r => wait cap success (left - 1) p r
  termination_by _ _ es => es.length

/-- The time limit in seconds (preprocessor.rs:88). -/
def limit : Nat := 10

/-- From `spawn` on. -/
def run (cap : Nat) (c : Child) (es : List Event) : Ended := wait cap c.success limit ⟨c.acts, [], []⟩ es

/-- What the rest of `run_aquascope` sees, with `read` for the decoding of the answer; `none` while it waits. -/
def outcome (read : List UInt8 → Option Json) : Ended → Option Outcome
  | .running => none
  | .timedOut => some .timedOut
  | .exited success out _ => some (.finished success (read out))

end Verif.Preproc.Process
