import Verif.Serve.Props
/-!
# Clients that go away

A reader may close the page while a request is being worked on.  The server then drops the future of the handler at the `await` at
which it is: the container with its `TempDir` is dropped with it (container.rs:44-47, server.rs:57-68,94-95), and the child that
`cmd.output()` waits for (container.rs:88) is not killed.

Simplifications, in addition to those of `Serve/Model`.
* `hyper` and `axum`, from memory: the future of a handler is dropped when the connection is closed; nothing is sent.
* A client may also go away between two parts of a request that the server runs without a pause; the model allows more.
-/
namespace Verif.Serve

/-- What happens next: a part of a request, or its client goes away. -/
inductive Act
  | part (i fresh : Nat)
  | leave (i : Nat)
  deriving DecidableEq, Repr

/-- The children that run while a request is at an `await`: `cargo new` (container.rs:118), the tool (container.rs:160,182). -/
def Phase.children : Phase → Nat
  | .haveDir _ | .written _ => 1
  | _ => 0

/-- The files when the container of a request is dropped. -/
def dropContainer (files : List (Nat × Option Text)) (p : Phase) : List (Nat × Option Text) :=
  match p.dir with
  | some d => remove files d
  | none => files

/-- The handler of request `i` is dropped. -/
def leave (s : Sys) (i : Nat) : Sys :=
  match s.jobs[i]? with
  | none => s
  | some j =>
    match j.phase with
    | .answered _ => s
    | p => s.set i j (.answered .dropped) (dropContainer s.files p) p.children

/-- One thing happens; impossible choices are skipped. -/
def act (ws : Char → Bool) (s : Sys) : Act → Sys
  | .part i d => (step ws s i d).getD s
  | .leave i => leave s i

/-- All that happens. -/
def runActs (ws : Char → Bool) (as : List Act) (s : Sys) : Sys := as.foldl (act ws) s

end Verif.Serve
