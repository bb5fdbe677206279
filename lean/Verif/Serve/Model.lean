/-!
# Model of the playground server

Models `crates/aquascope_serve/src/container.rs`, `server.rs` and the configuration and request types of
`main.rs`.

Simplifications.
* External commands are parameters (`Env`): what creating the directory, `cargo new`, writing the file,
  looking up the Miri sysroot and running the tool give for a request.  The tool is a function of its arguments
  and of the file `src/main.rs` it finds in its working directory.
* A temporary directory is a number that is not in use when it is handed out, and may be handed out again once
  the directory was removed (`tempfile`); of its contents only `src/main.rs` is kept.
* Between two `await` points a request runs without interruption; the schedule chooses whose part is next.
* What counts as white space is a parameter (`str::trim`).
* `cmd.output()` does not kill the child when the future is dropped at a timeout (`kill_on_drop` is false by
  default in `tokio`).
* A panic in a handler closes the connection without an answer.
* Logging and cross-origin headers are left out.
-/
namespace Verif.Serve

abbrev Text := List Char

/-- A JSON value of a request's `config` field. -/
inductive Json
  | null
  | bool (b : Bool)
  | str (s : Text)
  | arr (vs : List Json)
  | obj (fields : List (Text × Json))

inductive Op
  | permissions
  | interpreter
  deriving DecidableEq, Repr

/-- `SingleFileRequest` (main.rs:58-62). -/
structure Request where
  code : Text
  config : Option Json

/-- The end of a command. -/
inductive CmdEnd
  /-- it could not be started -/
  | failed
  | timeout
  /-- outputs; `none`: not UTF-8.  The exit status is not looked at. -/
  | done (stdout stderr : Option Text)
  deriving DecidableEq, Repr

/-- The outside world as one request meets it. -/
structure Env where
  tempdir : Bool
  cargoNew : CmdEnd
  write : Bool
  sysroot : Bool
  /-- operation, whether `--should-fail` is given, contents of `src/main.rs` -/
  tool : Op → Bool → Option Text → CmdEnd

/-- `container::Error` (container.rs:12-28). -/
inductive Error
  | tempdir
  | writeFile
  | exec
  | timedOut
  | misc
  deriving DecidableEq, Repr

/-- `ServerResponse` (main.rs:64-69). -/
structure Response where
  success : Bool
  stdout : Text
  stderr : Text
  deriving DecidableEq, Repr

inductive Reply
  | ok (r : Response)
  /-- status 500; `creating`: `ContainerCreation`, otherwise the error of the operation -/
  | error (creating : Bool) (e : Error)
  /-- the handler panicked: no answer -/
  | dropped
  deriving DecidableEq, Repr

/-- `stdout.trim()`. -/
def trim (ws : Char → Bool) (s : Text) : Text := ((s.dropWhile ws).reverse.dropWhile ws).reverse

def shouldFailKey : Text := ['s', 'h', 'o', 'u', 'l', 'd', 'F', 'a', 'i', 'l']

/-- `interpreter_command` (container.rs:207-229): `--should-fail`; `permissions_command` (196-207) never gives
it. -/
def flag (op : Op) (req : Request) : Bool :=
  match op, req.config with
  | .interpreter, some (.obj fields) => fields.any (fun f => f.1 == shouldFailKey)
  | _, _ => false

/-- How far a request is. -/
inductive Phase
  | start
  | haveDir (d : Nat)
  | project (d : Nat)
  | written (d : Nat)
  | answered (r : Reply)
  deriving DecidableEq, Repr

def Phase.dir : Phase → Option Nat
  | .haveDir d | .project d | .written d => some d
  | _ => none

structure Job where
  op : Op
  req : Request
  env : Env
  phase : Phase

/-- The server: the requests, and the live directories with the contents of `src/main.rs`. -/
structure Sys where
  jobs : List Job
  files : List (Nat × Option Text)
  /-- children left running after a timeout -/
  orphans : Nat

def Sys.file (s : Sys) (d : Nat) : Option Text :=
  match s.files.find? (fun f => f.1 == d) with
  | some f => f.2
  | none => none

/-- Dropping the `TempDir` removes the directory. -/
def remove (files : List (Nat × Option Text)) (d : Nat) : List (Nat × Option Text) :=
  files.filter (fun f => f.1 != d)

def write (files : List (Nat × Option Text)) (d : Nat) (t : Text) : List (Nat × Option Text) :=
  files.map (fun f => if f.1 == d then (d, some t) else f)

/-- The file written by `cargo new`. -/
def template : Text := ['f', 'n', ' ', 'm', 'a', 'i', 'n', '(', ')', ' ', '{', '}']

def Sys.set (s : Sys) (i : Nat) (j : Job) (p : Phase) (files : List (Nat × Option Text)) (o : Nat := 0) : Sys :=
  { jobs := s.jobs.set i { j with phase := p }, files := files, orphans := s.orphans + o }

/-- `Container::new` (container.rs:50-60): the directory. -/
def stepStart (s : Sys) (i : Nat) (j : Job) (d : Nat) : Sys :=
  if j.env.tempdir then s.set i j (.haveDir d) ((d, none) :: s.files)
  else s.set i j (.answered (.error true .tempdir)) s.files

/-- `cargo_new` (container.rs:107-133) with `exec_output` (83-106). -/
def stepCargo (ws : Char → Bool) (s : Sys) (i : Nat) (j : Job) (d : Nat) : Sys :=
  match j.env.cargoNew with
  | .failed => s.set i j (.answered (.error true .exec)) (remove s.files d)
  | .timeout => s.set i j (.answered (.error true .timedOut)) (remove s.files d) 1
  | .done (some _) (some err) =>
    if (trim ws err).isEmpty then s.set i j (.project d) (write s.files d template)
    else s.set i j (.answered .dropped) (remove s.files d)
  | .done _ _ => s.set i j (.answered .dropped) (remove s.files d)

/-- `write_source_code` (container.rs:147-150) and `miri_sysroot()?` in the construction of the command. -/
def stepWrite (s : Sys) (i : Nat) (j : Job) (d : Nat) : Sys :=
  if j.env.write then
    if j.env.sysroot then s.set i j (.written d) (write s.files d j.req.code)
    else s.set i j (.answered (.error false .misc)) (remove s.files d)
  else s.set i j (.answered (.error false .writeFile)) (remove s.files d)

/-- `permissions` and `interpreter` (container.rs:155-194) from `exec_output` on. -/
def stepRun (ws : Char → Bool) (s : Sys) (i : Nat) (j : Job) (d : Nat) : Sys :=
  match j.env.tool j.op (flag j.op j.req) (s.file d) with
  | .failed => s.set i j (.answered (.error false .exec)) (remove s.files d)
  | .timeout => s.set i j (.answered (.error false .timedOut)) (remove s.files d) 1
  | .done (some out) (some err) =>
    s.set i j (.answered (.ok ⟨!(trim ws out).isEmpty, out, err⟩)) (remove s.files d)
  | .done _ _ => s.set i j (.answered .dropped) (remove s.files d)

/-- The next part of request `i`; `fresh` is the directory handed out if it asks for one. -/
def step (ws : Char → Bool) (s : Sys) (i fresh : Nat) : Option Sys :=
  match s.jobs[i]? with
  | none => none
  | some j =>
    match j.phase with
    | .start => if s.files.any (fun f => f.1 == fresh) then none else some (stepStart s i j fresh)
    | .haveDir d => some (stepCargo ws s i j d)
    | .project d => some (stepWrite s i j d)
    | .written d => some (stepRun ws s i j d)
    | .answered _ => none

/-- Running a schedule; impossible choices are skipped. -/
def run (ws : Char → Bool) : List (Nat × Nat) → Sys → Sys
  | [], s => s
  | (i, d) :: r, s =>
    match step ws s i d with
    | some s' => run ws r s'
    | none => run ws r s

/-- The server when the requests have arrived. -/
def initial (reqs : List (Op × Request × Env)) : Sys :=
  ⟨reqs.map (fun q => ⟨q.1, q.2.1, q.2.2, .start⟩), [], 0⟩

/-! ## HTTP -/

inductive Method
  | get
  | post
  | other
  deriving DecidableEq, Repr

def hiPath : Text := ['/', 'h', 'i']
def permissionsPath : Text := ['/', 'p', 'e', 'r', 'm', 'i', 's', 's', 'i', 'o', 'n', 's']
def interpreterPath : Text := ['/', 'i', 'n', 't', 'e', 'r', 'p', 'r', 'e', 't', 'e', 'r']

inductive Routed
  | hello
  /-- 404 -/
  | noRoute
  /-- 405 -/
  | wrongMethod
  /-- status 200 with an `error` field -/
  | unreadable
  | run (op : Op) (req : Request)

/-- The router (server.rs:20-33) with the `Json` extractor (111-132); `body`: the request if it can be read. -/
def route (m : Method) (path : Text) (body : Option Request) : Routed :=
  if path = hiPath then (if m = .get then .hello else .wrongMethod)
  else
    let op? : Option Op :=
      if path = permissionsPath then some .permissions
      else if path = interpreterPath then some .interpreter
      else none
    match op? with
    | none => .noRoute
    | some op =>
      if m = .post then
        match body with
        | none => .unreadable
        | some req => .run op req
      else .wrongMethod

end Verif.Serve
