import Verif.Block.Model
/-!
# Model of finding the compiler and its libraries

Models `crates/aquascope_workspace_utils/src/lib.rs:1-68` and `AquascopePreprocessor::new` and the environment of the
analyser in `crates/mdbook-aquascope/src/preprocessor.rs:28-43,62-71`.

Simplifications.  Text is a list of characters; output that is not UTF-8 is `none`.  `toml::from_str` of the file that
is compiled in is a parameter: a table of tables of values.  The machine is a function from the commands run so far and
the next one to its reply.  Loading the cache is a parameter (see `Cache`).
-/
namespace Verif.Toolchain

abbrev Text := List Char

/-- A command: the program and its arguments. -/
structure Cmd where
  prog : Text
  args : List Text
  deriving DecidableEq, Repr

/-- `std::process::Output`; the two texts are `none` if they are not UTF-8. -/
structure Out where
  success : Bool
  stdout : Option Text
  stderr : Option Text
  deriving DecidableEq, Repr

/-- The environment variables that are valid Unicode, and what a command gives; `none`: it cannot be started. -/
structure Host where
  env : Text → Option Text
  reply : List Cmd → Cmd → Option Out

/-- What a function ends with. -/
inductive Res (α : Type)
  | ok (a : α)
  | err
  | panic
  deriving DecidableEq, Repr

/-- The result and all commands run so far, the last one first. -/
abbrev Run (α : Type) := Res α × List Cmd

/-- `?`. -/
def andThen (r : Run α) (f : α → List Cmd → Run β) : Run β :=
  match r.1 with
  | .ok a => f a r.2
  | .err => (.err, r.2)
  | .panic => (.panic, r.2)

/-- `str::trim_end`. -/
def trimEnd (s : Text) : Text := (s.reverse.dropWhile Block.isWhitespace).reverse

/-- `run_and_get_output` (lib.rs:7-17): the text of a failed command must be UTF-8 (`unwrap`). -/
def runAndGetOutput (h : Host) (c : Cmd) (log : List Cmd) : Run Text :=
  match h.reply log c with
  | none => (.err, c :: log)
  | some o =>
    if !o.success then
      match o.stderr with
      | none => (.panic, c :: log)
      | some _ => (.err, c :: log)
    else match o.stdout with
      | none => (.err, c :: log)
      | some s => (.ok (trimEnd s), c :: log)

/-- A value in the file: a string or something else. -/
inductive Val
  | str (s : Text)
  | other
  deriving DecidableEq, Repr

/-- The parsed `rust-toolchain.toml`: for each key the keys of the table, or nothing if it is no table. -/
abbrev Toml := Text → Option (Text → Option Val)

def kToolchain : Text := ['t', 'o', 'o', 'l', 'c', 'h', 'a', 'i', 'n']
def kChannel : Text := ['c', 'h', 'a', 'n', 'n', 'e', 'l']

/-- `toolchain` (lib.rs:40-52): `none` for a file that is not TOML; a channel that is not text is a panic. -/
def toolchain (file : Option Toml) : Res Text :=
  match file with
  | none => .err
  | some t => match t kToolchain with
    | none => .err
    | some u => match u kChannel with
      | none => .err
      | some .other => .panic
      | some (.str s) => .ok s

def vRustcPath : Text := ['R', 'U', 'S', 'T', 'C', '_', 'P', 'A', 'T', 'H']
def vMiriSysroot : Text := ['M', 'I', 'R', 'I', '_', 'S', 'Y', 'S', 'R', 'O', 'O', 'T']
def pRustup : Text := ['r', 'u', 's', 't', 'u', 'p']
def pWhich : Text := ['w', 'h', 'i', 'c', 'h']
def pCargo : Text := ['c', 'a', 'r', 'g', 'o']
def aToolchain : Text := ['-', '-', 't', 'o', 'o', 'l', 'c', 'h', 'a', 'i', 'n']
def aRustc : Text := ['r', 'u', 's', 't', 'c']
def aMiri : Text := ['m', 'i', 'r', 'i']
def aSetup : Text := ['s', 'e', 't', 'u', 'p']
def aPrintSysroot : Text := ['-', '-', 'p', 'r', 'i', 'n', 't', '-', 's', 'y', 's', 'r', 'o', 'o', 't']
def aPrint : Text := ['-', '-', 'p', 'r', 'i', 'n', 't']
def aTargetLibdir : Text := ['t', 'a', 'r', 'g', 'e', 't', '-', 'l', 'i', 'b', 'd', 'i', 'r']

/-- `rustc` (lib.rs:19-38). -/
def rustc (file : Option Toml) (h : Host) (log : List Cmd) : Run Text :=
  match h.env vRustcPath with
  | some p => (.ok p, log)
  | none => match toolchain file with
    | .panic => (.panic, log)
    | .ok t => runAndGetOutput h ⟨pRustup, [pWhich, aToolchain, t, aRustc]⟩ log
    | .err => runAndGetOutput h ⟨pWhich, [aRustc]⟩ log

/-- The arguments of `cargo` in `miri_sysroot` (lib.rs:59-64). -/
def sysrootArgs : Res Text → List Text
  | .ok t => [('+' :: t), aMiri, aSetup, aPrintSysroot]
  | _ => [aMiri, aSetup, aPrintSysroot]

/-- `miri_sysroot` (lib.rs:54-71).  Unlike `run_and_get_output` it does not look at the text of a failed command. -/
def miriSysroot (file : Option Toml) (h : Host) (log : List Cmd) : Run Text :=
  match h.env vMiriSysroot with
  | some p => (.ok p, log)
  | none =>
    match toolchain file with
    | .panic => (.panic, log)
    | r =>
      let c : Cmd := ⟨pCargo, sysrootArgs r⟩
      match h.reply log c with
      | none => (.err, c :: log)
      | some o =>
        if !o.success then (.err, c :: log)
        else match o.stdout with
          | none => (.err, c :: log)
          | some s => (.ok (trimEnd s), c :: log)

/-- `AquascopePreprocessor` without the cache. -/
structure Tool where
  miriSysroot : Text
  targetLibdir : Text
  deriving DecidableEq, Repr

/-- `AquascopePreprocessor::new` (preprocessor.rs:28-43). -/
def new (file : Option Toml) (h : Host) (cacheLoads : Bool) : Run Tool :=
  andThen (miriSysroot file h []) fun root log =>
  andThen (rustc file h log) fun rc log =>
  andThen (runAndGetOutput h ⟨rc, [aPrint, aTargetLibdir]⟩ log) fun lib log =>
  if cacheLoads then (.ok ⟨root, lib⟩, log) else (.err, log)

def vSysroot : Text := ['S', 'Y', 'S', 'R', 'O', 'O', 'T']
def vDyld : Text := ['D', 'Y', 'L', 'D', '_', 'L', 'I', 'B', 'R', 'A', 'R', 'Y', '_', 'P', 'A', 'T', 'H']
def vLd : Text := ['L', 'D', '_', 'L', 'I', 'B', 'R', 'A', 'R', 'Y', '_', 'P', 'A', 'T', 'H']
def vBacktrace : Text := ['R', 'U', 'S', 'T', '_', 'B', 'A', 'C', 'K', 'T', 'R', 'A', 'C', 'E']

/-- `Command::env`: the last value counts. -/
def setEnv (e : Text → Option Text) (k v : Text) : Text → Option Text := fun x => if x = k then some v else e x

/-- The environment of the analyser (preprocessor.rs:63-71): that of the preprocessor with five variables replaced. -/
def childEnv (h : Host) (t : Tool) : Text → Option Text :=
  setEnv (setEnv (setEnv (setEnv (setEnv h.env vSysroot t.miriSysroot) vMiriSysroot t.miriSysroot) vDyld
    t.targetLibdir) vLd t.targetLibdir) vBacktrace ['1']

end Verif.Toolchain
