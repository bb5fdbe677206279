import Verif.Serve.Model
/-!
# What the server should answer
-/
namespace Verif.Serve

/-- Only white space. -/
def Blank (ws : Char → Bool) (s : Text) : Prop := ∀ c ∈ s, ws c = true

/-- A command ran to its end and printed text. -/
def Printed (e : CmdEnd) (out err : Text) : Prop := e = .done (some out) (some err)

/-- A command ran to its end and printed something that is not text. -/
def Garbled (e : CmdEnd) : Prop := ∃ out err, e = .done out err ∧ (out = none ∨ err = none)

def NotRun (e : CmdEnd) : Prop := e = .failed ∨ e = .timeout

/-- The request asks for errors of the borrow checker to be ignored. -/
def AsksShouldFail (op : Op) (req : Request) : Prop :=
  op = .interpreter ∧ ∃ fields v, req.config = some (.obj fields) ∧ (shouldFailKey, v) ∈ fields

/-- The project was created. -/
def ProjectMade (ws : Char → Bool) (e : Env) : Prop :=
  e.tempdir = true ∧ ∃ out err, Printed e.cargoNew out err ∧ Blank ws err

/-- Everything up to the run of the tool worked. -/
def Prepared (ws : Char → Bool) (e : Env) : Prop :=
  ProjectMade ws e ∧ e.write = true ∧ e.sysroot = true

/-- What the tool does with exactly the submitted source, with the option iff the request asks for it. -/
def ToolEnds (op : Op) (req : Request) (env : Env) (e : CmdEnd) : Prop :=
  ∃ f : Bool, (f = true ↔ AsksShouldFail op req) ∧ env.tool op f (some req.code) = e

/-- Request number `i` of `reqs` has been answered. -/
def Answered (s : Sys) (i : Nat) (r : Reply) : Prop := ∃ j, s.jobs[i]? = some j ∧ j.phase = .answered r

end Verif.Serve
