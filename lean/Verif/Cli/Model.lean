import Verif.Preproc.Model
import Verif.Serve.Model
import Verif.Steps.Model
import Verif.Wire.Json
/-!
# Model of the command line of the analyser

Models the arguments of the plugin (`crates/aquascope_front/src/plugin.rs:31-53`), how they are parsed (`clap` 3.2), passed
from `cargo-aquascope` to `aquascope-driver` (library `rustc_plugin` 0.12) and used (`plugin.rs:66-148`), with
`PermIncludeMode` (`stepper/mod.rs:29-45`).

Simplifications.
* `clap` and `rustc_plugin` are described from memory.  If a command line asks for help behind a mistake, the mistake is
  reported (`clap` may report either).
* `cargo aquascope ARGS` starts `cargo-aquascope aquascope ARGS`; options of `cargo` itself (`--quiet`) are left out.
* Help, version and the outputs of `preload` and `rustc-version` are texts that are not JSON.
* The crate is the only one of its workspace, so the driver runs the plugin once.
-/
namespace Verif.Cli
open Verif.Preproc (Json argAquascope argShouldFail argShowFlows)
open Verif.Steps (Mode)

abbrev Arg := List Char

/-- "permissions" -/
def sPermissions : List Char := ['p', 'e', 'r', 'm', 'i', 's', 's', 'i', 'o', 'n', 's']
/-- "interpreter" -/
def sInterpreter : List Char := ['i', 'n', 't', 'e', 'r', 'p', 'r', 'e', 't', 'e', 'r']
/-- "preload" -/
def sPreload : List Char := ['p', 'r', 'e', 'l', 'o', 'a', 'd']
/-- "rustc-version" -/
def sRustcVersion : List Char := ['r', 'u', 's', 't', 'c', '-', 'v', 'e', 'r', 's', 'i', 'o', 'n']
/-- "help" -/
def sHelp : List Char := ['h', 'e', 'l', 'p']
/-- "--steps-include-mode" -/
def aMode : List Char := ['-', '-', 's', 't', 'e', 'p', 's', '-', 'i', 'n', 'c', 'l', 'u', 'd', 'e', '-', 'm', 'o', 'd', 'e']
/-- "--help" -/
def aHelp : List Char := ['-', '-', 'h', 'e', 'l', 'p']
/-- "--version" -/
def aVersion : List Char := ['-', '-', 'v', 'e', 'r', 's', 'i', 'o', 'n']
/-- "Changes" -/
def tChanges : List Char := ['C', 'h', 'a', 'n', 'g', 'e', 's']
/-- "All" -/
def tAll : List Char := ['A', 'l', 'l']
/-- "should_fail" -/
def kShouldFailField : List Char := ['s', 'h', 'o', 'u', 'l', 'd', '_', 'f', 'a', 'i', 'l']
/-- "command" -/
def kCommand : List Char := ['c', 'o', 'm', 'm', 'a', 'n', 'd']
/-- "steps_include_mode" -/
def kModeField : List Char := ['s', 't', 'e', 'p', 's', '_', 'i', 'n', 'c', 'l', 'u', 'd', 'e', '_', 'm', 'o', 'd', 'e']
/-- "show_flows" -/
def kShowFlowsField : List Char := ['s', 'h', 'o', 'w', '_', 'f', 'l', 'o', 'w', 's']
/-- "Permissions" -/
def vPermissions : List Char := ['P', 'e', 'r', 'm', 'i', 's', 's', 'i', 'o', 'n', 's']
/-- "Interpreter" -/
def vInterpreter : List Char := ['I', 'n', 't', 'e', 'r', 'p', 'r', 'e', 't', 'e', 'r']
/-- "Preload" -/
def vPreload : List Char := ['P', 'r', 'e', 'l', 'o', 'a', 'd']
/-- "RustcVersion" -/
def vRustcVersion : List Char := ['R', 'u', 's', 't', 'c', 'V', 'e', 'r', 's', 'i', 'o', 'n']

/-- `AquascopeCommand` (plugin.rs:41-53). -/
inductive Command
  | permissions (mode : Option Mode) (showFlows : Bool)
  | interpreter
  | preload
  | rustcVersion
  deriving DecidableEq, Repr

/-- `AquascopePluginArgs` (plugin.rs:31-39). -/
structure PluginArgs where
  shouldFail : Bool
  command : Command
  deriving DecidableEq, Repr

/-! ## Parsing -/

/-- What `clap` does: it gives the arguments, prints a text on standard output and exits with 0, or reports a mistake on
standard error and exits with 2. -/
inductive Parsed (α : Type)
  | ok (a : α)
  | message
  | usage
  deriving DecidableEq, Repr

def Parsed.map {α β : Type} (f : α → β) : Parsed α → Parsed β
  | .ok a => .ok (f a)
  | .message => .message
  | .usage => .usage

/-- `FromStr for PermIncludeMode` (stepper/mod.rs:35-45). -/
def parseMode (s : Arg) : Option Mode :=
  if s = tChanges then some .changes else if s = tAll then some .all else none

/-- `--help`, or a cluster of short flags that begins with `-h`. -/
def isHelp (a : Arg) : Bool :=
  decide (a = aHelp) || (match a with | '-' :: 'h' :: _ => true | _ => false)

/-- `--version`, or a cluster that begins with `-V`. -/
def isVersion (a : Arg) : Bool :=
  decide (a = aVersion) || (match a with | '-' :: 'V' :: _ => true | _ => false)

/-- The value in `--steps-include-mode=VALUE`. -/
def modeValue (a : Arg) : Option Arg :=
  if a.take (aMode.length + 1) = aMode ++ ['='] then some (a.drop (aMode.length + 1)) else none

/-- The arguments behind `permissions` (plugin.rs:43-49); an option may be given once. -/
def parsePermissions : Option Mode → Bool → List Arg → Parsed Command
  | mode, flows, [] => .ok (.permissions mode flows)
  | mode, flows, [a] =>
    if a = argShowFlows then (if flows then .usage else .ok (.permissions mode true))
    else match modeValue a with
      | some v => (match mode, parseMode v with
        | none, some m => .ok (.permissions (some m) flows)
        | _, _ => .usage)
      | none => if isHelp a then .message else .usage
  | mode, flows, a :: v :: r =>
    if a = argShowFlows then (if flows then .usage else parsePermissions mode true (v :: r))
    else if a = aMode then (match mode, parseMode v with
      | none, some m => parsePermissions (some m) flows r
      | _, _ => .usage)
    else match modeValue a with
      | some x => (match mode, parseMode x with
        | none, some m => parsePermissions (some m) flows (v :: r)
        | _, _ => .usage)
      | none => if isHelp a then .message else .usage

/-- The arguments behind a command without options. -/
def parseNothing (c : Command) : List Arg → Parsed Command
  | [] => .ok c
  | a :: _ => if isHelp a then .message else .usage

/-- The arguments behind the command `help`, which `clap` adds. -/
def parseHelp : List Arg → Parsed PluginArgs
  | [] => .message
  | [a] => if a = sPermissions ∨ a = sInterpreter ∨ a = sPreload ∨ a = sRustcVersion ∨ a = sHelp then .message else .usage
  | _ => .usage

/-- `AquascopePluginArgs::parse_from` (plugin.rs:71), behind the name of the program. -/
def parseTop (shouldFail : Bool) : List Arg → Parsed PluginArgs
  | [] => .usage
  | a :: r =>
    if a = sPermissions then (parsePermissions none false r).map (⟨shouldFail, ·⟩)
    else if a = sInterpreter then (parseNothing .interpreter r).map (⟨shouldFail, ·⟩)
    else if a = sPreload then (parseNothing .preload r).map (⟨shouldFail, ·⟩)
    else if a = sRustcVersion then (parseNothing .rustcVersion r).map (⟨shouldFail, ·⟩)
    else if a = sHelp then parseHelp r
    else if a = argShouldFail then (if shouldFail then .usage else parseTop true r)
    else if isHelp a || isVersion a then .message
    else .usage

/-! ## From `cargo-aquascope` to the driver -/

def Mode.json : Mode → Json
  | .changes => .str tChanges
  | .all => .str tAll

/-- `Serialize for AquascopePluginArgs` (plugin.rs:31,41): the variable `PLUGIN_ARGS` of the driver's environment. -/
def Command.json : Command → Json
  | .permissions mode flows => .obj [(vPermissions, .obj [
      (kModeField, match mode with | none => .null | some m => Mode.json m), (kShowFlowsField, .bool flows)])]
  | .interpreter => .str vInterpreter
  | .preload => .str vPreload
  | .rustcVersion => .str vRustcVersion

def PluginArgs.json (a : PluginArgs) : Json :=
  .obj [(kShouldFailField, .bool a.shouldFail), (kCommand, a.command.json)]

/-- `Deserialize for Option<PermIncludeMode>`. -/
def modeOf : Json → Option (Option Mode)
  | .null => some none
  | .str s => (parseMode s).map some
  | _ => none

/-- `Deserialize for AquascopeCommand`. -/
def commandOf : Json → Option Command
  | .str s =>
    if s = vInterpreter then some .interpreter
    else if s = vPreload then some .preload
    else if s = vRustcVersion then some .rustcVersion
    else none
  | .obj [(k, .obj fs)] =>
    if k = vPermissions then
      match fs.lookup kModeField, fs.lookup kShowFlowsField with
      | some m, some (.bool f) => (modeOf m).map (.permissions · f)
      | none, some (.bool f) => some (.permissions none f)
      | _, _ => none
    else none
  | _ => none

/-- `Deserialize for AquascopePluginArgs`. -/
def argsOf : Json → Option PluginArgs
  | .obj fs =>
    match fs.lookup kShouldFailField, fs.lookup kCommand with
    | some (.bool b), some c => (commandOf c).map (⟨b, ·⟩)
    | _, _ => none
  | _ => none

/-! ## Running -/

/-- What is analysed (plugin.rs:111-145): the permissions, with the values that `INCLUDE_MODE` and
`ENABLE_FLOW_PERMISSIONS` have meanwhile (plugin.rs:236-237), or the execution. -/
inductive Job
  | permissions (mode : Mode) (flows : Bool)
  | interpreter (shouldFail : Bool)
  deriving DecidableEq, Repr

/-- `AquascopePlugin::run` (plugin.rs:105-147); `none`: `unreachable!()`. -/
def PluginArgs.run (a : PluginArgs) : Option Job :=
  match a.command with
  | .permissions mode flows => some (.permissions (mode.getD .changes) flows)
  | .interpreter => some (.interpreter a.shouldFail)
  | .preload => none
  | .rustcVersion => none

/-- What becomes of a command line. -/
inductive End
  | job (j : Job)
  /-- a text, and status 0 -/
  | text
  /-- a message on standard error, and another status -/
  | refused
  /-- `cargo check`, and its status -/
  | preload
  /-- the driver panics -/
  | panic
  deriving DecidableEq, Repr

/-- The driver: it reads the variable and runs the plugin. -/
def drive (text : List Char) : End :=
  match (Wire.read text).bind argsOf with
  | none => .panic
  | some a => match a.run with
    | none => .panic
    | some j => .job j

/-- `cli_main` of `rustc_plugin`, and `AquascopePlugin::args` (plugin.rs:66-103).  `argv` begins with the name of the
command. -/
def start (argv : List Arg) : End :=
  if argv.any (fun a => decide (a = ['-', 'V'])) then .text
  else match parseTop false (argv.drop 1) with
    | .message => .text
    | .usage => .refused
    | .ok a => match a.command with
      | .preload => .preload
      | .rustcVersion => .text
      | _ => drive (Wire.write a.json)

/-- The surroundings of the book builder with this analyser: `job` is what becomes of an analysis of a program, `check` the
status of `cargo check`. -/
def world (w : Preproc.World) (job : List Char → Job → Preproc.Outcome) (check : List Char → Bool) : Preproc.World :=
  { w with exec := fun code argv =>
      match start argv with
      | .job j => job code j
      | .text => .finished true none
      | .refused => .finished false none
      | .preload => .finished (check code) none
      | .panic => .finished false none }

/-- The command lines of the server (container.rs:196-229). -/
def serverArgs (op : Serve.Op) (flag : Bool) : List Arg :=
  match op with
  | .permissions => [argAquascope, sPermissions]
  | .interpreter => [argAquascope] ++ (if flag then [argShouldFail] else []) ++ [sInterpreter]

end Verif.Cli
