import Verif.Block.Model
import Verif.Cache.Model
/-!
# Model of the preprocessor: running the analyser on a block, and rendering a chapter in parallel

Models `crates/mdbook-aquascope/src/preprocessor.rs` and the `Hash` of a block.
-/
namespace Verif.Preproc
open Verif.Block Verif.Cache

/-- `serde_json::Value`.  Numbers are kept as text.  Objects are association lists. -/
inductive Json
  | null
  | bool (b : Bool)
  | num (s : List Char)
  | str (s : List Char)
  | arr (xs : List Json)
  | obj (fields : List (List Char × Json))

/-- `Value::get(key)` with a string key: `None` unless the value is an object. -/
def Json.get (j : Json) (key : List Char) : Option Json :=
  match j with
  | .obj fs => fs.lookup key
  | _ => none

/-- `Value::as_str`. -/
def Json.asStr : Json → Option (List Char)
  | .str s => some s
  | _ => none

/-- "Err". -/
def kErr : List Char := ['E', 'r', 'r']
/-- "type". -/
def kType : List Char := ['t', 'y', 'p', 'e']
/-- "BuildError". -/
def kBuildError : List Char := ['B', 'u', 'i', 'l', 'd', 'E', 'r', 'r', 'o', 'r']
/-- "shouldFail". -/
def kShouldFail : List Char := ['s', 'h', 'o', 'u', 'l', 'd', 'F', 'a', 'i', 'l']
/-- "showFlows". -/
def kShowFlows : List Char := ['s', 'h', 'o', 'w', 'F', 'l', 'o', 'w', 's']
/-- "aquascope". -/
def argAquascope : List Char := ['a', 'q', 'u', 'a', 's', 'c', 'o', 'p', 'e']
/-- "--should-fail". -/
def argShouldFail : List Char := ['-', '-', 's', 'h', 'o', 'u', 'l', 'd', '-', 'f', 'a', 'i', 'l']
/-- "--show-flows". -/
def argShowFlows : List Char := ['-', '-', 's', 'h', 'o', 'w', '-', 'f', 'l', 'o', 'w', 's']

/-- What a block contributes to its hash (block.rs:18 derives `Hash`; annotations.rs:56-61 hashes
nothing for the annotations). -/
def hashInput (b : Block) : List (List Char) × List (List Char × List Char) × List Char :=
  (b.operations, b.config, b.code)

/-- Result of spawning and waiting for `cargo aquascope ..` (preprocessor.rs:62-86).
`out = none`: the standard output is not UTF-8 or not JSON.  An undecodable standard error changes
only the message of an error. -/
inductive Outcome
  | spawnFailed
  | waitFailed
  | timedOut
  | finished (success : Bool) (out : Option Json)

/-- The outside world: temporary directory, `cargo new`, writing `main.rs`, and the analyser, which
is a function of its arguments and of the program written to `main.rs`. -/
structure World where
  tempdirOk : Bool
  cargoNewSpawned : Bool
  cargoNewOk : Bool
  writeOk : Bool
  exec : List Char → List (List Char) → Outcome

/-- The ways `run_aquascope` fails. -/
inductive RunError
  | io | cargoFailed | timedOut | failed | badOutput | errResponse | buildError
  deriving DecidableEq, Repr

/-- Arguments of the analyser for one operation (preprocessor.rs:63-84). -/
def args (b : Block) (op : List Char) : List (List Char) :=
  [argAquascope]
    ++ (if b.config.any (fun p => p.1 == kShouldFail) then [argShouldFail] else [])
    ++ [op]
    ++ (if b.config.any (fun p => p.1 == kShowFlows) then [argShowFlows] else [])

/-- `is_err` (preprocessor.rs:103-107). -/
def isErr : Json → Bool
  | .obj fs => ((Json.obj fs).get kErr).isSome
  | .arr xs => xs.any (fun j => (j.get kErr).isSome)
  | _ => false

/-- `responses`, a `HashMap` from operation to answer. -/
abbrev Responses := List Char → Option Json

/-- `HashMap::insert`. -/
def Responses.insert (r : Responses) (op : List Char) (j : Json) : Responses :=
  fun op' => if op' = op then some j else r op'

/-- One iteration of the loop over the operations (preprocessor.rs:62-124). -/
def runOp (w : World) (b : Block) (op : List Char) : Except RunError Json :=
  match w.exec b.code (args b op) with
  | .spawnFailed => .error .io
  | .waitFailed => .error .io
  | .timedOut => .error .timedOut
  | .finished success out =>
    if !success then .error .failed
    else match out with
      | none => .error .badOutput
      | some j =>
        if isErr j then .error .errResponse
        else if (j.get kType).bind Json.asStr = some kBuildError then .error .buildError
        else .ok j

/-- The loop over the operations. -/
def runOps (w : World) (b : Block) : Responses → List (List Char) → Except RunError Responses
  | r, [] => .ok r
  | r, op :: ops =>
    match runOp w b op with
    | .error e => .error e
    | .ok j => runOps w b (r.insert op j) ops

/-- `run_aquascope` (preprocessor.rs:45-128).  The result is the map itself and not its JSON text:
the text is parsed again by `process_code` (simplification: printing and parsing a JSON value is the
identity; `C115_cached` proves this of a model of the texts). -/
def runAquascope (w : World) (b : Block) : Except RunError Responses :=
  if !w.tempdirOk then .error .io
  else if !w.cargoNewSpawned then .error .io
  else if !w.cargoNewOk then .error .cargoFailed
  else if !w.writeOk then .error .io
  else runOps w b (fun _ => none) b.operations

/-- The embed element (preprocessor.rs:149-172): its data attributes. -/
structure Html where
  code : List Char
  annotations : Annotations.Annots
  operations : List (List Char)
  responses : Responses
  config : List Char → Option (List Char)

/-- Collecting the options into a `HashMap`: the last value of a key wins (preprocessor.rs:157-162). -/
def configMap (cfg : List (List Char × List Char)) : List Char → Option (List Char) :=
  fun k => cfg.reverse.lookup k

/-- The element made of a block and the answers (preprocessor.rs:149-172). -/
def render (b : Block) (r : Responses) : Html :=
  { code := b.code, annotations := b.annotations, operations := b.operations, responses := r,
    config := configMap b.config }

/-- Progress of one parallel task (`process_code`, preprocessor.rs:131-173): not started, the cache
had no entry, the analyser has answered, finished. -/
inductive Pc
  | start
  | missed
  | ran (r : Responses)
  | done (res : Except RunError Html)

/-- Shared cache and the progress of every task. -/
structure State where
  cache : Cache Responses
  pc : Nat → Pc

/-- The hash of a block: any function of its hash input. -/
abbrev Hasher := List (List Char) × List (List Char × List Char) × List Char → UInt64

/-- One atomic action of task `i`.  The lookup is made under the read lock, the store under the
write lock (preprocessor.rs:132-147); the analyser runs without lock. -/
def step (w : World) (hash : Hasher) (blocks : List Block) (s : State) (i : Nat) : State :=
  match blocks[i]? with
  | none => s
  | some b =>
    let put (p : Pc) : Nat → Pc := fun j => if j = i then p else s.pc j
    match s.pc i with
    | .start =>
      match s.cache.get (hash ∘ hashInput) b with
      | some r => { s with pc := put (.done (.ok (render b r))) }
      | none => { s with pc := put .missed }
    | .missed =>
      match runAquascope w b with
      | .error e => { s with pc := put (.done (.error e)) }
      | .ok r => { s with pc := put (.ran r) }
    | .ran r =>
      { cache := s.cache.set (hash ∘ hashInput) b r, pc := put (.done (.ok (render b r))) }
    | .done _ => s

/-- A schedule is the sequence of task numbers that act. -/
def exec (w : World) (hash : Hasher) (blocks : List Block) (s : State) (sched : List Nat) : State :=
  sched.foldl (step w hash blocks) s

/-- The state before `replacements` starts its tasks. -/
def init (cache : Cache Responses) : State := { cache, pc := fun _ => .start }

/-- The collected results, in the order of the blocks (preprocessor.rs:180-188), when every task has
finished; `none` while one has not. -/
def results (blocks : List Block) (s : State) : List (Option (Except RunError Html)) :=
  (List.range blocks.length).map fun i =>
    match s.pc i with
    | .done r => some r
    | _ => none

end Verif.Preproc
