import Verif.Pipeline.Model
import Verif.Pipeline.SourceExample
import Verif.HirSource.Model
import Verif.Facts.Model
/-!
# The stepper on programs of the repository

The repository records what the stepper shows for the programs in `crates/aquascope/tests/steps`
(`tests/snapshots/stepper__*.snap`).  Here the bodies of some of them are written down with the node of every
location, and the modelled pipeline is run on them: facts, permissions, steps of the source, tables, lines.  `#guard`
evaluates; these are tests, not proofs.

What is written by hand: the MIR of the functions (without the blocks for unwinding), the node each location belongs
to, which variables a location uses, sets or ends, and which loans it issues and who carries them.  From this the
inputs of the analysis (edges, liveness, live loans, uninitialised paths) are computed as the borrow checker does.
-/
namespace Verif.Pipeline.Recorded

open Verif.Cfg Verif.Segments Verif.Steps Verif.Permissions Verif.HirSteps Verif.HirSource Verif.Mapper

/-- A location: its node, the variables it uses, those it sets, those whose storage ends, and the parts of variables
(paths) it moves and sets. -/
structure Act where
  node : Nat
  uses : List Nat := []
  sets : List Nat := []
  ends : List Nat := []
  moves : List Nat := []
  inits : List Nat := []

/-- A loan: its number, the borrowed path, whether it is mutable, where it is made and in which variables it is kept. -/
structure Loan where
  id : Nat
  path : Nat
  mutable : Bool
  at_ : Loc
  carriers : List Nat

/-- A function: for each block its locations and how it ends; the lines (from 0) on which a node starts and ends. -/
structure Fn where
  src : String
  code : List (List Act × Term)
  parents : List Nat
  lines : Nat → Nat × Nat
  letRead : Loc → Option Nat
  value : RExpr
  /-- the places with the variable, whether they can be written and dropped -/
  places : List (Place × Bool × Bool)
  /-- the variables that are set when the function starts -/
  args : List Nat := []
  loans : List Loan
  /-- the parts of variables (paths) that are moved on their own -/
  parts : List Nat := []
  /-- the moves, with the moved path, in the order of the compiler; temporaries have other numbers -/
  moves : List (Nat × Loc) := []
  /-- the line of the opening brace -/
  brace : Nat := 0
  /-- the end of the first error -/
  err : Option Nat := none

def Fn.body (f : Fn) : Body := f.code.map fun b => ⟨b.1.length - 1, b.2, false⟩

def Fn.act (f : Fn) (l : Loc) : Act := ((f.code[l.block]?.bind fun b => b.1[l.idx]?).getD { node := 0 })

def Fn.edges (f : Fn) : List (Nat × Nat) := edgesOf f.body

def Fn.points (f : Fn) : List (Nat × Loc) := (locsOf f.body).map fun l => (point f.body l, l)

/-- Repeats a step that only adds, until it adds nothing. -/
def grow (step : List (Nat × Nat) → List (Nat × Nat)) : Nat → List (Nat × Nat) → List (Nat × Nat)
  | 0, s => s
  | n + 1, s =>
    let s' := (s ++ step s).eraseDups
    if s'.length = s.length then s else grow step n s'

/-- `var_live_on_entry`, as (point, variable) -/
def Fn.live (f : Fn) : List (Nat × Nat) :=
  let edges := f.edges
  let acts := (f.points.map fun x => (x.1 + 1, f.act x.2))
  grow (fun s => s.flatMap fun x => (edges.filter fun e => e.2 = x.1 && !(acts.any fun a => a.1 = e.1 && a.2.sets.contains x.2)).map
    fun e => (e.1, x.2)) 200 (acts.flatMap fun a => a.2.uses.map fun v => (a.1, v))

/-- `loan_live_at`, as (loan, point) -/
def Fn.loanLive (f : Fn) : List (Nat × Nat) :=
  let edges := f.edges
  let live := f.live
  f.loans.flatMap fun n =>
    let ok := fun p => n.carriers.any fun v => live.contains (p, v)
    let start := (edges.filter fun e => e.1 = point f.body n.at_ + 1 && ok e.2).map fun e => (n.id, e.2)
    grow (fun s => s.flatMap fun x => (edges.filter fun e => e.1 = x.2 && ok e.2).map fun e => (n.id, e.2)) 200 start

def Fn.place (f : Fn) (p : Nat) : Place := ((f.places[p]?).map (·.1)).getD ⟨0, []⟩

/-- One place is a part of the other. -/
def Fn.within (f : Fn) (part whole : Nat) : Bool :=
  (f.place part).local_ == (f.place whole).local_ && (f.place whole).projection.isPrefixOf (f.place part).projection

/-- `path_maybe_uninitialized_on_exit`, as (point, path), for the variables and the parts that are moved -/
def Fn.uninit (f : Fn) : List (Nat × Nat) :=
  let edges := f.edges
  let acts := (f.points.map fun x => (x.1 + 1, f.act x.2))
  let paths := (List.range f.places.length).filter fun p => (f.place p).projection.isEmpty || f.parts.contains p
  paths.flatMap fun p =>
    let v := (f.place p).local_
    let sets := fun q => acts.any fun a => a.1 = q && (a.2.sets.contains v || a.2.inits.any fun x => f.within p x)
    grow (fun s => s.flatMap fun y => (edges.filter fun e => e.1 = y.1 && !sets e.2).map fun e => (e.2, p)) 200
      ((if f.args.contains v then [] else [(0, p)]) ++
        (acts.filter fun a => a.2.ends.contains v || a.2.moves.any fun x => f.within p x).map fun a => (a.1, p))

/-- `path_assigned_at_base`, as (path, point) -/
def Fn.assigned (f : Fn) : List (Nat × Nat) :=
  f.points.flatMap fun x =>
    let a := f.act x.2
    ((List.range f.places.length).filter fun p =>
      ((f.place p).projection.isEmpty && a.sets.contains (f.place p).local_) || a.inits.contains p).map fun p =>
        (p, x.1 + 1)

def Fn.input (f : Fn) : Facts.Input where
  cfgEdge := f.edges
  uninitExit := f.uninit
  childPath := f.parts.map fun p => (p, f.places.findIdx fun x => x.1 = ⟨(f.place p).local_, []⟩)
  moves := f.moves.map fun m => (m.1, point f.body m.2)
  interior := fun p => (List.range f.places.length).filter fun x => p < f.places.length && f.within x p
  parents := fun p => (List.range f.places.length).filter fun x =>
    p < f.places.length && x != p && (f.parts.contains x || (f.place x).projection.isEmpty) && f.within p x
  assigned := f.assigned
  conflict := fun a b => a < f.places.length && b < f.places.length && (f.within a b || f.within b a)
  issued := f.loans.map (·.id)
  borrowed := fun n => ((f.loans.find? fun x => x.id = n).map (·.path)).getD 0
  isMutLoan := fun n => ((f.loans.find? fun x => x.id = n).map (·.mutable)).getD false
  loanLive := f.loanLive
  paths := List.range f.places.length
  varLive := f.live
  varOf := fun p => (f.place p).local_
  writeEnabled := fun p => ((f.places[p]?).map (·.2.1)).getD false
  dropEnabled := fun p => ((f.places[p]?).map (·.2.2)).getD false
  copyable := fun _ => false

/-- The positions at which a line starts and ends. -/
def lineBounds (src : List Char) : List (Nat × Nat) :=
  let rec go : List Char → Nat → Nat → List (Nat × Nat)
    | [], s, n => [(s, n)]
    | c :: r, s, n => if c = '\n' then (s, n) :: go r (n + 1) (n + 1) else go r s (n + 1)
  go src 0 0

def Fn.hir (f : Fn) : Hir :=
  ⟨fun i => match f.parents[i]? with
    | none => none
    | some p => if p < i then some p else none, by
    intro i p h
    split at h
    · cases h
    · split at h
      · cases h; assumption
      · cases h⟩

/-- The node `n` has the spans `3n` (all of it), `3n+1` (its start) and `3n+2` (its end). -/
def Fn.source (f : Fn) : Source where
  body := f.body
  hir := f.hir
  hirOf := fun l => (f.act l).node
  span := fun n => 3 * n
  lo := fun n => 3 * n + 1
  hi := fun n => 3 * n + 2
  letRead := f.letRead

def Fn.endOf (f : Fn) (s : Nat) : Nat :=
  let bs := lineBounds f.src.toList
  let (a, b) := f.lines (s / 3)
  if s % 3 = 1 then ((bs[a]?).map (·.1)).getD 0 else ((bs[b]?).map (·.2)).getD 0

def Fn.ctxt (f : Fn) (i : Facts.Input) (o : Facts.Output) : Ctxt where
  places := f.places.map (·.1)
  data := fun l p => Facts.dataAtPoint i o (f.places.findIdx fun x => x.1 = p) (point f.body l)
  endOf := f.endOf
  locSpan := fun l => (f.endOf (3 * (f.act l).node + 1), f.endOf (3 * (f.act l).node))
  start := ⟨0, 0⟩
  brace := (((lineBounds f.src.toList)[f.brace]?).map (·.1)).getD 0

/-- A row as it is recorded: the line, the place and the eight values, then the permissions. -/
def rowOf (bs : List (Nat × Nat)) (d : Display) : List (Nat × Place × DataDiff) :=
  d.state.map fun r => (bs.findIdx (fun b => b.1 ≤ d.pos && d.pos ≤ b.2), r.1, r.2)

/-- Everything the stepper shows for a function. -/
def Fn.rows (f : Fn) : Option (List (Nat × Place × DataDiff)) :=
  let i := f.input
  match Facts.derive 1000 i with
  | none => none
  | some o =>
    match f.source.compute 1000 id f.value with
    | .steps fr locals =>
      match finalizeBody (f.ctxt i o) fr locals id f.src.toList f.err (fun _ => true) .changes with
      | none => none
      | some ds => some (ds.flatMap (rowOf (lineBounds f.src.toList)))
    | _ => none

/-- The recorded rows and the computed ones, in whatever order. -/
def sameRows (a b : List (Nat × Place × DataDiff)) : Bool :=
  a.length == b.length && a.all b.contains && b.all a.contains

/-- Statements one after the other, with a borrow (`tests/steps/linear_0.test`) -/
def linear : Fn where
  src := "fn dummy_use(_n: &i32) {}\n\nfn main() {\n  let mut x: i32 = 0;\n\n  let mut y: i32 = 0;\n\n  let z = &mut x;\n\n  *z = y;\n\n  dummy_use(&z);\n}\n"
  code := [
    ([⟨4, [], [], [], [], []⟩, ⟨5, [], [1], [], [], []⟩, ⟨4, [1], [], [], [], []⟩, ⟨7, [], [], [], [], []⟩, ⟨8, [], [2], [], [], []⟩, ⟨7, [2], [], [], [], []⟩, ⟨10, [], [], [], [], []⟩, ⟨11, [1], [3], [], [], []⟩, ⟨10, [3], [], [], [], []⟩, ⟨14, [], [], [], [], []⟩, ⟨14, [2], [4], [], [], []⟩, ⟨13, [3, 4], [], [], [], []⟩, ⟨13, [], [], [], [], []⟩, ⟨16, [], [], [], [], []⟩, ⟨17, [], [], [], [], []⟩, ⟨17, [], [], [], [], []⟩, ⟨17, [3], [6], [], [], []⟩, ⟨17, [6], [5], [], [], []⟩, ⟨16, [5], [], [], [], []⟩], .other [1]),
    ([⟨16, [], [], [], [], []⟩, ⟨16, [], [], [], [], []⟩, ⟨15, [], [], [], [], []⟩, ⟨1, [], [], [], [], []⟩, ⟨1, [], [], [3], [], []⟩, ⟨1, [], [], [2], [], []⟩, ⟨1, [], [], [1], [], []⟩, ⟨1, [], [], [], [], []⟩], .ret)]
  parents := [0, 0, 1, 2, 3, 4, 2, 6, 7, 2, 9, 10, 2, 12, 13, 2, 15, 16]
  lines := fun
    | 1 => (2, 12)
    | 2 => (2, 12)
    | 3 => (3, 3)
    | 4 => (3, 3)
    | 5 => (3, 3)
    | 6 => (5, 5)
    | 7 => (5, 5)
    | 8 => (5, 5)
    | 9 => (7, 7)
    | 10 => (7, 7)
    | 11 => (7, 7)
    | 12 => (9, 9)
    | 13 => (9, 9)
    | 14 => (9, 9)
    | 15 => (11, 11)
    | 16 => (11, 11)
    | 17 => (11, 11)
    | _ => (0, 0)
  letRead := fun l => if l = ⟨0, 2⟩ then some 1 else if l = ⟨0, 5⟩ then some 2 else if l = ⟨0, 8⟩ then some 3 else none
  value := .other 1 [.block (.mk 2 [.lt 3 4 (some (.other 5 [])) none, .lt 6 7 (some (.other 8 [])) none,
    .lt 9 10 (some (.other 11 [])) none, .expr 12 (.other 13 [.expr (.other 14 [])]),
    .expr 15 (.other 16 [.expr (.other 17 [])])] none)]
  places := [(⟨1, []⟩, true, true), (⟨2, []⟩, true, true), (⟨3, []⟩, false, true), (⟨3, [.deref]⟩, true, false)]
  loans := [⟨0, 0, true, ⟨0, 7⟩, [3]⟩, ⟨1, 2, false, ⟨0, 16⟩, [5, 6]⟩]

/-- `tests/snapshots/stepper__main@linear_0.test.snap` -/
def linearRows : List (Nat × Place × DataDiff) := [
  (3, ⟨1, []⟩, ⟨.high true, .none (some true), .none (some true), .none none, .none (some false), .none none, .none none, .none none, ⟨.high true, .high true, .high true⟩⟩),
  (5, ⟨2, []⟩, ⟨.high true, .none (some true), .none (some true), .none none, .low, .none none, .none none, .none none, ⟨.high true, .high true, .high true⟩⟩),
  (7, ⟨3, [.deref]⟩, ⟨.high true, .none (some false), .none (some true), .none none, .none (some false), .none none, .none none, .none none, ⟨.high true, .high true, .none (some false)⟩⟩),
  (7, ⟨1, []⟩, ⟨.low, .none (some true), .none (some true), .none none, .none (some false), .high 0, .high 0, .high 0, ⟨.low, .low, .low⟩⟩),
  (7, ⟨3, []⟩, ⟨.high true, .none (some true), .none (some false), .none none, .low, .none none, .none none, .none none, ⟨.high true, .none (some false), .high true⟩⟩),
  (9, ⟨2, []⟩, ⟨.low, .none (some true), .none (some true), .none none, .none (some false), .none none, .none none, .none none, ⟨.low, .low, .low⟩⟩),
  (11, ⟨3, [.deref]⟩, ⟨.low, .none (some false), .none (some true), .none none, .none (some false), .none none, .none none, .none none, ⟨.low, .low, .none (some false)⟩⟩),
  (11, ⟨3, []⟩, ⟨.low, .none (some true), .none (some false), .none none, .none (some false), .none none, .none none, .none none, ⟨.low, .none (some false), .low⟩⟩)]

#guard linear.rows.any (sameRows linearRows)

/-- A borrow in each arm of a conditional (`tests/steps/if_1.test`) -/
def ifStmt : Fn where
  src := "fn main() {\n  let mut s1 = String::from(\"\");\n  let mut s2 = String::from(\"\");\n\n  let b;\n\n  if true {\n    b = &mut s1;\n  } else {\n    b = &mut s2;\n  }\n\n  b.push_str(\"ok\");\n\n  s1.push_str(\"done\");\n  s2.push_str(\"done\");\n}\n"
  code := [
    ([⟨4, [], [], [], [], []⟩, ⟨5, [], [1], [], [], []⟩], .other [1]),
    ([⟨4, [1], [], [], [], []⟩, ⟨7, [], [], [], [], []⟩, ⟨8, [], [2], [], [], []⟩], .other [2]),
    ([⟨7, [2], [], [], [], []⟩, ⟨10, [], [], [], [], []⟩, ⟨11, [], [], [], [], []⟩, ⟨13, [], [], [], [], []⟩, ⟨13, [], [5], [], [], []⟩, ⟨12, [5], [], [], [], []⟩], .switchInt [4, 3]),
    ([⟨18, [], [], [], [], []⟩, ⟨18, [1], [6], [], [], []⟩, ⟨18, [6], [7], [], [], []⟩, ⟨17, [7], [3], [], [], []⟩, ⟨17, [], [], [], [], []⟩, ⟨14, [], [4], [], [], []⟩, ⟨12, [], [], [], [], []⟩], .goto 5),
    ([⟨23, [], [], [], [], []⟩, ⟨23, [2], [8], [], [], []⟩, ⟨23, [8], [9], [], [], []⟩, ⟨22, [9], [3], [], [], []⟩, ⟨22, [], [], [], [], []⟩, ⟨19, [], [4], [], [], []⟩, ⟨12, [], [], [], [], []⟩], .goto 5),
    ([⟨12, [], [], [], [], []⟩, ⟨11, [], [], [], [], []⟩, ⟨25, [], [], [], [], []⟩, ⟨25, [], [], [], [], []⟩, ⟨25, [3], [10], [], [], []⟩, ⟨25, [10], [], [], [], []⟩], .other [6]),
    ([⟨25, [], [], [], [], []⟩, ⟨24, [], [], [], [], []⟩, ⟨27, [], [], [], [], []⟩, ⟨27, [], [], [], [], []⟩, ⟨27, [1], [11], [], [], []⟩, ⟨27, [11], [], [], [], []⟩], .other [7]),
    ([⟨27, [], [], [], [], []⟩, ⟨26, [], [], [], [], []⟩, ⟨29, [], [], [], [], []⟩, ⟨29, [], [], [], [], []⟩, ⟨29, [2], [12], [], [], []⟩, ⟨29, [12], [], [], [], []⟩], .other [8]),
    ([⟨29, [], [], [], [], []⟩, ⟨28, [], [], [], [], []⟩, ⟨1, [], [], [], [], []⟩, ⟨1, [], [], [3], [], []⟩, ⟨1, [], [], [], [], []⟩], .other [9]),
    ([⟨1, [], [], [2], [], []⟩, ⟨1, [], [], [], [], []⟩], .other [10]),
    ([⟨1, [], [], [1], [], []⟩, ⟨1, [], [], [], [], []⟩], .ret)]
  parents := [0, 0, 1, 2, 3, 4, 2, 6, 7, 2, 9, 2, 11, 12, 12, 14, 15, 16, 17, 12, 19, 20, 21, 22, 2, 24, 2, 26, 2, 28]
  lines := fun
    | 1 => (0, 16)
    | 2 => (0, 16)
    | 3 => (1, 1)
    | 4 => (1, 1)
    | 5 => (1, 1)
    | 6 => (2, 2)
    | 7 => (2, 2)
    | 8 => (2, 2)
    | 9 => (4, 4)
    | 10 => (4, 4)
    | 11 => (6, 10)
    | 12 => (6, 10)
    | 13 => (6, 6)
    | 14 => (6, 8)
    | 15 => (6, 8)
    | 16 => (7, 7)
    | 17 => (7, 7)
    | 18 => (7, 7)
    | 19 => (8, 10)
    | 20 => (8, 10)
    | 21 => (9, 9)
    | 22 => (9, 9)
    | 23 => (9, 9)
    | 24 => (12, 12)
    | 25 => (12, 12)
    | 26 => (14, 14)
    | 27 => (14, 14)
    | 28 => (15, 15)
    | 29 => (15, 15)
    | _ => (0, 0)
  letRead := fun l => if l = ⟨1, 0⟩ then some 1 else if l = ⟨2, 0⟩ then some 2 else none
  value := .other 1 [.block (.mk 2 [.lt 3 4 (some (.other 5 [])) none, .lt 6 7 (some (.other 8 [])) none, .lt 9 10 none none,
    .expr 11 (.ite 12 (.other 13 []) (.other 14 [.block (.mk 15 [.expr 16 (.other 17 [.expr (.other 18 [])])] none)])
      (some (.other 19 [.block (.mk 20 [.expr 21 (.other 22 [.expr (.other 23 [])])] none)]))),
    .expr 24 (.other 25 []), .expr 26 (.other 27 []), .expr 28 (.other 29 [])] none)]
  places := [(⟨1, []⟩, true, true), (⟨2, []⟩, true, true), (⟨3, []⟩, false, true), (⟨3, [.deref]⟩, true, false)]
  loans := [⟨0, 0, true, ⟨3, 1⟩, [6, 7, 3]⟩, ⟨4, 1, true, ⟨4, 1⟩, [8, 9, 3]⟩, ⟨1, 3, true, ⟨5, 4⟩, [10]⟩, ⟨2, 0, true, ⟨6, 4⟩, [11]⟩, ⟨3, 1, true, ⟨7, 4⟩, [12]⟩]

/-- `tests/snapshots/stepper__main@if_1.test.snap` -/
def ifStmtRows : List (Nat × Place × DataDiff) := [
  (1, ⟨1, []⟩, ⟨.high true, .none (some true), .none (some true), .none none, .none (some false), .none none, .none none, .none none, ⟨.high true, .high true, .high true⟩⟩),
  (2, ⟨2, []⟩, ⟨.high true, .none (some true), .none (some true), .none none, .low, .none none, .none none, .none none, ⟨.high true, .high true, .high true⟩⟩),
  (7, ⟨3, [.deref]⟩, ⟨.high true, .none (some false), .none (some true), .none none, .none (some false), .none none, .none none, .none none, ⟨.high true, .high true, .none (some false)⟩⟩),
  (7, ⟨3, []⟩, ⟨.high true, .none (some true), .none (some false), .none none, .low, .none none, .none none, .none none, ⟨.high true, .none (some false), .high true⟩⟩),
  (7, ⟨1, []⟩, ⟨.none (some true), .none (some true), .none (some true), .none none, .none (some false), .high 0, .high 0, .high 0, ⟨.low, .low, .low⟩⟩),
  (9, ⟨3, [.deref]⟩, ⟨.high true, .none (some false), .none (some true), .none none, .none (some false), .none none, .none none, .none none, ⟨.high true, .high true, .none (some false)⟩⟩),
  (9, ⟨3, []⟩, ⟨.high true, .none (some true), .none (some false), .none none, .low, .none none, .none none, .none none, ⟨.high true, .none (some false), .high true⟩⟩),
  (9, ⟨2, []⟩, ⟨.none (some true), .none (some true), .none (some true), .none none, .none (some false), .high 4, .high 4, .high 4, ⟨.low, .low, .low⟩⟩),
  (12, ⟨3, [.deref]⟩, ⟨.low, .none (some false), .none (some true), .none none, .none (some false), .none none, .none none, .none none, ⟨.low, .low, .none (some false)⟩⟩),
  (12, ⟨3, []⟩, ⟨.low, .none (some true), .none (some false), .none none, .none (some false), .none none, .none none, .none none, ⟨.low, .none (some false), .low⟩⟩),
  (12, ⟨1, []⟩, ⟨.none (some true), .none (some true), .none (some true), .none none, .none (some false), .low, .low, .low, ⟨.high true, .high true, .high true⟩⟩),
  (12, ⟨2, []⟩, ⟨.none (some true), .none (some true), .none (some true), .none none, .none (some false), .low, .low, .low, ⟨.high true, .high true, .high true⟩⟩),
  (14, ⟨1, []⟩, ⟨.low, .none (some true), .none (some true), .none none, .none (some false), .none none, .none none, .none none, ⟨.low, .low, .low⟩⟩),
  (15, ⟨2, []⟩, ⟨.low, .none (some true), .none (some true), .none none, .none (some false), .none none, .none none, .none none, ⟨.low, .low, .low⟩⟩)]

#guard ifStmt.rows.any (sameRows ifStmtRows)

/-- A conditional whose value is a borrow (`tests/steps/if_0.test`) -/
def ifValue : Fn where
  src := "fn main() {\n  let mut s1 = String::from(\"\");\n  let mut s2 = String::from(\"\");\n\n  let b = if true {\n    &mut s1\n  } else {\n    &mut s2\n  };\n\n  b.push_str(\"ok\");\n\n  s1.push_str(\"done\");\n  s2.push_str(\"done\");\n}\n"
  code := [
    ([⟨4, [], [], [], [], []⟩, ⟨5, [], [1], [], [], []⟩], .other [1]),
    ([⟨4, [1], [], [], [], []⟩, ⟨7, [], [], [], [], []⟩, ⟨8, [], [2], [], [], []⟩], .other [2]),
    ([⟨7, [2], [], [], [], []⟩, ⟨10, [], [], [], [], []⟩, ⟨11, [], [], [], [], []⟩, ⟨12, [], [], [], [], []⟩, ⟨12, [], [5], [], [], []⟩, ⟨11, [5], [], [], [], []⟩], .switchInt [4, 3]),
    ([⟨15, [], [], [], [], []⟩, ⟨15, [1], [6], [], [], []⟩, ⟨13, [6], [4], [], [], []⟩, ⟨13, [], [], [], [], []⟩, ⟨11, [], [], [], [], []⟩], .goto 5),
    ([⟨18, [], [], [], [], []⟩, ⟨18, [2], [7], [], [], []⟩, ⟨16, [7], [4], [], [], []⟩, ⟨16, [], [], [], [], []⟩, ⟨11, [], [], [], [], []⟩], .goto 5),
    ([⟨11, [], [], [], [], []⟩, ⟨11, [4], [3], [], [], []⟩, ⟨10, [3], [], [], [], []⟩, ⟨9, [], [], [], [], []⟩, ⟨20, [], [], [], [], []⟩, ⟨20, [], [], [], [], []⟩, ⟨20, [3], [10], [], [], []⟩, ⟨20, [10], [], [], [], []⟩], .other [6]),
    ([⟨20, [], [], [], [], []⟩, ⟨19, [], [], [], [], []⟩, ⟨22, [], [], [], [], []⟩, ⟨22, [], [], [], [], []⟩, ⟨22, [1], [11], [], [], []⟩, ⟨22, [11], [], [], [], []⟩], .other [7]),
    ([⟨22, [], [], [], [], []⟩, ⟨21, [], [], [], [], []⟩, ⟨24, [], [], [], [], []⟩, ⟨24, [], [], [], [], []⟩, ⟨24, [2], [12], [], [], []⟩, ⟨24, [12], [], [], [], []⟩], .other [8]),
    ([⟨24, [], [], [], [], []⟩, ⟨23, [], [], [], [], []⟩, ⟨1, [], [], [], [], []⟩, ⟨1, [], [], [3], [], []⟩, ⟨1, [], [], [], [], []⟩], .other [9]),
    ([⟨1, [], [], [2], [], []⟩, ⟨1, [], [], [], [], []⟩], .other [10]),
    ([⟨1, [], [], [1], [], []⟩, ⟨1, [], [], [], [], []⟩], .ret)]
  parents := [0, 0, 1, 2, 3, 4, 2, 6, 7, 2, 9, 10, 11, 11, 13, 14, 11, 16, 17, 2, 19, 2, 21, 2, 23]
  lines := fun
    | 1 => (0, 14)
    | 2 => (0, 14)
    | 3 => (1, 1)
    | 4 => (1, 1)
    | 5 => (1, 1)
    | 6 => (2, 2)
    | 7 => (2, 2)
    | 8 => (2, 2)
    | 9 => (4, 8)
    | 10 => (4, 8)
    | 11 => (4, 8)
    | 12 => (4, 4)
    | 13 => (4, 6)
    | 14 => (4, 6)
    | 15 => (5, 5)
    | 16 => (6, 8)
    | 17 => (6, 8)
    | 18 => (7, 7)
    | 19 => (10, 10)
    | 20 => (10, 10)
    | 21 => (12, 12)
    | 22 => (12, 12)
    | 23 => (13, 13)
    | 24 => (13, 13)
    | _ => (0, 0)
  letRead := fun l => if l = ⟨1, 0⟩ then some 1 else if l = ⟨2, 0⟩ then some 2 else if l = ⟨5, 2⟩ then some 3 else none
  value := .other 1 [.block (.mk 2 [.lt 3 4 (some (.other 5 [])) none, .lt 6 7 (some (.other 8 [])) none,
    .lt 9 10 (some (.ite 11 (.other 12 []) (.other 13 [.block (.mk 14 [] (some (.other 15 [])))])
      (some (.other 16 [.block (.mk 17 [] (some (.other 18 [])))])))) none,
    .expr 19 (.other 20 []), .expr 21 (.other 22 []), .expr 23 (.other 24 [])] none)]
  places := [(⟨1, []⟩, true, true), (⟨2, []⟩, true, true), (⟨3, []⟩, false, true), (⟨3, [.deref]⟩, true, false)]
  loans := [⟨0, 0, true, ⟨3, 1⟩, [6, 4, 3]⟩, ⟨4, 1, true, ⟨4, 1⟩, [7, 4, 3]⟩, ⟨1, 3, true, ⟨5, 6⟩, [10]⟩, ⟨2, 0, true, ⟨6, 4⟩, [11]⟩, ⟨3, 1, true, ⟨7, 4⟩, [12]⟩]

/-- `tests/snapshots/stepper__main@if_0.test.snap` -/
def ifValueRows : List (Nat × Place × DataDiff) := [
  (1, ⟨1, []⟩, ⟨.high true, .none (some true), .none (some true), .none none, .none (some false), .none none, .none none, .none none, ⟨.high true, .high true, .high true⟩⟩),
  (2, ⟨2, []⟩, ⟨.high true, .none (some true), .none (some true), .none none, .low, .none none, .none none, .none none, ⟨.high true, .high true, .high true⟩⟩),
  (5, ⟨1, []⟩, ⟨.none (some true), .none (some true), .none (some true), .none none, .none (some false), .high 0, .high 0, .high 0, ⟨.low, .low, .low⟩⟩),
  (7, ⟨2, []⟩, ⟨.none (some true), .none (some true), .none (some true), .none none, .none (some false), .high 4, .high 4, .high 4, ⟨.low, .low, .low⟩⟩),
  (8, ⟨3, [.deref]⟩, ⟨.high true, .none (some false), .none (some true), .none none, .none (some false), .none none, .none none, .none none, ⟨.high true, .high true, .none (some false)⟩⟩),
  (8, ⟨3, []⟩, ⟨.high true, .none (some true), .none (some false), .none none, .low, .none none, .none none, .none none, ⟨.high true, .none (some false), .high true⟩⟩),
  (10, ⟨3, [.deref]⟩, ⟨.low, .none (some false), .none (some true), .none none, .none (some false), .none none, .none none, .none none, ⟨.low, .low, .none (some false)⟩⟩),
  (10, ⟨3, []⟩, ⟨.low, .none (some true), .none (some false), .none none, .none (some false), .none none, .none none, .none none, ⟨.low, .none (some false), .low⟩⟩),
  (10, ⟨1, []⟩, ⟨.none (some true), .none (some true), .none (some true), .none none, .none (some false), .low, .low, .low, ⟨.high true, .high true, .high true⟩⟩),
  (10, ⟨2, []⟩, ⟨.none (some true), .none (some true), .none (some true), .none none, .none (some false), .low, .low, .low, ⟨.high true, .high true, .high true⟩⟩),
  (12, ⟨1, []⟩, ⟨.low, .none (some true), .none (some true), .none none, .none (some false), .none none, .none none, .none none, ⟨.low, .low, .low⟩⟩),
  (13, ⟨2, []⟩, ⟨.low, .none (some true), .none (some true), .none none, .none (some false), .none none, .none none, .none none, ⟨.low, .low, .low⟩⟩)]

#guard ifValue.rows.any (sameRows ifValueRows)

/-- A borrow that is used in a loop (`tests/steps/while_loop_0.test`) -/
def whileLoop : Fn where
  src := "fn main() {\n  let mut s1 = String::from(\"\");\n  let b = &mut s1;\n\n  while true {\n    b.push_str(\"yay!\");\n  }\n\n  s1.push_str(\"done\");\n}\n"
  code := [
    ([⟨4, [], [], [], [], []⟩, ⟨5, [], [1], [], [], []⟩], .other [1]),
    ([⟨4, [1], [], [], [], []⟩, ⟨7, [], [], [], [], []⟩, ⟨8, [1], [3], [], [], []⟩, ⟨7, [3], [], [], [], []⟩, ⟨9, [], [], [], [], []⟩, ⟨10, [], [], [], [], []⟩], .goto 2),
    ([⟨10, [], [], [], [], []⟩], .falseUnwind 3),
    ([⟨13, [], [], [], [], []⟩, ⟨13, [], [5], [], [], []⟩, ⟨12, [5], [], [], [], []⟩], .switchInt [6, 4]),
    ([⟨17, [], [], [], [], []⟩, ⟨17, [], [], [], [], []⟩, ⟨17, [3], [8], [], [], []⟩, ⟨17, [8], [], [], [], []⟩], .other [5]),
    ([⟨17, [], [], [], [], []⟩, ⟨16, [], [], [], [], []⟩, ⟨14, [], [6], [], [], []⟩, ⟨12, [], [], [], [], []⟩, ⟨10, [], [], [], [], []⟩], .goto 2),
    ([⟨21, [], [4], [], [], []⟩, ⟨12, [], [], [], [], []⟩, ⟨9, [], [], [], [], []⟩, ⟨23, [], [], [], [], []⟩, ⟨23, [], [], [], [], []⟩, ⟨23, [1], [11], [], [], []⟩, ⟨23, [11], [], [], [], []⟩], .other [7]),
    ([⟨23, [], [], [], [], []⟩, ⟨22, [], [], [], [], []⟩, ⟨1, [], [], [], [], []⟩, ⟨1, [], [], [3], [], []⟩, ⟨1, [], [], [], [], []⟩], .other [8]),
    ([⟨1, [], [], [1], [], []⟩, ⟨1, [], [], [], [], []⟩], .ret)]
  parents := [0, 0, 1, 2, 3, 4, 2, 6, 7, 2, 9, 10, 11, 12, 12, 14, 15, 16, 12, 18, 19, 20, 2, 22]
  lines := fun
    | 1 => (0, 9)
    | 2 => (0, 9)
    | 3 => (1, 1)
    | 4 => (1, 1)
    | 5 => (1, 1)
    | 6 => (2, 2)
    | 7 => (2, 2)
    | 8 => (2, 2)
    | 9 => (4, 6)
    | 10 => (4, 6)
    | 11 => (4, 6)
    | 12 => (4, 6)
    | 13 => (4, 4)
    | 14 => (4, 6)
    | 15 => (4, 6)
    | 16 => (5, 5)
    | 17 => (5, 5)
    | 18 => (4, 6)
    | 19 => (4, 6)
    | 20 => (4, 6)
    | 21 => (4, 6)
    | 22 => (8, 8)
    | 23 => (8, 8)
    | _ => (0, 0)
  letRead := fun l => if l = ⟨1, 0⟩ then some 1 else if l = ⟨1, 3⟩ then some 3 else none
  value := .other 1 [.block (.mk 2 [.lt 3 4 (some (.other 5 [])) none, .lt 6 7 (some (.other 8 [])) none,
    .expr 9 (.whileLoop 10 (.other 13 []) (.other 14 [.block (.mk 15 [.expr 16 (.other 17 [])] none)])
      (.other 18 [.block (.mk 19 [.expr 20 (.other 21 [])] none)])),
    .expr 22 (.other 23 [])] none)]
  places := [(⟨1, []⟩, true, true), (⟨3, []⟩, false, true), (⟨3, [.deref]⟩, true, false)]
  loans := [⟨0, 0, true, ⟨1, 2⟩, [3]⟩, ⟨1, 2, true, ⟨4, 2⟩, [8]⟩, ⟨2, 0, true, ⟨6, 5⟩, [11]⟩]

/-- `tests/snapshots/stepper__main@while_loop_0.test.snap` -/
def whileLoopRows : List (Nat × Place × DataDiff) := [
  (1, ⟨1, []⟩, ⟨.high true, .none (some true), .none (some true), .none none, .none (some false), .none none, .none none, .none none, ⟨.high true, .high true, .high true⟩⟩),
  (2, ⟨3, [.deref]⟩, ⟨.high true, .none (some false), .none (some true), .none none, .none (some false), .none none, .none none, .none none, ⟨.high true, .high true, .none (some false)⟩⟩),
  (2, ⟨3, []⟩, ⟨.high true, .none (some true), .none (some false), .none none, .low, .none none, .none none, .none none, ⟨.high true, .none (some false), .high true⟩⟩),
  (2, ⟨1, []⟩, ⟨.none (some true), .none (some true), .none (some true), .none none, .none (some false), .high 0, .high 0, .high 0, ⟨.low, .low, .low⟩⟩),
  (6, ⟨3, [.deref]⟩, ⟨.low, .none (some false), .none (some true), .none none, .none (some false), .none none, .none none, .none none, ⟨.low, .low, .none (some false)⟩⟩),
  (6, ⟨3, []⟩, ⟨.low, .none (some true), .none (some false), .none none, .none (some false), .none none, .none none, .none none, ⟨.low, .none (some false), .low⟩⟩),
  (6, ⟨1, []⟩, ⟨.none (some true), .none (some true), .none (some true), .none none, .none (some false), .low, .low, .low, ⟨.high true, .high true, .high true⟩⟩),
  (8, ⟨1, []⟩, ⟨.low, .none (some true), .none (some true), .none none, .none (some false), .none none, .none none, .none none, ⟨.low, .low, .low⟩⟩)]

#guard whileLoop.rows.any (sameRows whileLoopRows)

/-- A part of a variable is moved and set again (`tests/steps/interior_move.test`) -/
def partMove : Fn where
  src := "fn foo() {\n  let mut t = (String::from(\"1\"), String::from(\"2\"));\n\n  let s = t.0;\n\n  std::mem::drop(s);\n\n  t.0 = String::from(\"viola\");\n\n  std::mem::drop(t);\n}\n"
  code := [
    ([⟨4, [], [], [], [], []⟩, ⟨5, [], [], [], [], []⟩, ⟨5, [], [], [], [], []⟩], .other [1]),
    ([⟨5, [], [], [], [], []⟩, ⟨5, [], [], [], [], []⟩], .other [2]),
    ([⟨5, [], [1], [], [], []⟩, ⟨5, [], [], [], [], []⟩, ⟨5, [], [], [], [], []⟩, ⟨4, [1], [], [], [], []⟩, ⟨7, [], [], [], [], []⟩, ⟨8, [1], [2], [], [1], []⟩, ⟨7, [2], [], [], [], []⟩, ⟨10, [], [], [], [], []⟩, ⟨10, [], [], [], [], []⟩, ⟨10, [2], [6], [], [3], []⟩, ⟨10, [6], [], [], [], []⟩], .other [3]),
    ([⟨10, [], [], [], [], []⟩, ⟨9, [], [], [], [], []⟩, ⟨13, [], [], [], [], []⟩, ⟨13, [], [], [], [], []⟩], .other [4]),
    ([⟨12, [], [], [], [], []⟩], .other [5]),
    ([⟨12, [1], [], [], [], [1]⟩, ⟨12, [], [], [], [], []⟩], .other [6]),
    ([⟨11, [], [], [], [], []⟩, ⟨15, [], [], [], [], []⟩, ⟨15, [], [], [], [], []⟩, ⟨15, [1], [9], [], [0], []⟩, ⟨15, [9], [], [], [], []⟩], .other [7]),
    ([⟨15, [], [], [], [], []⟩, ⟨14, [], [], [], [], []⟩, ⟨1, [], [], [], [], []⟩, ⟨1, [], [], [], [], []⟩], .other [8]),
    ([⟨1, [], [], [2], [], []⟩, ⟨1, [], [], [], [], []⟩], .other [9]),
    ([⟨1, [], [], [1], [], []⟩, ⟨1, [], [], [], [], []⟩], .ret)]
  parents := [0, 0, 1, 2, 3, 4, 2, 6, 7, 2, 9, 2, 11, 12, 2, 14]
  lines := fun
    | 1 => (0, 10)
    | 2 => (0, 10)
    | 3 => (1, 1)
    | 4 => (1, 1)
    | 5 => (1, 1)
    | 6 => (3, 3)
    | 7 => (3, 3)
    | 8 => (3, 3)
    | 9 => (5, 5)
    | 10 => (5, 5)
    | 11 => (7, 7)
    | 12 => (7, 7)
    | 13 => (7, 7)
    | 14 => (9, 9)
    | 15 => (9, 9)
    | _ => (0, 0)
  letRead := fun l => if l = ⟨2, 3⟩ then some 1 else if l = ⟨2, 6⟩ then some 2 else none
  value := .other 1 [.block (.mk 2 [.lt 3 4 (some (.other 5 [])) none, .lt 6 7 (some (.other 8 [])) none,
    .expr 9 (.other 10 []), .expr 11 (.other 12 [.expr (.other 13 [])]), .expr 14 (.other 15 [])] none)]
  places := [(⟨1, []⟩, true, true), (⟨1, [.field 0 (.adt 0 false)]⟩, true, true), (⟨1, [.field 1 (.adt 0 false)]⟩, true, true), (⟨2, []⟩, false, true)]
  loans := []
  parts := [1]
  moves := [(90, ⟨2, 0⟩), (91, ⟨2, 0⟩), (91, ⟨2, 1⟩), (90, ⟨2, 2⟩), (1, ⟨2, 5⟩), (3, ⟨2, 9⟩), (92, ⟨2, 10⟩), (92, ⟨3, 0⟩),
    (93, ⟨3, 1⟩), (94, ⟨5, 0⟩), (94, ⟨5, 0⟩), (94, ⟨6, 0⟩), (0, ⟨6, 3⟩)]

/-- `tests/snapshots/stepper__foo@interior_move.test.snap` -/
def partMoveRows : List (Nat × Place × DataDiff) := [
  (1, ⟨1, []⟩, ⟨.high true, .none (some true), .none (some true), .none none, .none (some false), .none none, .none none, .none none, ⟨.high true, .high true, .high true⟩⟩),
  (1, ⟨1, [.field 0 (.adt 0 false)]⟩, ⟨.high true, .none (some true), .none (some true), .none none, .none (some false), .none none, .none none, .none none, ⟨.high true, .high true, .high true⟩⟩),
  (1, ⟨1, [.field 1 (.adt 0 false)]⟩, ⟨.high true, .none (some true), .none (some true), .none none, .none (some false), .none none, .none none, .none none, ⟨.high true, .high true, .high true⟩⟩),
  (3, ⟨2, []⟩, ⟨.high true, .none (some true), .none (some false), .none none, .low, .none none, .none none, .none none, ⟨.high true, .none (some false), .high true⟩⟩),
  (3, ⟨1, []⟩, ⟨.none (some true), .none (some true), .none (some true), .high 4, .high true, .none none, .none none, .none none, ⟨.low, .low, .low⟩⟩),
  (3, ⟨1, [.field 0 (.adt 0 false)]⟩, ⟨.none (some true), .none (some true), .none (some true), .high 4, .high true, .none none, .none none, .none none, ⟨.low, .low, .low⟩⟩),
  (5, ⟨2, []⟩, ⟨.low, .none (some true), .none (some false), .high 5, .high true, .none none, .none none, .none none, ⟨.low, .none (some false), .low⟩⟩),
  (7, ⟨1, []⟩, ⟨.none (some true), .none (some true), .none (some true), .low, .low, .none none, .none none, .none none, ⟨.high true, .high true, .high true⟩⟩),
  (7, ⟨1, [.field 0 (.adt 0 false)]⟩, ⟨.none (some true), .none (some true), .none (some true), .low, .low, .none none, .none none, .none none, ⟨.high true, .high true, .high true⟩⟩),
  (9, ⟨1, []⟩, ⟨.low, .none (some true), .none (some true), .high 12, .high true, .none none, .none none, .none none, ⟨.low, .low, .low⟩⟩),
  (9, ⟨1, [.field 0 (.adt 0 false)]⟩, ⟨.low, .none (some true), .none (some true), .high 12, .high true, .none none, .none none, .none none, ⟨.low, .low, .low⟩⟩),
  (9, ⟨1, [.field 1 (.adt 0 false)]⟩, ⟨.low, .none (some true), .none (some true), .high 12, .none (some false), .none none, .none none, .none none, ⟨.low, .low, .low⟩⟩)]

#guard partMove.rows.any (sameRows partMoveRows)

/-- A part of a variable is moved and the variable is set again (`tests/steps/interior_move_1.test`) -/
def wholeSet : Fn where
  src := "fn foo() {\n  let mut t = (String::from(\"1\"), String::from(\"2\"));\n\n  let s = t.0;\n\n  std::mem::drop(s);\n\n  t = (String::from(\"1\"), String::from(\"2\"));\n\n  std::mem::drop(t);\n}\n"
  code := [
    ([⟨4, [], [], [], [], []⟩, ⟨5, [], [], [], [], []⟩, ⟨5, [], [], [], [], []⟩], .other [1]),
    ([⟨5, [], [], [], [], []⟩, ⟨5, [], [], [], [], []⟩], .other [2]),
    ([⟨5, [], [1], [], [], []⟩, ⟨5, [], [], [], [], []⟩, ⟨5, [], [], [], [], []⟩, ⟨4, [1], [], [], [], []⟩, ⟨7, [], [], [], [], []⟩, ⟨8, [1], [2], [], [1], []⟩, ⟨7, [2], [], [], [], []⟩, ⟨10, [], [], [], [], []⟩, ⟨10, [], [], [], [], []⟩, ⟨10, [2], [6], [], [3], []⟩, ⟨10, [6], [], [], [], []⟩], .other [3]),
    ([⟨10, [], [], [], [], []⟩, ⟨9, [], [], [], [], []⟩, ⟨13, [], [], [], [], []⟩, ⟨13, [], [], [], [], []⟩, ⟨13, [], [], [], [], []⟩], .other [4]),
    ([⟨13, [], [], [], [], []⟩, ⟨13, [], [], [], [], []⟩], .other [5]),
    ([⟨13, [], [], [], [], []⟩, ⟨13, [], [], [], [], []⟩, ⟨13, [], [], [], [], []⟩, ⟨12, [], [], [], [], []⟩], .other [6]),
    ([⟨12, [], [1], [], [], [0]⟩, ⟨12, [], [], [], [], []⟩], .other [7]),
    ([⟨11, [], [], [], [], []⟩, ⟨15, [], [], [], [], []⟩, ⟨15, [], [], [], [], []⟩, ⟨15, [1], [9], [], [0], []⟩, ⟨15, [9], [], [], [], []⟩], .other [8]),
    ([⟨15, [], [], [], [], []⟩, ⟨14, [], [], [], [], []⟩, ⟨1, [], [], [], [], []⟩, ⟨1, [], [], [], [], []⟩], .other [9]),
    ([⟨1, [], [], [2], [], []⟩, ⟨1, [], [], [], [], []⟩], .other [10]),
    ([⟨1, [], [], [1], [], []⟩, ⟨1, [], [], [], [], []⟩], .ret)]
  parents := [0, 0, 1, 2, 3, 4, 2, 6, 7, 2, 9, 2, 11, 12, 2, 14]
  lines := fun
    | 1 => (0, 10)
    | 2 => (0, 10)
    | 3 => (1, 1)
    | 4 => (1, 1)
    | 5 => (1, 1)
    | 6 => (3, 3)
    | 7 => (3, 3)
    | 8 => (3, 3)
    | 9 => (5, 5)
    | 10 => (5, 5)
    | 11 => (7, 7)
    | 12 => (7, 7)
    | 13 => (7, 7)
    | 14 => (9, 9)
    | 15 => (9, 9)
    | _ => (0, 0)
  letRead := fun l => if l = ⟨2, 3⟩ then some 1 else if l = ⟨2, 6⟩ then some 2 else none
  value := .other 1 [.block (.mk 2 [.lt 3 4 (some (.other 5 [])) none, .lt 6 7 (some (.other 8 [])) none,
    .expr 9 (.other 10 []), .expr 11 (.other 12 [.expr (.other 13 [])]), .expr 14 (.other 15 [])] none)]
  places := [(⟨1, []⟩, true, true), (⟨1, [.field 0 (.adt 0 false)]⟩, true, true), (⟨1, [.field 1 (.adt 0 false)]⟩, true, true), (⟨2, []⟩, false, true)]
  loans := []
  parts := [1]
  moves := [(90, ⟨2, 0⟩), (91, ⟨2, 0⟩), (91, ⟨2, 1⟩), (90, ⟨2, 2⟩), (1, ⟨2, 5⟩), (3, ⟨2, 9⟩), (92, ⟨2, 10⟩), (92, ⟨3, 0⟩),
    (93, ⟨3, 1⟩), (94, ⟨5, 0⟩), (95, ⟨5, 0⟩), (95, ⟨5, 1⟩), (94, ⟨5, 2⟩), (96, ⟨6, 0⟩), (96, ⟨7, 0⟩), (0, ⟨7, 3⟩)]

/-- `tests/snapshots/stepper__foo@interior_move_1.test.snap` -/
def wholeSetRows : List (Nat × Place × DataDiff) := [
  (1, ⟨1, []⟩, ⟨.high true, .none (some true), .none (some true), .none none, .none (some false), .none none, .none none, .none none, ⟨.high true, .high true, .high true⟩⟩),
  (1, ⟨1, [.field 0 (.adt 0 false)]⟩, ⟨.high true, .none (some true), .none (some true), .none none, .none (some false), .none none, .none none, .none none, ⟨.high true, .high true, .high true⟩⟩),
  (1, ⟨1, [.field 1 (.adt 0 false)]⟩, ⟨.high true, .none (some true), .none (some true), .none none, .none (some false), .none none, .none none, .none none, ⟨.high true, .high true, .high true⟩⟩),
  (3, ⟨2, []⟩, ⟨.high true, .none (some true), .none (some false), .none none, .low, .none none, .none none, .none none, ⟨.high true, .none (some false), .high true⟩⟩),
  (3, ⟨1, []⟩, ⟨.low, .none (some true), .none (some true), .high 4, .high true, .none none, .none none, .none none, ⟨.low, .low, .low⟩⟩),
  (3, ⟨1, [.field 0 (.adt 0 false)]⟩, ⟨.low, .none (some true), .none (some true), .high 4, .high true, .none none, .none none, .none none, ⟨.low, .low, .low⟩⟩),
  (3, ⟨1, [.field 1 (.adt 0 false)]⟩, ⟨.low, .none (some true), .none (some true), .none none, .none (some false), .none none, .none none, .none none, ⟨.low, .low, .low⟩⟩),
  (5, ⟨2, []⟩, ⟨.low, .none (some true), .none (some false), .high 5, .high true, .none none, .none none, .none none, ⟨.low, .none (some false), .low⟩⟩),
  (7, ⟨1, []⟩, ⟨.high true, .none (some true), .none (some true), .low, .low, .none none, .none none, .none none, ⟨.high true, .high true, .high true⟩⟩),
  (7, ⟨1, [.field 0 (.adt 0 false)]⟩, ⟨.high true, .none (some true), .none (some true), .low, .low, .none none, .none none, .none none, ⟨.high true, .high true, .high true⟩⟩),
  (7, ⟨1, [.field 1 (.adt 0 false)]⟩, ⟨.high true, .none (some true), .none (some true), .none none, .none (some false), .none none, .none none, .none none, ⟨.high true, .high true, .high true⟩⟩),
  (9, ⟨1, []⟩, ⟨.low, .none (some true), .none (some true), .high 15, .high true, .none none, .none none, .none none, ⟨.low, .low, .low⟩⟩),
  (9, ⟨1, [.field 0 (.adt 0 false)]⟩, ⟨.low, .none (some true), .none (some true), .high 15, .high true, .none none, .none none, .none none, ⟨.low, .low, .low⟩⟩),
  (9, ⟨1, [.field 1 (.adt 0 false)]⟩, ⟨.low, .none (some true), .none (some true), .high 15, .none (some false), .none none, .none none, .none none, ⟨.low, .low, .low⟩⟩)]

#guard wholeSet.rows.any (sameRows wholeSetRows)

/-- The parts of a struct with a destructor have no O (`tests/steps/struct_with_dtor.test`) -/
def destructor : Fn where
  src := "struct S {\n    first: String,\n    second: String,\n}\n\nimpl Drop for S {\n    fn drop(&mut self) {}\n}\n\nfn foo(s: S) -> String {\n    s.first\n}\n"
  code := [
    ([⟨3, [1], [0], [], [], []⟩, ⟨1, [], [], [], [], []⟩], .other [1]),
    ([⟨1, [], [], [], [], []⟩], .ret)]
  parents := [0, 0, 1, 2]
  lines := fun
    | 1 => (9, 11)
    | 2 => (9, 11)
    | 3 => (10, 10)
    | _ => (0, 0)
  letRead := fun l => if l = ⟨9, 9⟩ then some 9 else none
  value := .other 1 [.block (.mk 2 [] (some (.other 3 [])))]
  places := [(⟨1, []⟩, false, true), (⟨1, [.field 0 (.adt 0 false)]⟩, false, false), (⟨1, [.field 1 (.adt 0 false)]⟩, false, false)]
  loans := []
  args := [1]
  brace := 9

/-- `tests/snapshots/stepper__foo@struct_with_dtor.test.snap` -/
def destructorRows : List (Nat × Place × DataDiff) := [
  (9, ⟨1, []⟩, ⟨.high true, .high true, .none (some false), .none none, .none (some false), .none none, .none none, .none none, ⟨.high true, .none (some false), .high true⟩⟩),
  (9, ⟨1, [.field 0 (.adt 0 false)]⟩, ⟨.high true, .none (some false), .none (some false), .none none, .none (some false), .none none, .none none, .none none, ⟨.high true, .none (some false), .none (some false)⟩⟩),
  (9, ⟨1, [.field 1 (.adt 0 false)]⟩, ⟨.high true, .none (some false), .none (some false), .none none, .none (some false), .none none, .none none, .none none, ⟨.high true, .none (some false), .none (some false)⟩⟩),
  (10, ⟨1, []⟩, ⟨.low, .none (some true), .none (some false), .none none, .none (some false), .none none, .none none, .none none, ⟨.low, .none (some false), .low⟩⟩),
  (10, ⟨1, [.field 0 (.adt 0 false)]⟩, ⟨.low, .none (some false), .none (some false), .none none, .none (some false), .none none, .none none, .none none, ⟨.low, .none (some false), .none (some false)⟩⟩),
  (10, ⟨1, [.field 1 (.adt 0 false)]⟩, ⟨.low, .none (some false), .none (some false), .none none, .none (some false), .none none, .none none, .none none, ⟨.low, .none (some false), .none (some false)⟩⟩)]

#guard destructor.rows.any (sameRows destructorRows)

/-- The elements of an array have no O (`tests/steps/array_0.test`) -/
def arrayInt : Fn where
  src := "fn with_string() {\n   // a[_] doesn't have O\n   let a = [String::from(\"a\")];\n\n   let s = a[0];\n}\n\nfn with_int() {\n   // a[_] doesn't have O\n   let a = [0];\n\n   let i = a[0];\n\n   drop(i);\n}\n"
  code := [
    ([⟨4, [], [], [], [], []⟩, ⟨5, [], [1], [], [], []⟩, ⟨4, [1], [], [], [], []⟩, ⟨7, [], [], [], [], []⟩, ⟨8, [], [], [], [], []⟩, ⟨8, [], [5], [], [], []⟩, ⟨8, [1], [6], [], [], []⟩, ⟨8, [5, 6], [7], [], [], []⟩, ⟨8, [7, 6, 5], [], [], [], []⟩], .other [1]),
    ([⟨8, [1, 5], [2], [], [], []⟩, ⟨7, [2], [], [], [], []⟩, ⟨6, [], [], [], [], []⟩, ⟨10, [], [], [], [], []⟩, ⟨10, [], [], [], [], []⟩, ⟨10, [2], [8], [], [], []⟩, ⟨10, [8], [], [], [], []⟩], .other [2]),
    ([⟨10, [], [], [], [], []⟩, ⟨9, [], [], [], [], []⟩, ⟨1, [], [], [], [], []⟩, ⟨1, [], [], [2], [], []⟩, ⟨1, [], [], [1], [], []⟩, ⟨1, [], [], [], [], []⟩], .ret)]
  parents := [0, 0, 1, 2, 3, 4, 2, 6, 7, 2, 9]
  lines := fun
    | 1 => (7, 14)
    | 2 => (7, 14)
    | 3 => (9, 9)
    | 4 => (9, 9)
    | 5 => (9, 9)
    | 6 => (11, 11)
    | 7 => (11, 11)
    | 8 => (11, 11)
    | 9 => (13, 13)
    | 10 => (13, 13)
    | _ => (0, 0)
  letRead := fun l => if l = ⟨0, 2⟩ then some 1 else if l = ⟨1, 1⟩ then some 2 else none
  value := .other 1 [.block (.mk 2 [.lt 3 4 (some (.other 5 [])) none, .lt 6 7 (some (.other 8 [])) none,
    .expr 9 (.other 10 [])] none)]
  places := [(⟨1, []⟩, false, true), (⟨1, [.index 0]⟩, false, false), (⟨2, []⟩, false, true)]
  loans := []
  brace := 7

/-- `tests/snapshots/stepper__with_int@array_0.test.snap` -/
def arrayIntRows : List (Nat × Place × DataDiff) := [
  (9, ⟨1, []⟩, ⟨.high true, .none (some true), .none (some false), .none none, .none (some false), .none none, .none none, .none none, ⟨.high true, .none (some false), .high true⟩⟩),
  (9, ⟨1, [.index 0]⟩, ⟨.high true, .none (some false), .none (some false), .none none, .none (some false), .none none, .none none, .none none, ⟨.high true, .none (some false), .none (some false)⟩⟩),
  (11, ⟨1, []⟩, ⟨.low, .none (some true), .none (some false), .none none, .none (some false), .none none, .none none, .none none, ⟨.low, .none (some false), .low⟩⟩),
  (11, ⟨1, [.index 0]⟩, ⟨.low, .none (some false), .none (some false), .none none, .none (some false), .none none, .none none, .none none, ⟨.low, .none (some false), .none (some false)⟩⟩),
  (11, ⟨2, []⟩, ⟨.high true, .none (some true), .none (some false), .none none, .low, .none none, .none none, .none none, ⟨.high true, .none (some false), .high true⟩⟩),
  (13, ⟨2, []⟩, ⟨.low, .none (some true), .none (some false), .none none, .none (some false), .none none, .none none, .none none, ⟨.low, .none (some false), .low⟩⟩)]

#guard arrayInt.rows.any (sameRows arrayIntRows)

/-- The steps end before the line of the first error (`tests/steps/array_0.test`) -/
def arrayString : Fn where
  src := "fn with_string() {\n   // a[_] doesn't have O\n   let a = [String::from(\"a\")];\n\n   let s = a[0];\n}\n\nfn with_int() {\n   // a[_] doesn't have O\n   let a = [0];\n\n   let i = a[0];\n\n   drop(i);\n}\n"
  code := [
    ([⟨4, [], [], [], [], []⟩, ⟨5, [], [], [], [], []⟩, ⟨5, [], [], [], [], []⟩], .other [1]),
    ([⟨5, [], [1], [], [], []⟩, ⟨5, [], [], [], [], []⟩, ⟨4, [1], [], [], [], []⟩, ⟨7, [], [], [], [], []⟩, ⟨8, [], [], [], [], []⟩, ⟨8, [], [5], [], [], []⟩, ⟨8, [1], [6], [], [], []⟩, ⟨8, [5, 6], [7], [], [], []⟩, ⟨8, [7, 6, 5], [], [], [], []⟩], .other [2]),
    ([⟨8, [1, 5], [2], [], [], []⟩, ⟨7, [2], [], [], [], []⟩, ⟨6, [], [], [], [], []⟩, ⟨1, [], [], [], [], []⟩, ⟨1, [], [], [], [], []⟩], .other [3]),
    ([⟨1, [], [], [2], [], []⟩, ⟨1, [], [], [], [], []⟩], .other [4]),
    ([⟨1, [], [], [1], [], []⟩, ⟨1, [], [], [], [], []⟩], .ret)]
  parents := [0, 0, 1, 2, 3, 4, 2, 6, 7]
  lines := fun
    | 1 => (0, 5)
    | 2 => (0, 5)
    | 3 => (2, 2)
    | 4 => (2, 2)
    | 5 => (2, 2)
    | 6 => (4, 4)
    | 7 => (4, 4)
    | 8 => (4, 4)
    | _ => (0, 0)
  letRead := fun l => if l = ⟨1, 2⟩ then some 1 else if l = ⟨2, 1⟩ then some 2 else none
  value := .other 1 [.block (.mk 2 [.lt 3 4 (some (.other 5 [])) none, .lt 6 7 (some (.other 8 [])) none] none)]
  places := [(⟨1, []⟩, false, true), (⟨1, [.index 0]⟩, false, false), (⟨2, []⟩, false, true)]
  loans := []
  err := (some 93)

/-- `tests/snapshots/stepper__with_string@array_0.test.snap` -/
def arrayStringRows : List (Nat × Place × DataDiff) := [
  (2, ⟨1, []⟩, ⟨.high true, .none (some true), .none (some false), .none none, .none (some false), .none none, .none none, .none none, ⟨.high true, .none (some false), .high true⟩⟩),
  (2, ⟨1, [.index 0]⟩, ⟨.high true, .none (some false), .none (some false), .none none, .none (some false), .none none, .none none, .none none, ⟨.high true, .none (some false), .none (some false)⟩⟩)]

#guard arrayString.rows.any (sameRows arrayStringRows)

/-- A block as condition, and a borrow that is needed in one arm only (`tests/steps/if_4.test`) -/
def ifBlock : Fn where
  src := "fn foo(mut b: i32) {\n  let a = &mut b;\n\n  if {\n    *a += 1;\n    let z = *a * 2;\n    let q = *a / 2;\n    (z + q - *a) * 3 > 100\n  } {\n    println!(\"{a}\");\n  } else {\n    println!(\"{b}\");\n  }\n}\n"
  code := [
    ([⟨4, [], [], [], [], []⟩, ⟨5, [1], [2], [], [], []⟩, ⟨4, [2], [], [], [], []⟩, ⟨7, [], [], [], [], []⟩, ⟨10, [2], [10], [], [], []⟩, ⟨10, [10], [], [], [], []⟩], .other [1]),
    ([⟨10, [2, 10], [], [], [], []⟩, ⟨12, [], [], [], [], []⟩, ⟨13, [], [], [], [], []⟩, ⟨13, [2], [11], [], [], []⟩, ⟨13, [11], [12], [], [], []⟩, ⟨13, [12], [], [], [], []⟩], .other [2]),
    ([⟨13, [12], [3], [], [], []⟩, ⟨13, [], [], [], [], []⟩, ⟨12, [3], [], [], [], []⟩, ⟨15, [], [], [], [], []⟩, ⟨16, [], [], [], [], []⟩, ⟨16, [2], [13], [], [], []⟩, ⟨16, [13], [4], [], [], []⟩, ⟨16, [], [], [], [], []⟩, ⟨15, [4], [], [], [], []⟩, ⟨17, [], [], [], [], []⟩, ⟨17, [], [], [], [], []⟩, ⟨17, [], [], [], [], []⟩, ⟨17, [], [], [], [], []⟩, ⟨17, [3], [14], [], [], []⟩, ⟨17, [], [], [], [], []⟩, ⟨17, [4], [15], [], [], []⟩, ⟨17, [14, 15], [16], [], [], []⟩, ⟨17, [16], [], [], [], []⟩], .other [3]),
    ([⟨17, [16], [17], [], [], []⟩, ⟨17, [], [], [], [], []⟩, ⟨17, [], [], [], [], []⟩, ⟨17, [], [], [], [], []⟩, ⟨17, [2], [18], [], [], []⟩, ⟨17, [17, 18], [19], [], [], []⟩, ⟨17, [19], [], [], [], []⟩], .other [4]),
    ([⟨17, [19], [20], [], [], []⟩, ⟨17, [], [], [], [], []⟩, ⟨17, [], [], [], [], []⟩, ⟨17, [20], [21], [], [], []⟩, ⟨17, [21], [], [], [], []⟩], .other [5]),
    ([⟨17, [21], [9], [], [], []⟩, ⟨17, [], [], [], [], []⟩, ⟨17, [], [], [], [], []⟩, ⟨7, [], [], [4], [], []⟩, ⟨7, [], [], [3], [], []⟩, ⟨6, [9], [], [], [], []⟩], .switchInt [8, 6]),
    ([⟨21, [], [], [], [], []⟩, ⟨21, [], [], [], [], []⟩, ⟨21, [2], [22], [], [], []⟩, ⟨21, [22], [], [], [], []⟩], .other [7]),
    ([⟨21, [], [], [], [], []⟩, ⟨20, [], [], [], [], []⟩, ⟨18, [], [0], [], [], []⟩, ⟨6, [], [], [], [], []⟩], .goto 10),
    ([⟨25, [], [], [], [], []⟩, ⟨25, [], [], [], [], []⟩, ⟨25, [1], [23], [], [], []⟩, ⟨25, [23], [], [], [], []⟩], .other [9]),
    ([⟨25, [], [], [], [], []⟩, ⟨24, [], [], [], [], []⟩, ⟨22, [], [0], [], [], []⟩, ⟨6, [], [], [], [], []⟩], .goto 10),
    ([⟨6, [], [], [], [], []⟩, ⟨1, [], [], [2], [], []⟩, ⟨1, [], [], [], [], []⟩], .ret)]
  parents := [0, 0, 1, 2, 3, 4, 2, 6, 7, 8, 9, 8, 11, 12, 8, 14, 15, 8, 6, 18, 19, 20, 6, 22, 23, 24]
  lines := fun
    | 1 => (0, 13)
    | 2 => (0, 13)
    | 3 => (1, 1)
    | 4 => (1, 1)
    | 5 => (1, 1)
    | 6 => (3, 12)
    | 7 => (3, 8)
    | 8 => (3, 8)
    | 9 => (4, 4)
    | 10 => (4, 4)
    | 11 => (5, 5)
    | 12 => (5, 5)
    | 13 => (5, 5)
    | 14 => (6, 6)
    | 15 => (6, 6)
    | 16 => (6, 6)
    | 17 => (7, 7)
    | 18 => (8, 10)
    | 19 => (8, 10)
    | 20 => (9, 9)
    | 21 => (9, 9)
    | 22 => (10, 12)
    | 23 => (10, 12)
    | 24 => (11, 11)
    | 25 => (11, 11)
    | _ => (0, 0)
  letRead := fun l => if l = ⟨0, 2⟩ then some 2 else if l = ⟨2, 2⟩ then some 3 else if l = ⟨2, 8⟩ then some 4 else none
  value := .other 1 [.block (.mk 2 [.lt 3 4 (some (.other 5 [])) none]
    (some (.ite 6 (.other 7 [.block (.mk 8 [.expr 9 (.other 10 []), .lt 11 12 (some (.other 13 [])) none,
        .lt 14 15 (some (.other 16 [])) none] (some (.other 17 [])))])
      (.other 18 [.block (.mk 19 [.expr 20 (.other 21 [])] none)])
      (some (.other 22 [.block (.mk 23 [.expr 24 (.other 25 [])] none)])))))]
  places := [(⟨1, []⟩, true, true), (⟨2, []⟩, false, true), (⟨2, [.deref]⟩, true, false), (⟨3, []⟩, false, true), (⟨4, []⟩, false, true)]
  loans := [⟨0, 0, true, ⟨0, 1⟩, [2]⟩, ⟨1, 1, false, ⟨6, 2⟩, [22]⟩, ⟨2, 0, false, ⟨8, 2⟩, [23]⟩]
  args := [1]

/-- `tests/snapshots/stepper__foo@if_4.test.snap` -/
def ifBlockRows : List (Nat × Place × DataDiff) := [
  (0, ⟨1, []⟩, ⟨.high true, .high true, .high true, .none none, .none (some false), .none none, .none none, .none none, ⟨.high true, .high true, .high true⟩⟩),
  (1, ⟨2, [.deref]⟩, ⟨.high true, .none (some false), .none (some true), .none none, .none (some false), .none none, .none none, .none none, ⟨.high true, .high true, .none (some false)⟩⟩),
  (1, ⟨2, []⟩, ⟨.high true, .none (some true), .none (some false), .none none, .none (some false), .none none, .none none, .none none, ⟨.high true, .none (some false), .high true⟩⟩),
  (1, ⟨1, []⟩, ⟨.none (some true), .none (some true), .none (some true), .none none, .none (some false), .high 0, .high 0, .high 0, ⟨.low, .low, .low⟩⟩),
  (5, ⟨3, []⟩, ⟨.high true, .none (some true), .none (some false), .none none, .low, .none none, .none none, .none none, ⟨.high true, .none (some false), .high true⟩⟩),
  (6, ⟨4, []⟩, ⟨.high true, .none (some true), .none (some false), .none none, .low, .none none, .none none, .none none, ⟨.high true, .none (some false), .high true⟩⟩),
  (7, ⟨4, []⟩, ⟨.low, .none (some true), .none (some false), .none none, .none (some false), .none none, .none none, .none none, ⟨.low, .none (some false), .low⟩⟩),
  (7, ⟨3, []⟩, ⟨.low, .none (some true), .none (some false), .none none, .none (some false), .none none, .none none, .none none, ⟨.low, .none (some false), .low⟩⟩),
  (9, ⟨2, [.deref]⟩, ⟨.low, .none (some false), .none (some true), .none none, .none (some false), .none none, .none none, .none none, ⟨.low, .low, .none (some false)⟩⟩),
  (9, ⟨2, []⟩, ⟨.low, .none (some true), .none (some false), .none none, .none (some false), .none none, .none none, .none none, ⟨.low, .none (some false), .low⟩⟩),
  (10, ⟨2, [.deref]⟩, ⟨.low, .none (some false), .none (some true), .none none, .none (some false), .none none, .none none, .none none, ⟨.low, .low, .none (some false)⟩⟩),
  (10, ⟨2, []⟩, ⟨.low, .none (some true), .none (some false), .none none, .none (some false), .none none, .none none, .none none, ⟨.low, .none (some false), .low⟩⟩),
  (10, ⟨1, []⟩, ⟨.none (some true), .none (some true), .none (some true), .none none, .none (some false), .low, .low, .low, ⟨.high true, .high true, .high true⟩⟩),
  (11, ⟨1, []⟩, ⟨.low, .none (some true), .none (some true), .none none, .none (some false), .none none, .none none, .none none, ⟨.low, .low, .low⟩⟩)]

#guard ifBlock.rows.any (sameRows ifBlockRows)

/-- The same with a `match` (`tests/steps/match_0.test`) -/
def matchBlock : Fn where
  src := "fn foo(mut b: i32) {\n  let a = &mut b;\n\n  match {\n    *a += 1;\n    let z = *a * 2;\n    let q = *a / 2;\n    (z + q - *a) * 3 > 100\n  } {\n      true => {\n        println!(\"{a}\");\n      },\n\n      false => {\n        println!(\"{b}\");\n      },\n  }\n}\n"
  code := [
    ([⟨4, [], [], [], [], []⟩, ⟨5, [1], [2], [], [], []⟩, ⟨4, [2], [], [], [], []⟩, ⟨7, [], [], [], [], []⟩, ⟨10, [2], [10], [], [], []⟩, ⟨10, [10], [], [], [], []⟩], .other [1]),
    ([⟨10, [2, 10], [], [], [], []⟩, ⟨12, [], [], [], [], []⟩, ⟨13, [], [], [], [], []⟩, ⟨13, [2], [11], [], [], []⟩, ⟨13, [11], [12], [], [], []⟩, ⟨13, [12], [], [], [], []⟩], .other [2]),
    ([⟨13, [12], [3], [], [], []⟩, ⟨13, [], [], [], [], []⟩, ⟨12, [3], [], [], [], []⟩, ⟨15, [], [], [], [], []⟩, ⟨16, [], [], [], [], []⟩, ⟨16, [2], [13], [], [], []⟩, ⟨16, [13], [4], [], [], []⟩, ⟨16, [], [], [], [], []⟩, ⟨15, [4], [], [], [], []⟩, ⟨17, [], [], [], [], []⟩, ⟨17, [], [], [], [], []⟩, ⟨17, [], [], [], [], []⟩, ⟨17, [], [], [], [], []⟩, ⟨17, [3], [14], [], [], []⟩, ⟨17, [], [], [], [], []⟩, ⟨17, [4], [15], [], [], []⟩, ⟨17, [14, 15], [16], [], [], []⟩, ⟨17, [16], [], [], [], []⟩], .other [3]),
    ([⟨17, [16], [17], [], [], []⟩, ⟨17, [], [], [], [], []⟩, ⟨17, [], [], [], [], []⟩, ⟨17, [], [], [], [], []⟩, ⟨17, [2], [18], [], [], []⟩, ⟨17, [17, 18], [19], [], [], []⟩, ⟨17, [19], [], [], [], []⟩], .other [4]),
    ([⟨17, [19], [20], [], [], []⟩, ⟨17, [], [], [], [], []⟩, ⟨17, [], [], [], [], []⟩, ⟨17, [20], [21], [], [], []⟩, ⟨17, [21], [], [], [], []⟩], .other [5]),
    ([⟨17, [21], [9], [], [], []⟩, ⟨17, [], [], [], [], []⟩, ⟨17, [], [], [], [], []⟩, ⟨7, [], [], [4], [], []⟩, ⟨7, [], [], [3], [], []⟩, ⟨6, [9], [], [], [], []⟩, ⟨6, [9], [], [], [], []⟩], .switchInt [7, 6]),
    ([⟨6, [], [], [], [], []⟩], .falseEdge 8 7),
    ([⟨6, [], [], [], [], []⟩], .falseEdge 10 12),
    ([⟨23, [], [], [], [], []⟩, ⟨23, [], [], [], [], []⟩, ⟨23, [2], [22], [], [], []⟩, ⟨23, [22], [], [], [], []⟩], .other [9]),
    ([⟨23, [], [], [], [], []⟩, ⟨22, [], [], [], [], []⟩, ⟨20, [], [0], [], [], []⟩, ⟨6, [], [], [], [], []⟩], .goto 13),
    ([⟨29, [], [], [], [], []⟩, ⟨29, [], [], [], [], []⟩, ⟨29, [1], [23], [], [], []⟩, ⟨29, [23], [], [], [], []⟩], .other [11]),
    ([⟨29, [], [], [], [], []⟩, ⟨28, [], [], [], [], []⟩, ⟨26, [], [0], [], [], []⟩, ⟨6, [], [], [], [], []⟩], .goto 13),
    ([⟨6, [], [], [], [], []⟩], .unreachable),
    ([⟨6, [], [], [], [], []⟩, ⟨1, [], [], [2], [], []⟩, ⟨1, [], [], [], [], []⟩], .ret)]
  parents := [0, 0, 1, 2, 3, 4, 2, 6, 7, 8, 9, 8, 11, 12, 8, 14, 15, 8, 6, 18, 18, 20, 21, 22, 6, 24, 24, 26, 27, 28]
  lines := fun
    | 1 => (0, 17)
    | 2 => (0, 17)
    | 3 => (1, 1)
    | 4 => (1, 1)
    | 5 => (1, 1)
    | 6 => (3, 16)
    | 7 => (3, 8)
    | 8 => (3, 8)
    | 9 => (4, 4)
    | 10 => (4, 4)
    | 11 => (5, 5)
    | 12 => (5, 5)
    | 13 => (5, 5)
    | 14 => (6, 6)
    | 15 => (6, 6)
    | 16 => (6, 6)
    | 17 => (7, 7)
    | 18 => (9, 11)
    | 19 => (9, 9)
    | 20 => (9, 11)
    | 21 => (9, 11)
    | 22 => (10, 10)
    | 23 => (10, 10)
    | 24 => (13, 15)
    | 25 => (13, 13)
    | 26 => (13, 15)
    | 27 => (13, 15)
    | 28 => (14, 14)
    | 29 => (14, 14)
    | _ => (0, 0)
  letRead := fun l => if l = ⟨0, 2⟩ then some 2 else if l = ⟨2, 2⟩ then some 3 else if l = ⟨2, 8⟩ then some 4 else none
  value := .other 1 [.block (.mk 2 [.lt 3 4 (some (.other 5 [])) none]
    (some (.mtch 6 false (.other 7 [.block (.mk 8 [.expr 9 (.other 10 []), .lt 11 12 (some (.other 13 [])) none,
        .lt 14 15 (some (.other 16 [])) none] (some (.other 17 [])))])
      [.mk 18 19 none (.other 20 [.block (.mk 21 [.expr 22 (.other 23 [])] none)]),
       .mk 24 25 none (.other 26 [.block (.mk 27 [.expr 28 (.other 29 [])] none)])])))]
  places := [(⟨1, []⟩, true, true), (⟨2, []⟩, false, true), (⟨2, [.deref]⟩, true, false), (⟨3, []⟩, false, true), (⟨4, []⟩, false, true)]
  loans := [⟨0, 0, true, ⟨0, 1⟩, [2]⟩, ⟨1, 1, false, ⟨8, 2⟩, [22]⟩, ⟨2, 0, false, ⟨10, 2⟩, [23]⟩]
  args := [1]

/-- `tests/snapshots/stepper__foo@match_0.test.snap` -/
def matchBlockRows : List (Nat × Place × DataDiff) := [
  (0, ⟨1, []⟩, ⟨.high true, .high true, .high true, .none none, .none (some false), .none none, .none none, .none none, ⟨.high true, .high true, .high true⟩⟩),
  (1, ⟨2, [.deref]⟩, ⟨.high true, .none (some false), .none (some true), .none none, .none (some false), .none none, .none none, .none none, ⟨.high true, .high true, .none (some false)⟩⟩),
  (1, ⟨2, []⟩, ⟨.high true, .none (some true), .none (some false), .none none, .none (some false), .none none, .none none, .none none, ⟨.high true, .none (some false), .high true⟩⟩),
  (1, ⟨1, []⟩, ⟨.none (some true), .none (some true), .none (some true), .none none, .none (some false), .high 0, .high 0, .high 0, ⟨.low, .low, .low⟩⟩),
  (5, ⟨3, []⟩, ⟨.high true, .none (some true), .none (some false), .none none, .low, .none none, .none none, .none none, ⟨.high true, .none (some false), .high true⟩⟩),
  (6, ⟨4, []⟩, ⟨.high true, .none (some true), .none (some false), .none none, .low, .none none, .none none, .none none, ⟨.high true, .none (some false), .high true⟩⟩),
  (7, ⟨4, []⟩, ⟨.low, .none (some true), .none (some false), .none none, .none (some false), .none none, .none none, .none none, ⟨.low, .none (some false), .low⟩⟩),
  (7, ⟨3, []⟩, ⟨.low, .none (some true), .none (some false), .none none, .none (some false), .none none, .none none, .none none, ⟨.low, .none (some false), .low⟩⟩),
  (10, ⟨2, [.deref]⟩, ⟨.low, .none (some false), .none (some true), .none none, .none (some false), .none none, .none none, .none none, ⟨.low, .low, .none (some false)⟩⟩),
  (10, ⟨2, []⟩, ⟨.low, .none (some true), .none (some false), .none none, .none (some false), .none none, .none none, .none none, ⟨.low, .none (some false), .low⟩⟩),
  (13, ⟨2, [.deref]⟩, ⟨.low, .none (some false), .none (some true), .none none, .none (some false), .none none, .none none, .none none, ⟨.low, .low, .none (some false)⟩⟩),
  (13, ⟨2, []⟩, ⟨.low, .none (some true), .none (some false), .none none, .none (some false), .none none, .none none, .none none, ⟨.low, .none (some false), .low⟩⟩),
  (13, ⟨1, []⟩, ⟨.none (some true), .none (some true), .none (some true), .none none, .none (some false), .low, .low, .low, ⟨.high true, .high true, .high true⟩⟩),
  (14, ⟨1, []⟩, ⟨.low, .none (some true), .none (some true), .none none, .none (some false), .none none, .none none, .none none, ⟨.low, .low, .low⟩⟩)]

#guard matchBlock.rows.any (sameRows matchBlockRows)

/-- A `for` loop over a borrow (`tests/steps/for_loop_0.test`) -/
def forLoop : Fn where
  src := "fn main() {\n  let mut s1 = String::from(\"\");\n  let b = &mut s1;\n  let mut v = vec![0, 1, 2, 3];\n\n  for _ in v.iter() {\n    b.push_str(\"yay!\");\n  }\n\n  v.push(4);\n  s1.push_str(\"done\");\n}\n"
  code := [
    ([⟨4, [], [], [], [], []⟩, ⟨5, [], [1], [], [], []⟩], .other [1]),
    ([⟨4, [1], [], [], [], []⟩, ⟨7, [], [], [], [], []⟩, ⟨8, [1], [2], [], [], []⟩, ⟨7, [2], [], [], [], []⟩, ⟨10, [], [], [], [], []⟩, ⟨11, [], [], [], [], []⟩, ⟨11, [], [3], [], [], []⟩], .other [2]),
    ([⟨10, [3], [], [], [], []⟩, ⟨12, [], [], [], [], []⟩, ⟨14, [], [], [], [], []⟩, ⟨14, [], [], [], [], []⟩, ⟨14, [], [], [], [], []⟩, ⟨14, [3], [10], [], [], []⟩, ⟨14, [10], [11], [], [], []⟩], .other [3]),
    ([⟨14, [11], [12], [], [], []⟩], .other [4]),
    ([⟨14, [], [], [], [], []⟩, ⟨14, [12], [13], [], [], []⟩], .other [5]),
    ([⟨13, [13], [], [], [], []⟩, ⟨15, [], [], [], [], []⟩, ⟨15, [13], [4], [], [], []⟩, ⟨17, [], [], [], [], []⟩], .goto 6),
    ([⟨17, [], [], [], [], []⟩], .falseUnwind 7),
    ([⟨21, [], [], [], [], []⟩, ⟨21, [], [], [], [], []⟩, ⟨21, [4], [14], [], [], []⟩, ⟨21, [14], [15], [], [], []⟩], .other [8]),
    ([⟨20, [15], [], [], [], []⟩, ⟨20, [15], [16], [], [], []⟩, ⟨20, [16], [], [], [], []⟩], .switchInt [10, 9, 11]),
    ([⟨20, [], [], [], [], []⟩], .falseEdge 12 11),
    ([⟨20, [], [], [], [], []⟩], .falseEdge 14 9),
    ([⟨20, [], [], [], [], []⟩], .unreachable),
    ([⟨30, [], [], [], [], []⟩, ⟨30, [], [], [], [], []⟩, ⟨30, [2], [17], [], [], []⟩, ⟨30, [17], [], [], [], []⟩], .other [13]),
    ([⟨30, [], [], [], [], []⟩, ⟨29, [], [], [], [], []⟩, ⟨27, [], [18], [], [], []⟩, ⟨20, [], [], [], [], []⟩, ⟨19, [], [], [], [], []⟩, ⟨17, [], [], [], [], []⟩], .goto 6),
    ([⟨24, [], [19], [], [], []⟩, ⟨20, [], [], [], [], []⟩, ⟨15, [], [], [4], [], []⟩, ⟨13, [], [], [], [], []⟩, ⟨12, [], [], [], [], []⟩, ⟨32, [], [], [], [], []⟩, ⟨32, [], [], [], [], []⟩, ⟨32, [3], [20], [], [], []⟩, ⟨32, [20], [], [], [], []⟩], .other [15]),
    ([⟨32, [], [], [], [], []⟩, ⟨31, [], [], [], [], []⟩, ⟨34, [], [], [], [], []⟩, ⟨34, [], [], [], [], []⟩, ⟨34, [1], [21], [], [], []⟩, ⟨34, [21], [], [], [], []⟩], .other [16]),
    ([⟨34, [], [], [], [], []⟩, ⟨33, [], [], [], [], []⟩, ⟨1, [], [], [], [], []⟩, ⟨1, [], [], [], [], []⟩], .other [17]),
    ([⟨1, [], [], [3], [], []⟩, ⟨1, [], [], [2], [], []⟩, ⟨1, [], [], [], [], []⟩], .other [18]),
    ([⟨1, [], [], [1], [], []⟩, ⟨1, [], [], [], [], []⟩], .ret)]
  parents := [0, 0, 1, 2, 3, 4, 2, 6, 7, 2, 9, 10, 2, 12, 13, 13, 15, 15, 17, 18, 19, 20, 20, 22, 22, 20, 25, 25, 27, 28, 29, 2, 31, 2, 33]
  lines := fun
    | 1 => (0, 11)
    | 2 => (0, 11)
    | 3 => (1, 1)
    | 4 => (1, 1)
    | 5 => (1, 1)
    | 6 => (2, 2)
    | 7 => (2, 2)
    | 8 => (2, 2)
    | 9 => (3, 3)
    | 10 => (3, 3)
    | 11 => (3, 3)
    | 12 => (5, 7)
    | 13 => (5, 7)
    | 14 => (5, 5)
    | 15 => (5, 7)
    | 16 => (5, 7)
    | 17 => (5, 7)
    | 18 => (5, 7)
    | 19 => (5, 7)
    | 20 => (5, 7)
    | 21 => (5, 5)
    | 22 => (5, 7)
    | 23 => (5, 7)
    | 24 => (5, 7)
    | 25 => (5, 7)
    | 26 => (5, 5)
    | 27 => (5, 7)
    | 28 => (5, 7)
    | 29 => (6, 6)
    | 30 => (6, 6)
    | 31 => (9, 9)
    | 32 => (9, 9)
    | 33 => (10, 10)
    | 34 => (10, 10)
    | _ => (0, 0)
  letRead := fun l => if l = ⟨1, 0⟩ then some 1 else if l = ⟨1, 3⟩ then some 2 else if l = ⟨2, 0⟩ then some 3 else none
  value := .other 1 [.block (.mk 2 [.lt 3 4 (some (.other 5 [])) none, .lt 6 7 (some (.other 8 [])) none,
    .lt 9 10 (some (.other 11 [])) none,
    .expr 12 (.mtch 13 true (.other 14 []) [.mk 15 16 none
      (.forLoop 17 (.other 21 []) (.mk 22 23 none (.other 24 []))
        (.mk 25 26 none (.other 27 [.block (.mk 28 [.expr 29 (.other 30 [])] none)])))]),
    .expr 31 (.other 32 []), .expr 33 (.other 34 [])] none)]
  places := [(⟨1, []⟩, true, true), (⟨2, []⟩, false, true), (⟨2, [.deref]⟩, true, false), (⟨3, []⟩, true, true)]
  loans := [⟨0, 0, true, ⟨1, 2⟩, [2]⟩, ⟨1, 3, false, ⟨2, 5⟩, [10, 11, 12, 13, 4, 14, 15]⟩, ⟨2, 4, true, ⟨7, 2⟩, [14]⟩, ⟨3, 2, true, ⟨12, 2⟩, [17]⟩, ⟨4, 3, true, ⟨14, 7⟩, [20]⟩, ⟨5, 0, true, ⟨15, 4⟩, [21]⟩]

/-- `tests/snapshots/stepper__main@for_loop_0.test.snap` -/
def forLoopRows : List (Nat × Place × DataDiff) := [
  (1, ⟨1, []⟩, ⟨.high true, .none (some true), .none (some true), .none none, .none (some false), .none none, .none none, .none none, ⟨.high true, .high true, .high true⟩⟩),
  (2, ⟨2, [.deref]⟩, ⟨.high true, .none (some false), .none (some true), .none none, .none (some false), .none none, .none none, .none none, ⟨.high true, .high true, .none (some false)⟩⟩),
  (2, ⟨2, []⟩, ⟨.high true, .none (some true), .none (some false), .none none, .low, .none none, .none none, .none none, ⟨.high true, .none (some false), .high true⟩⟩),
  (2, ⟨1, []⟩, ⟨.none (some true), .none (some true), .none (some true), .none none, .none (some false), .high 0, .high 0, .high 0, ⟨.low, .low, .low⟩⟩),
  (3, ⟨3, []⟩, ⟨.high true, .none (some true), .none (some true), .none none, .low, .none none, .none none, .none none, ⟨.high true, .high true, .high true⟩⟩),
  (5, ⟨3, []⟩, ⟨.none (some true), .none (some true), .none (some true), .none none, .none (some false), .none none, .high 1, .high 1, ⟨.none (some true), .low, .low⟩⟩),
  (7, ⟨2, [.deref]⟩, ⟨.low, .none (some false), .none (some true), .none none, .none (some false), .none none, .none none, .none none, ⟨.low, .low, .none (some false)⟩⟩),
  (7, ⟨2, []⟩, ⟨.low, .none (some true), .none (some false), .none none, .none (some false), .none none, .none none, .none none, ⟨.low, .none (some false), .low⟩⟩),
  (7, ⟨1, []⟩, ⟨.none (some true), .none (some true), .none (some true), .none none, .none (some false), .low, .low, .low, ⟨.high true, .high true, .high true⟩⟩),
  (7, ⟨3, []⟩, ⟨.none (some true), .none (some true), .none (some true), .none none, .none (some false), .none none, .low, .low, ⟨.none (some true), .high true, .high true⟩⟩),
  (9, ⟨3, []⟩, ⟨.low, .none (some true), .none (some true), .none none, .none (some false), .none none, .none none, .none none, ⟨.low, .low, .low⟩⟩),
  (10, ⟨1, []⟩, ⟨.low, .none (some true), .none (some true), .none none, .none (some false), .none none, .none none, .none none, ⟨.low, .low, .low⟩⟩)]

#guard forLoop.rows.any (sameRows forLoopRows)

/-- A variable bound by a pattern, and an error in its arm (`tests/steps/match_1.test`) -/
def matchBinding : Fn where
  src := "fn foo(mut b: i32) {\n  let a = &mut b;\n\n  match {\n    *a += 1;\n    let z = *a * 2;\n    let q = *a / 2;\n    (z + q - *a) * 3\n  } {\n      0 => {\n        println!(\"weird...\");\n      },\n\n      m => {\n        println!(\"{m} {a} {b}\");\n      },\n  }\n}\n"
  code := [
    ([⟨4, [], [], [], [], []⟩, ⟨5, [1], [2], [], [], []⟩, ⟨4, [2], [], [], [], []⟩, ⟨7, [], [], [], [], []⟩, ⟨10, [2], [10], [], [], []⟩, ⟨10, [10], [], [], [], []⟩], .other [1]),
    ([⟨10, [2, 10], [], [], [], []⟩, ⟨12, [], [], [], [], []⟩, ⟨13, [], [], [], [], []⟩, ⟨13, [2], [11], [], [], []⟩, ⟨13, [11], [12], [], [], []⟩, ⟨13, [12], [], [], [], []⟩], .other [2]),
    ([⟨13, [12], [3], [], [], []⟩, ⟨13, [], [], [], [], []⟩, ⟨12, [3], [], [], [], []⟩, ⟨15, [], [], [], [], []⟩, ⟨16, [], [], [], [], []⟩, ⟨16, [2], [13], [], [], []⟩, ⟨16, [13], [4], [], [], []⟩, ⟨16, [], [], [], [], []⟩, ⟨15, [4], [], [], [], []⟩, ⟨17, [], [], [], [], []⟩, ⟨17, [], [], [], [], []⟩, ⟨17, [], [], [], [], []⟩, ⟨17, [], [], [], [], []⟩, ⟨17, [3], [14], [], [], []⟩, ⟨17, [], [], [], [], []⟩, ⟨17, [4], [15], [], [], []⟩, ⟨17, [14, 15], [16], [], [], []⟩, ⟨17, [16], [], [], [], []⟩], .other [3]),
    ([⟨17, [16], [17], [], [], []⟩, ⟨17, [], [], [], [], []⟩, ⟨17, [], [], [], [], []⟩, ⟨17, [], [], [], [], []⟩, ⟨17, [2], [18], [], [], []⟩, ⟨17, [17, 18], [19], [], [], []⟩, ⟨17, [19], [], [], [], []⟩], .other [4]),
    ([⟨17, [19], [20], [], [], []⟩, ⟨17, [], [], [], [], []⟩, ⟨17, [], [], [], [], []⟩, ⟨17, [20], [21], [], [], []⟩, ⟨17, [21], [], [], [], []⟩], .other [5]),
    ([⟨17, [21], [9], [], [], []⟩, ⟨17, [], [], [], [], []⟩, ⟨17, [], [], [], [], []⟩, ⟨7, [], [], [4], [], []⟩, ⟨7, [], [], [3], [], []⟩, ⟨6, [9], [], [], [], []⟩, ⟨6, [9], [], [], [], []⟩], .switchInt [6, 7]),
    ([⟨6, [], [], [], [], []⟩], .falseEdge 8 7),
    ([⟨6, [], [], [], [], []⟩], .falseEdge 10 12),
    ([⟨23, [], [], [], [], []⟩, ⟨23, [], [], [], [], []⟩, ⟨23, [], [], [], [], []⟩, ⟨23, [], [], [], [], []⟩], .other [9]),
    ([⟨23, [], [], [], [], []⟩, ⟨22, [], [], [], [], []⟩, ⟨20, [], [0], [], [], []⟩, ⟨6, [], [], [], [], []⟩], .goto 13),
    ([⟨24, [], [], [], [], []⟩, ⟨24, [9], [5], [], [], []⟩, ⟨29, [], [], [], [], []⟩, ⟨29, [5], [22], [], [], []⟩, ⟨29, [2], [23], [], [], []⟩, ⟨29, [1], [24], [], [], []⟩, ⟨29, [22, 23, 24], [], [], [], []⟩], .other [11]),
    ([⟨29, [], [], [], [], []⟩, ⟨28, [], [], [], [], []⟩, ⟨26, [], [0], [], [], []⟩, ⟨24, [], [], [5], [], []⟩, ⟨6, [], [], [], [], []⟩], .goto 13),
    ([⟨6, [], [], [], [], []⟩], .unreachable),
    ([⟨6, [], [], [], [], []⟩, ⟨1, [], [], [2], [], []⟩, ⟨1, [], [], [], [], []⟩], .ret)]
  parents := [0, 0, 1, 2, 3, 4, 2, 6, 7, 8, 9, 8, 11, 12, 8, 14, 15, 8, 6, 18, 18, 20, 21, 22, 6, 24, 24, 26, 27, 28]
  lines := fun
    | 1 => (0, 17)
    | 2 => (0, 17)
    | 3 => (1, 1)
    | 4 => (1, 1)
    | 5 => (1, 1)
    | 6 => (3, 16)
    | 7 => (3, 8)
    | 8 => (3, 8)
    | 9 => (4, 4)
    | 10 => (4, 4)
    | 11 => (5, 5)
    | 12 => (5, 5)
    | 13 => (5, 5)
    | 14 => (6, 6)
    | 15 => (6, 6)
    | 16 => (6, 6)
    | 17 => (7, 7)
    | 18 => (9, 11)
    | 19 => (9, 9)
    | 20 => (9, 11)
    | 21 => (9, 11)
    | 22 => (10, 10)
    | 23 => (10, 10)
    | 24 => (13, 15)
    | 25 => (13, 13)
    | 26 => (13, 15)
    | 27 => (13, 15)
    | 28 => (14, 14)
    | 29 => (14, 14)
    | _ => (0, 0)
  letRead := fun l => if l = ⟨0, 2⟩ then some 2 else if l = ⟨2, 2⟩ then some 3 else if l = ⟨2, 8⟩ then some 4 else none
  value := .other 1 [.block (.mk 2 [.lt 3 4 (some (.other 5 [])) none]
    (some (.mtch 6 false (.other 7 [.block (.mk 8 [.expr 9 (.other 10 []), .lt 11 12 (some (.other 13 [])) none,
        .lt 14 15 (some (.other 16 [])) none] (some (.other 17 [])))])
      [.mk 18 19 none (.other 20 [.block (.mk 21 [.expr 22 (.other 23 [])] none)]),
       .mk 24 25 none (.other 26 [.block (.mk 27 [.expr 28 (.other 29 [])] none)])])))]
  places := [(⟨1, []⟩, true, true), (⟨2, []⟩, false, true), (⟨2, [.deref]⟩, true, false), (⟨3, []⟩, false, true), (⟨4, []⟩, false, true), (⟨5, []⟩, false, true)]
  loans := [⟨0, 0, true, ⟨0, 1⟩, [2]⟩, ⟨1, 5, false, ⟨10, 3⟩, [22]⟩, ⟨2, 1, false, ⟨10, 4⟩, [23]⟩, ⟨3, 0, false, ⟨10, 5⟩, [24]⟩]
  args := [1]
  err := (some 225)

/-- `tests/snapshots/stepper__foo@match_1.test.snap` -/
def matchBindingRows : List (Nat × Place × DataDiff) := [
  (0, ⟨1, []⟩, ⟨.high true, .high true, .high true, .none none, .none (some false), .none none, .none none, .none none, ⟨.high true, .high true, .high true⟩⟩),
  (1, ⟨2, [.deref]⟩, ⟨.high true, .none (some false), .none (some true), .none none, .none (some false), .none none, .none none, .none none, ⟨.high true, .high true, .none (some false)⟩⟩),
  (1, ⟨2, []⟩, ⟨.high true, .none (some true), .none (some false), .none none, .none (some false), .none none, .none none, .none none, ⟨.high true, .none (some false), .high true⟩⟩),
  (1, ⟨1, []⟩, ⟨.none (some true), .none (some true), .none (some true), .none none, .none (some false), .high 0, .high 0, .high 0, ⟨.low, .low, .low⟩⟩),
  (5, ⟨3, []⟩, ⟨.high true, .none (some true), .none (some false), .none none, .low, .none none, .none none, .none none, ⟨.high true, .none (some false), .high true⟩⟩),
  (6, ⟨4, []⟩, ⟨.high true, .none (some true), .none (some false), .none none, .low, .none none, .none none, .none none, ⟨.high true, .none (some false), .high true⟩⟩),
  (7, ⟨4, []⟩, ⟨.low, .none (some true), .none (some false), .none none, .none (some false), .none none, .none none, .none none, ⟨.low, .none (some false), .low⟩⟩),
  (7, ⟨3, []⟩, ⟨.low, .none (some true), .none (some false), .none none, .none (some false), .none none, .none none, .none none, ⟨.low, .none (some false), .low⟩⟩),
  (9, ⟨2, [.deref]⟩, ⟨.low, .none (some false), .none (some true), .none none, .none (some false), .none none, .none none, .none none, ⟨.low, .low, .none (some false)⟩⟩),
  (9, ⟨2, []⟩, ⟨.low, .none (some true), .none (some false), .none none, .none (some false), .none none, .none none, .none none, ⟨.low, .none (some false), .low⟩⟩),
  (13, ⟨5, []⟩, ⟨.high true, .none (some true), .none (some false), .none none, .low, .none none, .none none, .none none, ⟨.high true, .none (some false), .high true⟩⟩)]

#guard matchBinding.rows.any (sameRows matchBindingRows)

/-- An error in the first statement: only what the arguments have is shown (`tests/steps/illegal_promotion_0.test`) -/
def sortRef : Fn where
  src := "fn find_nth<T: Ord + Clone>(elems: &[T], n: usize) -> T {\n  elems.sort();\n  let t = &elems[n];\n  return t.clone();\n}\n"
  code := [
    ([⟨4, [], [], [], [], []⟩, ⟨4, [], [], [], [], []⟩, ⟨4, [1], [5], [], [], []⟩, ⟨4, [5], [], [], [], []⟩], .other [1]),
    ([⟨4, [], [], [], [], []⟩, ⟨3, [], [], [], [], []⟩, ⟨6, [], [], [], [], []⟩, ⟨7, [2], [6], [], [], []⟩, ⟨7, [1, 6], [3], [], [], []⟩, ⟨6, [3], [], [], [], []⟩, ⟨10, [], [], [], [], []⟩, ⟨10, [3], [7], [], [], []⟩, ⟨10, [7], [0], [], [], []⟩], .other [2]),
    ([⟨10, [], [], [], [], []⟩, ⟨9, [], [], [], [], []⟩, ⟨1, [], [], [3], [], []⟩, ⟨1, [], [], [], [], []⟩], .ret)]
  parents := [0, 0, 1, 2, 3, 2, 5, 6, 2, 8, 9]
  lines := fun
    | 1 => (0, 4)
    | 2 => (0, 4)
    | 3 => (1, 1)
    | 4 => (1, 1)
    | 5 => (2, 2)
    | 6 => (2, 2)
    | 7 => (2, 2)
    | 8 => (3, 3)
    | 9 => (3, 3)
    | 10 => (3, 3)
    | _ => (0, 0)
  letRead := fun l => if l = ⟨1, 5⟩ then some 3 else none
  value := .other 1 [.block (.mk 2 [.expr 3 (.other 4 []), .lt 5 6 (some (.other 7 [])) none,
    .expr 8 (.other 9 [.expr (.other 10 [])])] none)]
  places := [(⟨1, []⟩, false, true), (⟨1, [.deref]⟩, false, false), (⟨1, [.deref, .index 0]⟩, false, false), (⟨2, []⟩, false, true), (⟨3, []⟩, false, true)]
  loans := [⟨0, 1, true, ⟨0, 2⟩, [5]⟩]
  args := [1, 2]
  err := (some 65)

/-- `tests/snapshots/stepper__find_nth@illegal_promotion_0.test.snap` -/
def sortRefRows : List (Nat × Place × DataDiff) := [
  (0, ⟨1, [.deref, .index 0]⟩, ⟨.high true, .none (some false), .none (some false), .none none, .none (some false), .none none, .none none, .none none, ⟨.high true, .none (some false), .none (some false)⟩⟩),
  (0, ⟨1, [.deref]⟩, ⟨.high true, .none (some false), .none (some false), .none none, .none (some false), .none none, .none none, .none none, ⟨.high true, .none (some false), .none (some false)⟩⟩),
  (0, ⟨1, []⟩, ⟨.high true, .high true, .none (some false), .none none, .none (some false), .none none, .none none, .none none, ⟨.high true, .none (some false), .high true⟩⟩),
  (0, ⟨2, []⟩, ⟨.high true, .high true, .none (some false), .none none, .none (some false), .none none, .none none, .none none, ⟨.high true, .none (some false), .high true⟩⟩)]

#guard sortRef.rows.any (sameRows sortRefRows)

end Verif.Pipeline.Recorded
