import Verif.Segments.Cuts
import Verif.Segments.Filing
/-!
# Model of the check of segmented bodies in the repository's tests

Models `SegmentedMirTestExt` (`crates/aquascope/src/analysis/stepper/segmented_mir.rs:862-1082`), which the tests of
`hir_steps.rs:780-819` run on the steps of a function.

Simplifications.
* `post_order_from_to` of rustc is stated from memory: everything that can be reached from the first block without
  entering the last one, and nothing if they are equal.  Its order does not matter, since the locations go into a set.
* Nesting is followed as deep as there are collections; the code's recursion has no bound.
* `joins` is always empty (segmented_mir.rs:250), so the loop over it is left out.
-/
namespace Verif.Segments

open Verif.Graph Verif.Cfg

/-- `InvalidReason` (segmented_mir.rs:875-897) with the step in question, and a failed lookup. -/
inductive Bad
  | splitNoDom (sid : Nat)
  | linearNoDom (sid : Nat)
  | linearNoPostDom (sid : Nat)
  | missing (ls : List Loc)
  | panic
  deriving DecidableEq, Repr

/-- `explode_block` (segmented_mir.rs:899-912); both ends are included. -/
def explodeBlock (b : Body) (bb : Nat) (start : Option Nat) (stop : Option Nat) : List Loc :=
  let s := start.getD 0
  let e := stop.getD (b.mapper.stmts bb)
  (List.range' s (e + 1 - s)).map (fun i => ⟨bb, i⟩)

/-- `post_order_from_to(graph, sb, Some(eb))`. -/
def blocksFromTo (b : Body) (sb eb : Nat) : List Nat :=
  if sb = eb then [] else dfs (avoid b.succ eb) b.length sb

/-- `MirSegment::explode` (segmented_mir.rs:914-935). -/
def Seg.explode (b : Body) (g : Seg) : List Loc :=
  (blocksFromTo b g.from.block g.to.block ++ [g.to.block]).flatMap fun bb =>
    explodeBlock b bb (if bb = g.from.block then some g.from.idx else none)
      (if bb = g.to.block then some g.to.idx else none)

/-- `is_valid_split_segment` (segmented_mir.rs:955-975). -/
def checkSplit (b : Body) (f : Frozen) (seen : List Loc) (sid : Nat) : Except Bad (List Loc) :=
  match f.segs[sid]? with
  | none => .error .panic
  | some g =>
    if !b.mapper.ldom g.from g.to then .error (.splitNoDom sid)
    else .ok (seen ++ g.explode b)

/-- `is_valid_segment` (segmented_mir.rs:999-1025). -/
def checkLinear (b : Body) (f : Frozen) (seen : List Loc) (sid : Nat) : Except Bad (List Loc) :=
  match f.segs[sid]? with
  | none => .error .panic
  | some g =>
    if !b.mapper.ldom g.from g.to then .error (.linearNoDom sid)
    else if !b.mapper.lpdom g.to g.from then .error (.linearNoPostDom sid)
    else .ok (seen ++ g.explode b)

/-- `is_valid_collection` (segmented_mir.rs:938-953) and `is_valid_branch` (segmented_mir.rs:1027-1048). -/
def checkCollection (b : Body) (f : Frozen) : Nat → List Loc → Nat → Except Bad (List Loc)
  | 0, _, _ => .error .panic
  | fuel + 1, seen, cid =>
    let checkBranch (seen : List Loc) (bid : Nat) : Except Bad (List Loc) :=
      match f.branches[bid]? with
      | none => .error .panic
      | some br =>
        match br.splits.foldlM (checkSplit b f) seen with
        | .error e => .error e
        | .ok seen => br.nested.foldlM (checkCollection b f fuel) seen
    match f.colls[cid]? with
    | none => .error .panic
    | some c => c.data.foldlM (fun seen part => match part with
      | .linear sid => checkLinear b f seen sid
      | .branch bid => checkBranch seen bid) seen

/-- `all_locations` (segmented_mir.rs:1064-1070) with `blocks` (body_graph.rs:60-69): what can be reached in the body,
without clean-up and unreachable blocks. -/
def allLocations (b : Body) : List Loc :=
  ((dfs b.rawSucc b.length 0).filter b.keep).flatMap fun bb => explodeBlock b bb none none

/-- `validate` (segmented_mir.rs:1060-1081). -/
def validate (b : Body) (f : Frozen) : Except Bad Unit :=
  match checkCollection b f f.colls.length [] 0 with
  | .error e => .error e
  | .ok seen =>
    let missing := (allLocations b).filter (fun l => !decide (l ∈ seen))
    if missing.isEmpty then .ok () else .error (.missing missing)

end Verif.Segments
