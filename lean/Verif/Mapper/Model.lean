import Verif.Cfg.Model
import Verif.Group.Model
/-!
# Model of the mapping from machine locations to statements

Models `Mapper` and `FindSteppableNodes` of `crates/aquascope/src/interpreter/mapper.rs:19-130`, the visitor that
collects the locations of HIR nodes (`analysis/ir_mapper/mod.rs:300-334`) and the two stages of `interpret`
(`interpreter/mod.rs:26-71`).

Simplifications.
* HIR nodes are numbers; a parent has a smaller number than its children. Spans are pairs of byte positions, without
  hygiene information.
* `hirOf` stands for `location_to_hir_id` of `rustc_utils`.
* The iteration order of the set of nodes is a parameter (`order`).
* A body that cannot be loaded and an instance that is not local (`expect_local`) are not modelled.
* The mapping is a function of the instance; the memo table is modelled separately (`Memo`).
-/
namespace Verif.Mapper
open Verif.Cfg

/-- A span: first byte and the byte after the last. -/
structure Span where
  lo : Nat
  hi : Nat
  deriving DecidableEq, Repr

/-- The HIR as far as parents are concerned. -/
structure Hir where
  parent : Nat → Option Nat
  lt : ∀ i p, parent i = some p → p < i

/-- The first `n` ancestors. -/
def Hir.ancestors (h : Hir) : Nat → Nat → List Nat
  | 0, _ => []
  | n + 1, i => match h.parent i with
    | none => []
    | some p => p :: h.ancestors n p

/-- `hir.parent_id_iter(id)`: all proper ancestors, the nearest first. -/
def Hir.parents (h : Hir) (i : Nat) : List Nat := h.ancestors i i

/-- The value of a body: a block with its statements and its final expression, or another expression. -/
inductive Value where
  | block (id : Nat) (stmts : List Nat) (tail : Option Nat)
  | other (id : Nat)
  deriving DecidableEq, Repr

/-- `FindSteppableNodes` (mapper.rs:19-39): the statements and the final expression of the outermost block; the visitor
does not enter them. -/
def steppable : Value → List Nat
  | .block _ stmts tail => stmts ++ tail.toList
  | .other _ => []

/-- A function: its MIR, its nodes and spans. `span` is the span of a location (`source_info(location).span`),
`whole` the span with the body (`span_with_body`). -/
structure Fn where
  owner : Nat
  body : Body
  hir : Hir
  value : Value
  hirOf : Loc → Nat
  span : Loc → Span
  whole : Span

/-- `visit_basic_block_data`, `visit_statement` and `visit_terminator` (ir_mapper/mod.rs:300-334): the locations visited,
in order. With `all = false` (`IgnoreCleanup`) cleanup blocks are left out. -/
def visited (b : Body) (all : Bool) : List Loc :=
  b.zipIdx.flatMap fun d =>
    if !all && d.1.cleanup then [] else (List.range (d.1.stmts + 1)).map fun i => ⟨d.2, i⟩

/-- `self.hir_to_mir.entry(hir_id).or_default().insert(location)`; every location is visited once. -/
def insertLoc (m : List (Nat × List Loc)) (id : Nat) (l : Loc) : List (Nat × List Loc) :=
  match m with
  | [] => [(id, [l])]
  | (k, v) :: r => if k = id then (k, v ++ [l]) :: r else (k, v) :: insertLoc r id l

/-- `hir_to_mir` after `visit_body`. -/
def hirToMir (b : Body) (hirOf : Loc → Nat) (all : Bool) : List (Nat × List Loc) :=
  (visited b all).foldl (fun m l => insertLoc m (hirOf l) l) []

/-- The pairs collected for one node in `build_body_mapping` (mapper.rs:72-86). -/
def nodePairs (f : Fn) (id : Nat) : List (Loc × Nat) :=
  match f.body.mirLocations (gather (hirToMir f.body f.hirOf true) f.hir.parents id true) with
  | none => []
  | some o => o.values.map fun l => (l, id)

/-- `build_body_mapping` (mapper.rs:61-92), with the set of nodes in the order `order`: all pairs, the later ones
overwrite the earlier ones. -/
def bodyMapping (f : Fn) (order : List Nat) (l : Loc) : Option Nat :=
  ((order.flatMap (nodePairs f)).reverse.find? (fun p => p.1 == l)).map (·.2)

/-- The closing brace: `body_span.with_lo(body_span.hi() - BytePos(1))` (mapper.rs:101). -/
def endBrace (f : Fn) : Span := ⟨f.whole.hi - 1, f.whole.hi⟩

/-- `is_cleanup` (mapper.rs:94-105). -/
def isCleanup (f : Fn) (l : Loc) : Option Span := if f.span l = endBrace f then some (endBrace f) else none

/-- A place in a function after the first stage (`HirLoc`): a node or a span. -/
abbrev HirLoc := Nat × (Nat ⊕ Span)

/-- `abstract_loc` (mapper.rs:107-129) for a location of the function `f`, or a span. -/
def abstractLoc (f : Fn) (order : List Nat) : Loc ⊕ Span → Option HirLoc
  | .inr s => some (f.owner, .inr s)
  | .inl l =>
    match isCleanup f l with
    | some s => some (f.owner, .inr s)
    | none =>
      match bodyMapping f order l with
      | none => none
      | some id => some (f.owner, .inl id)

/-! ## The memo table -/

/-- `mapping: RefCell<HashMap<Instance, MapperEntry>>`: the mappings built so far, by instance. An entry is an owner and
a mapping. -/
abbrev Memo := List (Nat × Nat × (Loc → Option Nat))

/-- `abstract_loc` with the memo table (mapper.rs:107-129). `fns` gives the function of an instance and `order` the
iteration order of its nodes if the mapping is built now. -/
def abstractMemo (fns : Nat → Fn) (order : Nat → List Nat) (m : Memo) (inst : Nat) (x : Loc ⊕ Span) :
    Memo × Option HirLoc :=
  let m' := match m.find? (fun e => e.1 == inst) with
    | some _ => m
    | none => (inst, (fns inst).owner, bodyMapping (fns inst) (order inst)) :: m
  let r := match m'.find? (fun e => e.1 == inst) with
    | none => none
    | some (_, owner, mapping) =>
      match x with
      | .inr s => some (owner, .inr s)
      | .inl l =>
        match isCleanup (fns inst) l with
        | some s => some (owner, .inr s)
        | none =>
          match mapping l with
          | none => none
          | some id => some (owner, .inl id)
  (m', r)

/-! ## The two stages -/

/-- What the second stage needs: the span of a node, the span with the body of an owner, and `as_local` of
`rustc_utils`, which finds the part of a span that is written inside another one. -/
structure Spans where
  node : Nat → Span
  whole : Nat → Span
  asLocal : Span → Span → Option Span

/-- The closure of the second stage (interpreter/mod.rs:59-68). Turning a span into a character range is left out. -/
def toSpan (S : Spans) : HirLoc → Option Span
  | (owner, .inl node) => S.asLocal (S.node node) (S.whole owner)
  | (owner, .inr s) => S.asLocal s (S.whole owner)

/-- A machine location (`MirLoc`): instance, and location or span. -/
abbrev MirLoc := Nat × (Loc ⊕ Span)

/-- `interpret` after the evaluation (interpreter/mod.rs:44-71): two groupings, first by node and then by span. -/
def interpretTrace {P H R : Type} (fns : Nat → Fn) (order : Nat → List Nat) (S : Spans)
    (t : Group.Trace MirLoc P H R) : Option (Group.Trace Span P H R) :=
  match Group.groupSteps t (fun l => abstractLoc (fns l.1) (order l.1) l.2) with
  | none => none
  | some t' => Group.groupSteps t' (toSpan S)

end Verif.Mapper
