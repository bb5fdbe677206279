import Verif.Segments.Tables
import Verif.Steps.Model

/-!
# From the segments of a body to the tables of its lines

Models `finalize_body`, `locals_to_filter`, `insert_segment` and `insert_branch` of
`crates/aquascope/src/analysis/stepper/table_builder.rs:41-196` with the contents of the tables, on top of
`Verif.Segments` (which tables there are) and `Verif.Steps` (what becomes of them), and
`permissions_domain_at_point`, `domain_bottom` of `permissions/context.rs:397-440`.

Simplifications.
* The hash map of tables is an association list; its iteration order is a parameter.
* A step's span is a number; where it ends in the source is a parameter, as are the spans of locations.
-/
namespace Verif.Pipeline

open Verif.Cfg Verif.Segments Verif.Steps Verif.Permissions

/-- What is known about a body: the places (`domain_places`, context.rs:397-402), the state of a place at a
location (`permissions_data_at_point`), where spans of steps end, the span of a location
(`location_to_span`), the first location and the position of the opening brace. -/
structure Ctxt where
  places : List Place
  data : Loc → Place → Data
  endOf : Nat → Nat
  locSpan : Loc → Nat × Nat
  start : Loc
  brace : Nat

/-- `permissions_domain_at_point` (context.rs:425-440). -/
def Ctxt.domain (c : Ctxt) (l : Loc) : Domain Place := c.places.map fun p => (p, c.data l p)

/-- `locals_at_scope.get` after the `insert`s in order (hir_steps.rs:531): the last one counts. -/
def localsAt (locals : List (Nat × List Nat)) (scope : Nat) : List Nat :=
  match locals.reverse.find? (fun e => e.1 = scope) with
  | none => []
  | some e => e.2

/-- `locals_to_filter` (table_builder.rs:73-81). -/
def localsToFilter (f : Frozen) (locals : List (Nat × List Nat)) (scope : Nat) : List Nat :=
  (parentScopes f.scopes scope).flatMap (localsAt locals)

/-- `insert_segment` (table_builder.rs:94-134): the table of a segment. -/
def segTable (c : Ctxt) (f : Frozen) (locals : List (Nat × List Nat)) (sid : Nat) (s : Seg) : Option Table :=
  match diffDomain (c.domain s.from) (c.domain s.to) with
  | none => none
  | some diff =>
    let toFilter := localsToFilter f locals s.scope
    some { hi := c.endOf s.span, segment := sid, data := diff.filter (fun e => !toFilter.contains e.1.local_) }

/-- The end of `MirSegment::span` (stepper/mod.rs:318-323): `with_hi` exchanges the ends of a span that would
end before it starts. -/
def Ctxt.reachEnd (c : Ctxt) (a b : Loc) : Nat := max (c.locSpan a).1 (c.locSpan b).2

/-- The table of a branch (table_builder.rs:152,170-194). -/
def attachedTable (c : Ctxt) (f : Frozen) (locals : List (Nat × List Nat)) (bid : Nat) (b : Branch) :
    Option Table :=
  match f.branchScope bid with
  | none => none
  | some scope =>
    match diffDomain (c.domain b.reachFrom) (c.domain b.reachTo) with
    | none => none
    | some diff =>
      let attached := localsAt locals scope
      some { hi := c.reachEnd b.reachFrom b.reachTo, segment := f.segs.length + bid,
             data := diff.filter (fun e => attached.contains e.1.local_) }

/-- The table at the opening brace (table_builder.rs:47-64). -/
def entryTable (c : Ctxt) (f : Frozen) : Option Table :=
  match entryStep c.places (c.domain c.start) with
  | none => none
  | some diff => some { hi := c.brace, segment := f.segs.length + f.branches.length, data := diff }

def tableOf (c : Ctxt) (f : Frozen) (locals : List (Nat × List Nat)) : Tab → Option Table
  | .entry => entryTable c f
  | .seg sid =>
    match f.segs[sid]? with
    | none => none
    | some s => segTable c f locals sid s
  | .attached bid =>
    match f.branches[bid]? with
    | none => none
    | some b => attachedTable c f locals bid b

/-- `diffs` in `finalize_body` (table_builder.rs:54-66). -/
def filedTables (c : Ctxt) (f : Frozen) : Option Tables :=
  insertCollection f f.colls.length [(c.start, [.entry])] 0

/-- `finalize_body` (table_builder.rs:41-71); `order` is the order in which the hash map is iterated
(table_builder.rs:231-241). -/
def finalizeBody (c : Ctxt) (f : Frozen) (locals : List (Nat × List Nat)) (order : Tables → Tables)
    (src : List Char) (err : Option Nat) (visible : Place → Bool) (mode : Mode) : Option (List Display) :=
  match filedTables c f with
  | none => none
  | some m =>
    match ((order m).flatMap (·.2)).mapM (tableOf c f locals) with
    | none => none
    | some tables => some (prettify src err visible mode tables)

end Verif.Pipeline
