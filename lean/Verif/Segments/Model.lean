import Verif.Cfg.Model
/-!
# Model of the segmented body and its builder

Models `crates/aquascope/src/analysis/stepper/segmented_mir.rs` and the recursive part of
`stepper/table_builder.rs:41-196`.

Simplifications.
* The graph, the dominance tests and the least post-dominator are a record of functions (`Mapper`); `Body.mapper`
  gives the one the code uses (`ir_mapper/mod.rs:104-137`).
* Spans are numbers.  The closure that chooses the span of a branch target and may move its location is a
  function `Loc → Loc × Nat`.
* The union-find table is its root function plus the rank of each key; path compression is not observable.
* The loop of `mk_branch` over the branch targets pushes one segment, one collection and one builder per target;
  the model appends them at once, so the identifiers are consecutive.
* The calls of a visitor stop being made once one fails, so a failing call has no resulting state.
* Logging, and the fields `joins` and `root` that nothing reads, are left out.
-/
namespace Verif.Segments

open Verif.Cfg Verif.Graph

/-! ## The graph -/

structure Mapper where
  /-- number of blocks -/
  n : Nat
  /-- `cleaned_graph.successors` -/
  succ : Nat → List Nat
  /-- number of statements of a block -/
  stmts : Nat → Nat
  /-- whether a block ends in `switchInt` -/
  isSwitch : Nat → Bool
  ldom : Loc → Loc → Bool
  lpdom : Loc → Loc → Bool
  /-- `least_post_dominator` -/
  lpd : Nat → Option Nat

/-- `ldominates` (ir_mapper/mod.rs:104-109). -/
def ldominates (b : Body) (dom node : Loc) : Bool :=
  if dom.block = node.block then decide (dom.idx ≤ node.idx)
  else dominates b.succ b.length dom.block node.block

/-- `lpost_dominates` (ir_mapper/mod.rs:111-116). -/
def lpostDominates (b : Body) (pdom node : Loc) : Bool :=
  if pdom.block = node.block then decide (pdom.idx ≥ node.idx)
  else isPostdominatedBy b.succ b.length b.returns node.block pdom.block

/-- `is_false_edge` (body_graph.rs): the block ends in a false edge. -/
def isFalseEdge (b : Body) (n : Nat) : Bool :=
  match b.term n with
  | .falseEdge _ _ => true
  | _ => false

/-- `least_post_dominator` (segmented_mir.rs:467-514); hash sets are iterated in the order of the search. -/
def leastPostDominator (b : Body) (root : Nat) : Option Nat :=
  let reachable := (dfs b.succ b.length root).filter (fun t => dominates b.succ b.length root t)
  match reachable.find? (fun c => reachable.all (fun x => isPostdominatedBy b.succ b.length b.returns x c)) with
  | none => none
  | some most =>
    let cands := reachable.filter (fun c => !decide (c = root) && !isFalseEdge b c &&
      dominates b.succ b.length c most)
    cands.find? (fun c => cands.all (fun x => dominates b.succ b.length c x))

/-- The mapper of a body. -/
def _root_.Verif.Cfg.Body.mapper (b : Body) : Mapper where
  n := b.length
  succ := b.succ
  stmts := fun k => match b[k]? with
    | some d => d.stmts
    | none => 0
  isSwitch := fun k => match b.term k with
    | .switchInt _ => true
    | _ => false
  ldom := ldominates b
  lpdom := lpostDominates b
  lpd := leastPostDominator b

/-- The result of the search for a switch; the code's loop has no bound. -/
inductive Search
  | found (block : Nat)
  | absent
  | diverges
  deriving DecidableEq, Repr

/-- `linear_blocks.find(has_switchint)` (segmented_mir.rs:529-541). -/
def linearSearch (m : Mapper) : Nat → Nat → Search
  | 0, _ => .diverges
  | fuel + 1, b =>
    if m.isSwitch b then .found b
    else match m.succ b with
      | [t] => linearSearch m fuel t
      | _ => .absent

/-- `find_next_switchint` (segmented_mir.rs:516-545): after as many steps as there are blocks the search
is in a cycle. -/
def findNextSwitch (m : Mapper) (current : Loc) : Search := linearSearch m (m.n + 1) current.block

/-! ## The state -/

/-- `SegmentData` (segmented_mir.rs:153-158). -/
structure Seg where
  «from» : Loc
  to : Loc
  span : Nat
  scope : Nat
  deriving DecidableEq, Repr

/-- `BranchData` (segmented_mir.rs:160-181). -/
structure Branch where
  tableId : Nat
  reachFrom : Loc
  reachTo : Loc
  splits : List Nat
  nested : List Nat
  deriving DecidableEq, Repr

/-- `CFKind` (segmented_mir.rs:183-187). -/
inductive CF
  | linear (sid : Nat)
  | branch (bid : Nat)
  deriving DecidableEq, Repr

/-- `Collection` with the bound of `LengthKind` (segmented_mir.rs:138-151,189-193). -/
structure Coll where
  data : List CF
  phi : Option Loc
  deriving DecidableEq, Repr

/-- `CollectionBuilder` (segmented_mir.rs:195-199). -/
structure Builder where
  coll : Nat
  cur : Loc
  deriving DecidableEq, Repr

/-- Root and rank of each key. -/
structure Uf where
  root : List Nat
  rank : List Nat
  deriving DecidableEq, Repr

/-- `find`. -/
def Uf.find (u : Uf) (k : Nat) : Nat := u.root.getD k k

/-- `new_key`. -/
def Uf.newKey (u : Uf) : Uf := ⟨u.root ++ [u.root.length], u.rank ++ [0]⟩

def Uf.redirect (u : Uf) (old new newRank : Nat) : Uf :=
  ⟨u.root.map (fun r => if r = old then new else r), u.rank.set new newRank⟩

/-- `union` (ena): the root of higher rank stays a root.  On equal ranks `secondWins` says which one does: in
ena it is the second. -/
def Uf.union (secondWins : Bool) (u : Uf) (a b : Nat) : Uf :=
  let ra := u.find a
  let rb := u.find b
  if ra = rb then u
  else
    let ka := u.rank.getD ra 0
    let kb := u.rank.getD rb 0
    if ka > kb then u.redirect rb ra ka
    else if ka < kb then u.redirect ra rb kb
    else if secondWins then u.redirect ra rb (ka + 1)
    else u.redirect rb ra (ka + 1)

abbrev Spanner := Loc → Loc × Nat

/-- `SegmentedMirBuilder` (segmented_mir.rs:218-230).  `openScopes` is the stack, innermost last. -/
structure St where
  colls : List Coll
  branches : List Branch
  segs : List Seg
  processing : List Builder
  spanners : List (Nat × Spanner)
  uf : Uf
  scopeGraph : List (Nat × Nat)
  openScopes : List Nat
  nextScope : Nat

inductive Err
  | fail
  | panic
  | diverge
  deriving DecidableEq, Repr

def startLoc : Loc := ⟨0, 0⟩

/-- `make` (segmented_mir.rs:359-397). -/
def St.make : St :=
  { colls := [⟨[], none⟩], branches := [], segs := [], processing := [⟨0, startLoc⟩], spanners := [],
    uf := ⟨[], []⟩, scopeGraph := [], openScopes := [0], nextScope := 1 }

/-! ## Scopes -/

/-- `current_scope` (segmented_mir.rs:440-442). -/
def St.currentScope (s : St) : Except Err Nat :=
  match s.openScopes.getLast? with
  | none => .error .panic
  | some x => .ok x

/-- `open_scope` with `next_scope` (segmented_mir.rs:422-428,444-448). -/
def St.openScope (s : St) : Except Err (Nat × St) :=
  match s.currentScope with
  | .error e => .error e
  | .ok cur =>
    .ok (s.nextScope, { s with
      scopeGraph := s.scopeGraph ++ [(s.nextScope, cur)]
      nextScope := s.nextScope + 1
      openScopes := s.openScopes ++ [s.nextScope] })

/-- `close_scope` (segmented_mir.rs:450-463). -/
def St.closeScope (s : St) (idx : Nat) : Except Err St :=
  if idx = 0 then .error .fail
  else match s.openScopes.getLast? with
    | none => .error .fail
    | some last =>
      if last = idx then .ok { s with openScopes := s.openScopes.dropLast } else .error .fail

/-! ## Branches -/

/-- The search on the stack of builders, innermost first (segmented_mir.rs:569-572,734-739). -/
def St.findBuilder (m : Mapper) (s : St) (location : Loc) : Option (Builder × Nat) :=
  s.processing.zipIdx.reverse.find? (fun x => m.ldom x.1.cur location)

def pushCF (colls : List Coll) (cid : Nat) (cf : CF) : List Coll :=
  colls.modify cid (fun c => { c with data := c.data ++ [cf] })

/-- The part of `mk_branch` that cannot fail (segmented_mir.rs:585-650). -/
def St.addBranch (m : Mapper) (s : St) (location sw : Loc) (phi : Option Loc) (i : Nat) (b : Builder)
    (get : Spanner) (scope : Nat) : St :=
  let targets := (m.succ sw.block).map (fun k => get ⟨k, 0⟩)
  let k := targets.length
  { s with
    uf := s.uf.newKey
    branches := s.branches ++ [⟨s.uf.root.length, sw, phi.getD sw, List.range' s.segs.length k,
      List.range' s.colls.length k⟩]
    segs := s.segs ++ targets.map (fun t => ⟨location, t.1, t.2, scope⟩)
    colls := pushCF s.colls b.coll (.branch s.branches.length) ++
      List.replicate k ⟨[], phi⟩
    processing := s.processing.set i { b with cur := phi.getD b.cur } ++
      (targets.zipIdx s.colls.length).map (fun t => ⟨t.2, t.1.1⟩) }

inductive GetSpanner
  | getFrom (bid : Nat)
  | insertNew (f : Spanner)

/-- `mk_branch` after the switch is found (segmented_mir.rs:560-651). -/
def St.mkBranchAt (m : Mapper) (s : St) (location sw : Loc) (get : GetSpanner) (scope : Nat) :
    Except Err (Nat × St) :=
  let phi : Option Loc := (m.lpd sw.block).map (fun bb => ⟨bb, 0⟩)
  match s.findBuilder m location with
  | none => .error .fail
  | some (b, i) =>
    if b.cur ≠ location then .error .fail
    else
      let bid := s.branches.length
      match get with
      | .insertNew f =>
        .ok (bid, { s.addBranch m location sw phi i b f scope with spanners := s.spanners ++ [(bid, f)] })
      | .getFrom p =>
        match s.spanners.find? (fun e => e.1 = p) with
        | none => .error .panic
        | some f => .ok (bid, s.addBranch m location sw phi i b f.2 scope)

/-- `mk_branch` (segmented_mir.rs:547-651). -/
def St.mkBranch (m : Mapper) (s : St) (location : Loc) (get : GetSpanner) : Except Err (Nat × St) :=
  match s.currentScope with
  | .error e => .error e
  | .ok scope =>
    match findNextSwitch m location with
    | .diverges => .error .diverge
    | .absent => s.mkBranchAt m location location get scope
    | .found blk => s.mkBranchAt m location ⟨blk, m.stmts blk⟩ get scope

/-- `open_branch` (segmented_mir.rs:657-669). -/
def St.openBranch (m : Mapper) (s : St) (location : Loc) (f : Spanner) : Except Err (Nat × St) :=
  s.mkBranch m location (.insertNew f)

/-- `open_child_branch` (segmented_mir.rs:671-683). -/
def St.openChild (secondWins : Bool) (m : Mapper) (s : St) (parent : Nat) (root : Loc) : Except Err St :=
  match s.mkBranch m root (.getFrom parent) with
  | .error e => .error e
  | .ok (child, s') =>
    match s'.branches[parent]?, s'.branches[child]? with
    | some p, some c => .ok { s' with uf := s'.uf.union secondWins p.tableId c.tableId }
    | _, _ => .error .panic

/-- The branches `close_branch` closes (segmented_mir.rs:690-699): those whose table root is the *own* key of
the given branch. -/
def St.toClose (s : St) (tableRoot : Nat) : List Branch :=
  s.branches.filter (fun b => decide (tableRoot = s.uf.find b.tableId))

/-- `close_branch` (segmented_mir.rs:689-717). -/
def St.closeBranch (s : St) (bid : Nat) : Except Err St :=
  match s.branches[bid]? with
  | none => .error .panic
  | some b =>
    let rest := (s.toClose b.tableId).foldl
      (fun p br => p.filter (fun ob => !decide (ob.coll ∈ br.nested))) s.processing
    .ok { s with processing := rest }

/-- `find_containing_branch` (segmented_mir.rs:719-724). -/
def St.containingBranch (s : St) (cid : Nat) : Option Nat :=
  s.branches.findIdx? (fun b => decide (cid ∈ b.nested))

/-! ## Insertion -/

/-- `FindResult` (segmented_mir.rs:204-209). -/
inductive Find
  | none
  | nonLinear (bid : Nat) (loc : Loc)
  | linear (b : Builder) (i : Nat)
  deriving DecidableEq, Repr

/-- `find_suitable_collection` (segmented_mir.rs:728-764). -/
def St.findSuitable (m : Mapper) (s : St) (location : Loc) : Find :=
  match s.findBuilder m location with
  | Option.none => .none
  | some (b, i) =>
    if m.lpdom location b.cur then .linear b i
    else match s.containingBranch b.coll with
      | Option.none => .none
      | some bid => .nonLinear bid b.cur

/-- `insert_to` (segmented_mir.rs:819-834). -/
def St.insertTo (s : St) (b : Builder) (i : Nat) (to : Loc) (span scope : Nat) : St :=
  { s with
    segs := s.segs ++ [⟨b.cur, to, span, scope⟩]
    colls := pushCF s.colls b.coll (.linear s.segs.length)
    processing := s.processing.set i { b with cur := to } }

/-- Where a linear insertion ends (segmented_mir.rs:836-854): cut short at the bound of the collection. -/
def St.insertEnd (m : Mapper) (s : St) (b : Builder) (location : Loc) : Loc :=
  match s.colls[b.coll]? with
  | some ⟨_, some phi⟩ => if m.ldom phi location then phi else location
  | _ => location

/-- `insert` (segmented_mir.rs:775-859).  The code's recursion has no bound; `fuel` counts the calls. -/
def St.insert (secondWins : Bool) (m : Mapper) : Nat → St → Loc → Nat → Except Err St
  | 0, _, _, _ => .error .diverge
  | fuel + 1, s, location, span =>
    match s.findSuitable m location with
    | .none => .ok s
    | .nonLinear parent branchLoc =>
      match s.openChild secondWins m parent branchLoc with
      | .error e => .error e
      | .ok s' => St.insert secondWins m fuel s' location span
    | .linear b i =>
      match s.currentScope with
      | .error e => .error e
      | .ok scope => .ok (s.insertTo b i (s.insertEnd m b location) span scope)

/-! ## The finished body -/

/-- `SegmentedMir` (segmented_mir.rs:232-238). -/
structure Frozen where
  colls : List Coll
  branches : List Branch
  segs : List Seg
  scopes : List (Nat × Nat)
  deriving DecidableEq, Repr

/-- `freeze` with `finish_first_collection` (segmented_mir.rs:399-420). -/
def St.freeze (s : St) : Except Err Frozen :=
  if s.processing.length = 1 then .ok ⟨s.colls, s.branches, s.segs, s.scopeGraph⟩ else .error .fail

/-- `reachable_from` of the transitive relation (rustc): everything reachable by at least one edge. -/
def parentScopes (edges : List (Nat × Nat)) (scope : Nat) : List Nat :=
  let succ := fun a => (edges.filter (fun e => e.1 = a)).map (·.2)
  let n := (edges.map (fun e => max e.1 e.2 + 1)).foldl max (scope + 1)
  ((succ scope).flatMap (fun b => dfs succ n b)).eraseDups

/-- `get_branch_scope` (segmented_mir.rs:321-326); `none`: one of the index panics. -/
def Frozen.branchScope (f : Frozen) (bid : Nat) : Option Nat :=
  match f.branches[bid]? with
  | none => none
  | some b => match b.splits with
    | [] => none
    | sid :: _ => (f.segs[sid]?).map (·.scope)

/-! ## Collecting the tables -/

/-- A table: the one at the opening brace (table_builder.rs:57-64), that of a segment, or that of the variables
assigned from a branch (table_builder.rs:189-194). -/
inductive Tab
  | entry
  | seg (sid : Nat)
  | attached (bid : Nat)
  deriving DecidableEq, Repr

/-- `Tables` (table_builder.rs:30). -/
abbrev Tables := List (Loc × List Tab)

/-- `result.entry(to).or_default().push(table)`. -/
def pushTab (m : Tables) (to : Loc) (t : Tab) : Tables :=
  match m with
  | [] => [(to, [t])]
  | (k, v) :: r => if k = to then (k, v ++ [t]) :: r else (k, v) :: pushTab r to t

/-- `HashMap::insert`. -/
def setTab (m : Tables) (k : Loc) (v : List Tab) : Tables :=
  match m with
  | [] => [(k, v)]
  | (k', v') :: r => if k' = k then (k, v) :: r else (k', v') :: setTab r k v

/-- `result.extend(temp_middle)` (table_builder.rs:187): a key that is present is overwritten. -/
def extendTab (m temp : Tables) : Tables := temp.foldl (fun m e => setTab m e.1 e.2) m

/-- `insert_segment` (table_builder.rs:94-134), without the contents of the table; `none`: index panic. -/
def insertSegment (f : Frozen) (result : Tables) (sid : Nat) : Option Tables :=
  match f.segs[sid]? with
  | none => none
  | some s => if s.from = s.to then some result else some (pushTab result s.to (.seg sid))

def insertSegments (f : Frozen) : Tables → List Nat → Option Tables
  | result, [] => some result
  | result, sid :: r => match insertSegment f result sid with
    | none => none
    | some result' => insertSegments f result' r

/-- `insert_branch` (table_builder.rs:144-196) and `insert_collection` (table_builder.rs:83-92), to a nesting
depth of `fuel`. -/
def insertCollection (f : Frozen) : Nat → Tables → Nat → Option Tables
  | 0, _, _ => none
  | fuel + 1, result, cid =>
    let insertBranch (result : Tables) (bid : Nat) : Option Tables :=
      match f.branches[bid]? with
      | none => none
      | some b =>
        match insertSegments f [] b.splits with
        | none => none
        | some temp =>
          match b.nested.foldlM (insertCollection f fuel) temp with
          | none => none
          | some temp =>
            match f.branchScope bid with
            | none => none
            | some _ => some (pushTab (extendTab result temp) b.reachTo (.attached bid))
    match f.colls[cid]? with
    | none => none
    | some c => c.data.foldlM (fun result part => match part with
      | .linear sid => insertSegment f result sid
      | .branch bid => insertBranch result bid) result

end Verif.Segments
