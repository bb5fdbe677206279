/-!
# Model of permissions

Models `crates/aquascope/src/analysis/permissions/mod.rs:66-151,176-205`,
`permissions/utils.rs:34-77`, the declared maximum of `permissions/context.rs:205-306` with the
`never_write` rule of `permissions/output.rs:361-386`, and the path table
`context.rs:66-107`.
-/
namespace Verif.Permissions

/-- `Permissions` (mod.rs:66-72). -/
structure Perms where
  read : Bool
  write : Bool
  drop : Bool
  deriving DecidableEq, Repr

/-- `Permissions::bottom` (mod.rs:178-186) and `none` (utils.rs:35-41). -/
def Perms.bottom : Perms := ⟨false, false, false⟩

/-- `Permissions::all` (utils.rs:43-49). -/
def Perms.all : Perms := ⟨true, true, true⟩

/-- `PermissionsData` (mod.rs:82-116).  Loan and move keys are numbers. -/
structure Data where
  typeDroppable : Bool
  typeWriteable : Bool
  typeCopyable : Bool
  isLive : Bool
  pathUninitialized : Bool
  pathMoved : Option Nat
  loanReadRefined : Option Nat
  loanWriteRefined : Option Nat
  loanDropRefined : Option Nat
  deriving DecidableEq, Repr

/-- `permissions_ignore_liveness` (mod.rs:144-151). -/
def Data.permissionsIgnoreLiveness (d : Data) : Perms :=
  let memUninit := d.pathMoved.isSome || d.pathUninitialized
  let read := !memUninit && d.loanReadRefined.isNone
  let write := d.typeWriteable && read && d.loanWriteRefined.isNone
  let drop := d.typeDroppable && read && d.loanDropRefined.isNone
  { read, write, drop }

/-- `permissions` (mod.rs:122-128). -/
def Data.permissions (d : Data) : Perms :=
  if d.isLive then d.permissionsIgnoreLiveness else Perms.bottom

/-- `Debug for Permissions` (mod.rs:188-205). -/
def Perms.text (p : Perms) : List Char :=
  if !p.read && !p.write && !p.drop then ['∅']
  else (if p.read then ['R'] else []) ++ (if p.write then ['W'] else []) ++ (if p.drop then ['D'] else [])

/-! ## Join -/

/-- `JoinSemiLattice for Permissions` (utils.rs:51-59): the new value and whether it changed. -/
def Perms.join (p q : Perms) : Perms × Bool :=
  let r : Perms := ⟨p.read && q.read, p.write && q.write, p.drop && q.drop⟩
  (r, decide (p ≠ r))

/-- `PermissionsDomain` (mod.rs:172): a hash map from places, as a finite map; the iteration order is
a list without repeated keys. -/
abbrev Domain (P : Type) := List (P × Data)

def Domain.get [DecidableEq P] (d : Domain P) (p : P) : Option Data :=
  (d.find? (fun e => decide (e.1 = p))).map Prod.snd

/-- `JoinSemiLattice for PermissionsDomain` (utils.rs:61-77).  In the occupied case `permissions()`
returns a fresh copy, which is joined and dropped: the entry itself is untouched. -/
def Domain.join [DecidableEq P] (self : Domain P) : Domain P → Domain P × Bool
  | [] => (self, false)
  | (place, perms) :: rest =>
    match self.get place with
    | some mine =>
      let changed := (mine.permissions.join perms.permissions).2
      let r := Domain.join self rest
      (r.1, changed || r.2)
    | none =>
      let r := Domain.join (self ++ [(place, perms)]) rest
      (r.1, true)

/-! ## Places and declared maxima -/

/-- Types as far as permissions look at them.  `array` stands for arrays and slices. -/
inductive Ty
  | ref (isMut : Bool) (t : Ty)
  | ptr (isMut : Bool) (t : Ty)
  | box (t : Ty)
  | adt (id : Nat) (hasDtor : Bool)
  | array (t : Ty)
  | other (id : Nat)
  deriving DecidableEq, Repr

/-- `ProjectionElem`; as in MIR a field carries its type. -/
inductive Elem
  | deref
  | field (idx : Nat) (ty : Ty)
  | index (l : Nat)
  | constantIndex (off : Nat)
  | subslice (lo hi : Nat)
  | downcast (v : Nat)
  deriving DecidableEq, Repr

structure Place where
  local_ : Nat
  projection : List Elem
  deriving DecidableEq, Repr

/-- `PlaceTy::projection_ty` (rustc).  Ill-typed projections (a compiler bug in rustc) give the type
itself. -/
def projTy : Ty → Elem → Ty
  | .ref _ t, .deref => t
  | .ptr _ t, .deref => t
  | .box t, .deref => t
  | t, .deref => t
  | _, .field _ ty => ty
  | .array t, .index _ => t
  | .array t, .constantIndex _ => t
  | t, _ => t

/-- `Place::ty_from`. -/
def tyFrom (t : Ty) (es : List Elem) : Ty := es.foldl projTy t

/-- The body's declarations: type and mutability of each variable. -/
structure Decls where
  ty : Nat → Ty
  isMut : Nat → Bool

/-- `Place::is_indirect` (rustc): some element is a dereference. -/
def isIndirect (es : List Elem) : Bool := es.any (fun e => decide (e = .deref))

/-- `is_declared_readonly` (context.rs:205-209). -/
def declaredReadonly (d : Decls) (l : Nat) : Bool := !d.isMut l

/-- `iter_projections` (rustc): each element with the prefix before it. -/
def iterProjections (es : List Elem) : List (List Elem × Elem) :=
  es.zipIdx.map (fun x => (es.take x.2, x.1))

/-- The closure over dereferenced prefixes in `is_never_write` (output.rs:361-384). -/
def derefBlocksWrite (d : Decls) (l : Nat) (pre : List Elem) : Bool :=
  match tyFrom (d.ty l) pre with
  | .ref isMut _ => !isMut
  | _ => declaredReadonly d l

/-- `is_never_write` (output.rs:361-386). -/
def neverWrite (d : Decls) (p : Place) : Bool :=
  (!isIndirect p.projection && declaredReadonly d p.local_) ||
    ((iterProjections p.projection).filterMap
      (fun x => if x.2 = .deref then some x.1 else none)).any (derefBlocksWrite d p.local_)

/-- `is_path_write_enabled` (context.rs:229-231), given that `never_write` holds exactly the registered
paths for which the rule holds (output.rs:443-448). -/
def writeEnabled (d : Decls) (p : Place) : Bool := !neverWrite d p

def isArrayElem : Elem → Bool
  | .index _ => true
  | .constantIndex _ => true
  | .subslice _ _ => true
  | _ => false

/-- `has_adt_prefix_with_dtor` (context.rs:263-273). -/
def adtPrefixWithDtor (d : Decls) (p : Place) : Bool :=
  p.projection.zipIdx.any (fun x =>
    match tyFrom (d.ty p.local_) (p.projection.take x.2) with
    | .adt _ dtor => dtor
    | _ => false)

/-- `is_path_drop_enabled` (context.rs:246-276). -/
def dropEnabled (d : Decls) (p : Place) : Bool :=
  !isIndirect p.projection && !(iterProjections p.projection).any (fun x => isArrayElem x.2) &&
    !adtPrefixWithDtor d p

/-- `max_permissions` (context.rs:281-290). -/
def maxPermissions (d : Decls) (p : Place) : Perms :=
  { write := writeEnabled d p, read := true, drop := dropEnabled d p }

/-- `permissions_for_const_ty` (context.rs:292-304). -/
def constData (copyable : Bool) : Data :=
  { isLive := true, typeDroppable := true, typeWriteable := true, typeCopyable := copyable,
    pathMoved := none, pathUninitialized := false, loanReadRefined := none,
    loanWriteRefined := none, loanDropRefined := none }

/-- `domain_bottom` (context.rs:404-423): the entry of each place. -/
def bottomData : Data :=
  { isLive := false, typeDroppable := false, typeWriteable := false, typeCopyable := false,
    pathMoved := none, pathUninitialized := false, loanReadRefined := none,
    loanWriteRefined := none, loanDropRefined := none }

/-! ## The path table -/

/-- `place_data` and `rev_lookup` (context.rs:60-61). -/
structure Table (P : Type) where
  places : List P
  rev : Nat → List Nat

def Table.empty : Table P := ⟨[], fun _ => []⟩

/-- What the table needs to know about places: the variable, and normalisation (rustc_utils). -/
structure PlaceOps (P : Type) where
  normalize : P → P
  localOf : P → Nat

/-- `new_path` (context.rs:66-72). -/
def Table.newPath (ops : PlaceOps P) (t : Table P) (place : P) : Nat × Table P :=
  let place := ops.normalize place
  let newPath := t.places.length
  let l := ops.localOf place
  (newPath, { places := t.places ++ [place],
              rev := fun k => if k = l then t.rev k ++ [newPath] else t.rev k })

/-- Registration of a list of places (output.rs:185-188). -/
def Table.register (ops : PlaceOps P) (t : Table P) : List P → List Nat × Table P
  | [] => ([], t)
  | p :: ps =>
    let r := t.newPath ops p
    let rs := r.2.register ops ps
    (r.1 :: rs.1, rs.2)

/-- `path_to_place` (context.rs:101-103); `none`: index out of bounds panic. -/
def Table.pathToPlace (t : Table P) (p : Nat) : Option P := t.places[p]?

/-- `place_to_path` (context.rs:85-103); `none`: the panics. -/
def Table.placeToPath [DecidableEq P] (ops : PlaceOps P) (t : Table P) (p : P) : Option Nat :=
  let p := ops.normalize p
  (t.rev (ops.localOf p)).find? (fun path => decide (t.pathToPlace path = some p))

/-! ## Locations and points -/

/-- rustc's `LocationTable`, which `location_to_point`, `location_to_points` and `point_to_location`
(context.rs:109-124) delegate to: every statement and terminator has two consecutive points, blocks in
order.  `stmts` gives the number of statements of each block. -/
def pointsBefore (stmts : List Nat) (b : Nat) : Nat := ((stmts.take b).map (fun n => (n + 1) * 2)).sum

def startIndex (stmts : List Nat) (l : Nat × Nat) : Nat := pointsBefore stmts l.1 + l.2 * 2
def midIndex (stmts : List Nat) (l : Nat × Nat) : Nat := pointsBefore stmts l.1 + l.2 * 2 + 1

/-- `to_location`: the last block starting at or before the point. -/
def pointToLocation (stmts : List Nat) (point : Nat) : Option (Nat × Nat) :=
  ((List.range stmts.length).reverse.find? (fun b => decide (pointsBefore stmts b ≤ point))).map
    (fun b => (b, (point - pointsBefore stmts b) / 2))

end Verif.Permissions
