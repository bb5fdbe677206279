/-!
# When two places conflict

`places_conflict` of rustc (`rustc_borrowck::places_conflict`, bias `Overlap`), as called at
`crates/aquascope/src/analysis/permissions/output.rs:315-327` (does an assignment end a move?), `output.rs:389-405` (which
places does a loan restrict?) and `flow.rs:338-344`.  rustc is not in this sandbox: the rules are stated from memory.

Simplifications: opaque casts and coroutines are left out.
-/
namespace Verif.Overlap

/-- What a type is made of. -/
inductive Kind (T : Type) where
  | leaf
  /-- references, boxes and raw pointers; `shared` for `&T` -/
  | ref (shared : Bool) (t : T)
  | struct (f : Nat → T)
  | union (f : Nat → T)
  /-- the variants of an enum -/
  | enum (v : Nat → T)
  | array (n : Nat) (t : T)
  | slice (t : T)

/-- `ProjectionElem` (rustc). -/
inductive Proj where
  | deref
  | field (i : Nat)
  | downcast (v : Nat)
  | index (l : Nat)
  | constantIndex (offset minLength : Nat) (fromEnd : Bool)
  | subslice (lo hi : Nat) (fromEnd : Bool)
  deriving DecidableEq, Repr

/-- `Overlap` (rustc): the result of comparing one step of two places. -/
inductive Overlap where
  | arbitrary | equalOrDisjoint | disjoint
  deriving DecidableEq, Repr

/-- A range of the result, by a test. -/
def Overlap.when (b : Bool) : Overlap := if b then .equalOrDisjoint else .disjoint

/-- The part of `place_projection_conflict` (rustc) on elements of arrays and slices; `none` is `bug!`. -/
def compareElems : Proj → Proj → Option Overlap
  | .index _, .index _ => some .equalOrDisjoint
  | .index _, .constantIndex _ _ _ => some .equalOrDisjoint
  | .index _, .subslice _ _ _ => some .equalOrDisjoint
  | .constantIndex _ _ _, .index _ => some .equalOrDisjoint
  | .subslice _ _ _, .index _ => some .equalOrDisjoint
  | .constantIndex o _ false, .constantIndex o' _ false => some (.when (o == o'))
  | .constantIndex o _ true, .constantIndex o' _ true => some (.when (o == o'))
  | .constantIndex o m false, .constantIndex o' m' true => some (.when (decide (max m m' - o' ≤ o)))
  | .constantIndex o' m' true, .constantIndex o m false => some (.when (decide (max m m' - o' ≤ o)))
  | .constantIndex o _ false, .subslice lo hi false => some (.when (decide (lo ≤ o) && decide (o < hi)))
  | .subslice lo hi false, .constantIndex o _ false => some (.when (decide (lo ≤ o) && decide (o < hi)))
  | .constantIndex o _ false, .subslice lo _ true => some (.when (decide (lo ≤ o)))
  | .subslice lo _ true, .constantIndex o _ false => some (.when (decide (lo ≤ o)))
  | .constantIndex o _ true, .subslice _ hi true => some (.when (decide (hi < o)))
  | .subslice _ hi true, .constantIndex o _ true => some (.when (decide (hi < o)))
  | .subslice lo hi false, .subslice lo' hi' false => some (.when (!(decide (hi ≤ lo') || decide (hi' ≤ lo))))
  | .subslice _ _ _, .subslice _ _ _ => some .equalOrDisjoint
  | _, _ => none

variable {T : Type}

/-- `place_projection_conflict` (rustc), where `t` is the type of the base; `none` is `bug!`. -/
def compare (K : T → Kind T) (t : T) : Proj → Proj → Option Overlap
  | .deref, .deref => some .equalOrDisjoint
  | .field i, .field j =>
    if i = j then some .equalOrDisjoint
    else match K t with
      | .union _ => some .arbitrary
      | _ => some .disjoint
  | .downcast v, .downcast w =>
    if v = w then some .equalOrDisjoint
    else match K t with
      | .enum _ => some .disjoint
      | _ => some .equalOrDisjoint
  | a, b => compareElems a b

/-- `PlaceTy::projection_ty` (rustc).  Ill-typed projections, and parts of slices, which come last in a place, give the
type itself. -/
def next (K : T → Kind T) (t : T) (e : Proj) : T :=
  match e, K t with
  | .deref, .ref _ t' => t'
  | .field i, .struct f => f i
  | .field i, .union f => f i
  | .downcast v, .enum f => f v
  | .index _, .array _ t' => t'
  | .index _, .slice t' => t'
  | .constantIndex _ _ _, .array _ t' => t'
  | .constantIndex _ _ _, .slice t' => t'
  | _, _ => t

/-- The last loop of `place_components_conflict` (rustc) for a deep access: what is left of the borrowed place must not
lead through a shared reference, else `bug!("Tracking borrow behind shared reference.")`. -/
def remainder (K : T → Kind T) : T → List Proj → Option Bool
  | _, [] => some true
  | t, e :: es =>
    match e, K t with
    | .deref, .ref true _ => none
    | _, _ => remainder K (next K t e) es

/-- `place_components_conflict` (rustc) for a deep access and a mutable borrow, from a common base of type `t`: the
borrowed place and the accessed one. -/
def conflictFrom (K : T → Kind T) : T → List Proj → List Proj → Option Bool
  | _, [], _ => some true
  | t, b :: bs, [] => remainder K t (b :: bs)
  | t, b :: bs, a :: as =>
    match compare K t b a with
    | none => none
    | some .arbitrary => some true
    | some .disjoint => some false
    | some .equalOrDisjoint => conflictFrom K (next K t b) bs as

/-- `Place` (rustc). -/
structure Place where
  local_ : Nat
  projection : List Proj
  deriving DecidableEq, Repr

/-- The types of a function: what types are made of, and the type of each variable. -/
structure Decls (T : Type) where
  kind : T → Kind T
  ty : Nat → T

/-- `places_conflict` (rustc); the borrowed place comes first. -/
def placesConflict (D : Decls T) (b a : Place) : Option Bool :=
  if b.local_ = a.local_ then conflictFrom D.kind (D.ty b.local_) b.projection a.projection else some false

end Verif.Overlap
