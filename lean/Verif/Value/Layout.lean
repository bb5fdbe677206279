/-!
# Model of the address locator

Models `crates/aquascope/src/interpreter/miri_utils.rs:46-174`: reverse-engineering a field path from
an address inside an allocation, given the layout of its type.
-/
namespace Verif.Value

/-- `MPathSegment` (mvalue.rs:35-39). -/
inductive PSeg
  | field (i : Nat)
  | index (i : Nat)
  | subslice (lo hi : Nat)
  deriving DecidableEq, Repr

mutual
/-- Types with their layout, as far as the locator looks at it.  Sizes are in bytes.  `opaqueStruct`
is a struct named `String` or `Vec`; `other` is everything for which the locator has no case. -/
inductive Ty
  | prim (size : Nat)
  | ptr (size : Nat)
  | opaqueStruct (size : Nat)
  | struct (fields : Fields) (size : Nat)
  | tuple (fields : Fields) (size : Nat)
  | array (elem : Ty) (count : Nat)
  | enum (size : Nat)
  | union (size : Nat)
  | other (size : Nat)
/-- Fields in declaration order, each with the offset the compiler chose. -/
inductive Fields
  | nil
  | cons (offset : Nat) (ty : Ty) (rest : Fields)
end

/-- `layout.size.bytes()`. -/
def Ty.size : Ty → Nat
  | .prim n => n
  | .ptr n => n
  | .opaqueStruct n => n
  | .struct _ n => n
  | .tuple _ n => n
  | .array e c => e.size * c
  | .enum n => n
  | .union n => n
  | .other n => n

/-- Panics of the locator. -/
inductive LocPanic
  | mismatch | enumTodo | unimplemented | divZero | zeroSized | overflow
  deriving DecidableEq, Repr

mutual
/-- `AddressLocator::locate` (miri_utils.rs:57-127).  The segments pushed are returned. -/
def locate (target : Nat) : Ty → Nat → Except LocPanic (List PSeg)
  | ty, offset =>
    if offset = target then .ok []
    else match ty with
      | .opaqueStruct _ => .ok []
      | .struct fs _ => locateFields target fs 0 offset
      | .enum _ => .error .enumTodo
      | .union _ => .ok []
      | .array elem _ =>
        let stride := elem.size
        if stride = 0 then .error .divZero
        else
          let arrayOffset := (target - offset) / stride * stride
          match locate target elem (offset + arrayOffset) with
          | .ok segs => .ok (.index (arrayOffset / stride) :: segs)
          | .error e => .error e
      | .tuple fs _ => locateFields target fs 0 offset
      | .prim _ => .error .mismatch
      | .ptr _ => .error .mismatch
      | .other _ => .error .unimplemented
/-- The loop over the fields of a struct or tuple (miri_utils.rs:74-86, 106-117): it adds up field
sizes in declaration order and does not look at the offsets. -/
def locateFields (target : Nat) : Fields → Nat → Nat → Except LocPanic (List PSeg)
  | .nil, _, _ => .ok []
  | .cons _ ty rest, i, offset =>
    if offset + ty.size > target then
      match locate target ty offset with
      | .ok segs => .ok (.field i :: segs)
      | .error e => .error e
    else locateFields target rest (i + 1) (offset + ty.size)
end

/-- `locate_address_in_type` (miri_utils.rs:130-174).  `meta` is the length stored in a wide pointer.
`to` is computed with checked subtraction (`overflow` is a panic in a debug build). -/
def locateAddress (ty : Ty) (allocSize : Nat) (mdata : Option Nat) (target : Nat) :
    Except LocPanic (List PSeg) :=
  if ty.size < allocSize then
    if ty.size = 0 then .error .zeroSized
    else
      let offset := target / ty.size * ty.size
      let index := offset / ty.size
      match mdata with
      | some n =>
        if index + n / ty.size = 0 then .error .overflow
        else match locate target ty offset with
          | .ok segs => .ok (.subslice index (index + n / ty.size - 1) :: segs)
          | .error e => .error e
      | none =>
        match locate target ty offset with
        | .ok segs => .ok (.index index :: segs)
        | .error e => .error e
  else locate target ty 0

end Verif.Value
