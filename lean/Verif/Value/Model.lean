import Verif.Value.Layout
/-!
# Model of reading memory as values

Models `crates/aquascope/src/interpreter/mvalue.rs` and the memory map of `step.rs:97-106, 201-205`.

* An operand is given by what Miri reports about it: `Op` is the tree of the operand's type with the
  contents of its bytes.  `Op.fault` is an operand whose bytes Miri refuses to read.
* The memory of the interpreted program is a parameter `Mem`.
* The reader state is threaded through `EStateM`; an error keeps the state reached so far, as in the
  code, where the memory map is a `RefCell`.
* `readPtr` takes fuel: running out of it stands for a stack overflow of the tool.
-/
namespace Verif.Value

/-- Miri's allocation numbers. -/
abbrev AllocId := Nat

/-- Memory kinds (mvalue.rs:233-268). -/
inductive MemKind | stack | machine | other
  deriving DecidableEq, Repr

/-- A (possibly wide) pointer as the reader sees it. -/
structure Ptr where
  /-- allocation and offset found from the provenance, `none`: `ptr_get_alloc_id` fails -/
  target : Option (AllocId × Nat)
  /-- the access check of mvalue.rs:480-489 succeeds (or the size is unknown) -/
  accessOk : Bool
  /-- metadata of a wide pointer -/
  mdata : Option Nat
  /-- type of the pointee -/
  ty : Ty

/-- Values of primitive type. -/
inductive Prim
  | bool (b : Bool)
  | char (c : Nat)
  | uint (n : Nat)
  | int (i : Int)
  | float (bits : Nat)
  deriving DecidableEq, Repr

/-- What the reader looks at in the header of a struct or enum. -/
inductive AdtHeader
  | struct (name : String)
  | enum (name variant : String)
  /-- the struct named `String`; `len = none` if the length is uninitialised -/
  | string (len : Option Nat)
  /-- the struct named `Vec` -/
  | vec (len : Option Nat) (el : Ty)

mutual
/-- Operands. -/
inductive Op
  | prim (v : Prim)
  | uninit
  | fault
  | unsupported
  | tuple (fs : Ops)
  | box (inner : Op)
  | adt (h : AdtHeader) (fs : OpFields)
  | closure (name : String) (names : List String) (env : Ops)
  | array (n : Nat) (elt : Nat → Op)
  | str (p : Ptr)
  | ptr (p : Ptr)
/-- Lists of operands. -/
inductive Ops
  | nil
  | cons (o : Op) (os : Ops)
/-- Fields of a struct: name, whether it is zero-sized, operand. -/
inductive OpFields
  | nil
  | cons (name : String) (zst : Bool) (o : Op) (fs : OpFields)
end

/-- `MMemorySegment` (mvalue.rs:24-30). -/
inductive MSeg
  | stack (frame : Nat) (localName : String)
  | heap (index : Nat)
  deriving DecidableEq, Repr

/-- `MHeapAllocKind` (mvalue.rs:99-106). -/
inductive MKind
  | string (len : Nat)
  | vec (len : Nat)
  | box
  deriving DecidableEq, Repr

/-- `MValue` (mvalue.rs:118-148).  `Array(Abbreviated::All)` is `all`, `Array(Abbreviated::Only)` is
`only`. -/
inductive MValue
  | prim (v : Prim)
  | tuple (vs : List MValue)
  | all (vs : List MValue)
  | only (vs : List MValue) (last : MValue)
  | adt (name : String) (variant : Option String) (fields : List (String × MValue)) (kind : Option MKind)
  | pointer (seg : MSeg) (parts : List PSeg) (range : Option Nat)
  | unallocated (id : Option Nat)

/-- `HeapAllocKind` (mvalue.rs:90-97). -/
inductive HeapKind
  | string (len : Nat)
  | vec (len : Nat) (el : Ty)
  | box

/-- `HeapAllocKind -> MHeapAllocKind` (mvalue.rs:108-116). -/
def HeapKind.toM : HeapKind → MKind
  | .string n => .string n
  | .vec n _ => .vec n
  | .box => .box

/-- The interpreted program's memory. -/
structure Mem where
  /-- kind of a live allocation; `none`: not in the allocation map -/
  kind : AllocId → Option MemKind
  /-- `get_alloc_info(id).size` -/
  size : AllocId → Nat
  /-- the operand of the given type at an address -/
  at_ : AllocId → Nat → Ty → Op

/-- `MemoryMap` (step.rs:97-106).  `remap` lists the remapped identifiers in the order they were
numbered. -/
structure MemMap where
  heap : List MValue
  loc : AllocId → Option (MSeg × Ty)
  slots : AllocId → Option (Nat × String × Ty)
  remap : List AllocId

/-- Ways reading stops. -/
inductive Err
  | interp
  | panic
  | stackOverflow
  deriving DecidableEq, Repr

abbrev M := EStateM Err MemMap

/-- `ABBREV_MAX` (mvalue.rs:48). -/
def abbrevMax : Nat := 12

/-- Applying `mk` to `start, start + 1, ..` (`count` indices) in order, stopping at the first error
(`(a .. b).map(mk).collect::<InterpResult<Vec<_>>>()`). -/
def mapRange {ε σ T : Type} (mk : Nat → EStateM ε σ T) : Nat → Nat → EStateM ε σ (List T)
  | _, 0 => pure []
  | start, count + 1 => do
    let v ← mk start
    let vs ← mapRange mk (start + 1) count
    pure (v :: vs)

/-- `Abbreviated` (mvalue.rs:50-56). -/
inductive Abbreviated (T : Type)
  | all (vs : List T)
  | only (vs : List T) (last : T)
  deriving DecidableEq, Repr

/-- `Abbreviated::new` (mvalue.rs:59-73). -/
def Abbreviated.new {ε σ T : Type} (n : Nat) (mk : Nat → EStateM ε σ T) :
    EStateM ε σ (Abbreviated T) :=
  if n ≤ abbrevMax then do
    let elts ← mapRange mk 0 n
    pure (.all elts)
  else do
    let initial ← mapRange mk 0 (abbrevMax - 1)
    let last ← mk (n - 1)
    pure (.only initial last)

/-- `MValue::Array`. -/
def MValue.ofAbbreviated : Abbreviated MValue → MValue
  | .all vs => .all vs
  | .only vs l => .only vs l

/-- `remap_alloc_id` (step.rs:201-205). -/
def remapAllocId (a : AllocId) : M Nat := fun s =>
  match s.remap.findIdx? (· == a) with
  | some i => .ok i s
  | none => .ok s.remap.length { s with remap := s.remap ++ [a] }

/-- Closure in `read_alloc` turning bytes into characters (mvalue.rs:180-183). -/
def toChar : MValue → Option MValue
  | .prim (.uint c) => some (.prim (.char c))
  | _ => none

/-- `Abbreviated::map` with that closure; `none`: `unreachable!()`. -/
def charsOf : Abbreviated MValue → Option (Abbreviated MValue)
  | .all vs => (vs.mapM toChar).map .all
  | .only vs l =>
    match vs.mapM toChar, toChar l with
    | some vs, some l => some (.only vs l)
    | _, _ => none

section
variable (rp : List HeapKind → Ptr → M MValue)

/-- The kind pushed for a struct (mvalue.rs:374-405). -/
def headerKind (ks : List HeapKind) : AdtHeader → Option HeapKind
  | .struct _ => none
  | .enum _ _ => none
  | .string len => len.map .string
  | .vec len el =>
    match ks.head? with
    | some (.string _) => none
    | _ => len.map (.vec · el)

/-- Name and variant shown. -/
def AdtHeader.label : AdtHeader → String × Option String
  | .struct n => (n, none)
  | .enum n v => (n, some v)
  | .string _ => ("String", none)
  | .vec _ _ => ("Vec", none)

mutual
/-- `Reader::read` (mvalue.rs:319-550); `rp` reads a pointer.  The first argument is the stack
`heap_alloc_kinds`, top first.  (When an error is returned from the middle, the code leaves the pushed
kind on the stack; nothing is read after an error.) -/
def readOp (ks : List HeapKind) : Op → M MValue
  | .prim v => pure (.prim v)
  | .uninit => pure (.unallocated none)
  | .fault => throw .interp
  | .unsupported => throw .panic
  | .box inner => do
    let r ← readOp (.box :: ks) inner
    pure (.adt "Box" none [("0", r)] (some .box))
  | .tuple fs => do
    let vs ← readOps ks fs
    pure (.tuple vs)
  | .adt h fs => do
    let k := headerKind ks h
    let vs ← readFields (k.toList ++ ks) fs
    pure (.adt h.label.1 h.label.2 vs (k.map HeapKind.toM))
  | .closure name names env => do
    let vs ← readOps ks env
    pure (.adt name none (names.zip vs) none)
  | .array n elt => do
    let vs ← Abbreviated.new n (fun i => readOp ks (elt i))
    pure (.ofAbbreviated vs)
  | .str p => rp ks p
  | .ptr p =>
    if !p.accessOk then
      match p.target with
      | some (a, _) => do
        let i ← remapAllocId a
        pure (.unallocated (some i))
      | none => pure (.unallocated none)
    else rp ks p
/-- Reading the fields of a tuple in order. -/
def readOps (ks : List HeapKind) : Ops → M (List MValue)
  | .nil => pure []
  | .cons o os => do
    let v ← readOp ks o
    let vs ← readOps ks os
    pure (v :: vs)
/-- `process_fields!` (mvalue.rs:352-369): zero-sized fields are skipped. -/
def readFields (ks : List HeapKind) : OpFields → M (List (String × MValue))
  | .nil => pure []
  | .cons name zst o fs =>
    if zst then readFields ks fs
    else do
      let v ← readOp ks o
      let vs ← readFields ks fs
      pure ((name, v) :: vs)
end

/-- `read_alloc` (mvalue.rs:170-194) for a pointee at offset `off` of allocation `a`.  Element `i` of
an array read has the offset `off + stride * i`. -/
def readAlloc (mem : Mem) (ks : List HeapKind) (a : AllocId) (off : Nat) (ty : Ty) : M MValue :=
  match ks.head? with
  | some (.string len) => do
    let arr ← Abbreviated.new len (fun i => readOp rp ks (mem.at_ a (off + ty.size * i) ty))
    match charsOf arr with
    | some cs => pure (.ofAbbreviated cs)
    | none => throw .panic
  | some (.vec len el) => do
    let arr ← Abbreviated.new len (fun i => readOp rp ks (mem.at_ a (off + el.size * i) el))
    pure (.ofAbbreviated arr)
  | _ => readOp rp ks (mem.at_ a off ty)

/-- The type recorded for a heap allocation (mvalue.rs:246-255). -/
def cellTy (ks : List HeapKind) (ty : Ty) : Ty :=
  match ks.head? with
  | some (.vec _ el) => el
  | _ => ty

/-- Registering a newly seen allocation whose contents read as `v` (mvalue.rs:228-272). -/
def register (mem : Mem) (ks : List HeapKind) (a : AllocId) (ty : Ty) (v : MValue) :
    M (Option MValue) := fun s =>
  match mem.kind a with
  | none => .error .panic s
  | some .other => .error .panic s
  | some .stack =>
    match s.slots a with
    | some (f, n, ly) =>
      .ok none { s with loc := fun b => if b = a then some (.stack f n, ly) else s.loc b }
    | none =>
      match remapAllocId a s with
      | .ok i s => .ok (some (.unallocated (some i))) s
      | .error e s => .error e s
  | some .machine =>
    .ok none { s with
      heap := s.heap ++ [v],
      loc := fun b => if b = a then some (.heap s.heap.length, cellTy ks ty) else s.loc b }

/-- The pointer value for an allocation that is known (mvalue.rs:274-286). -/
def pointerValue (mem : Mem) (a : AllocId) (off : Nat) (p : Ptr) : M MValue := fun s =>
  match s.loc a with
  | none => .error .panic s
  | some (seg, ly) =>
    match locateAddress ly (mem.size a) p.mdata off with
    | .error _ => .error .panic s
    | .ok parts => .ok (.pointer seg parts p.mdata) s
end

/-- `read_pointer` (mvalue.rs:197-287). -/
def readPtr (mem : Mem) : Nat → List HeapKind → Ptr → M MValue
  | 0, _, _ => throw .stackOverflow
  | fuel + 1, ks, p =>
    match p.target with
    | none => throw .interp
    | some (a, off) => do
      let s ← get
      if (s.loc a).isSome then pointerValue mem a off p
      else do
        let v ← readAlloc (readPtr mem fuel) mem ks a off p.ty
        match ← register mem ks a p.ty v with
        | some v => pure v
        | none => pointerValue mem a off p

/-- Reading the variables of a step one after the other (`build_stack`/`build_frame`,
step.rs:261-284, 446-457), and handing over the heap (`build_heap`, step.rs:459-461), which resets the
memory map. -/
def readAll (mem : Mem) (fuel : Nat) : List Op → M (List MValue)
  | [] => pure []
  | o :: os => do
    let v ← readOp (readPtr mem fuel) [] o
    let vs ← readAll mem fuel os
    pure (v :: vs)

/-- The memory map at the start of a step: only the stack slots found by `find_locals` are known. -/
def startMap (slots : AllocId → Option (Nat × String × Ty)) : MemMap :=
  { heap := [], loc := fun _ => none, slots, remap := [] }

end Verif.Value
