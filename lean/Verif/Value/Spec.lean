import Verif.Value.Model
import Batteries.Data.List.Basic
/-!
# Specification of reading values: when a diagram depicts the memory
-/
namespace Verif.Value.Spec
open Verif.Value

/-! ## Reading in order (C15) -/

/-- Reading the indices `is` one after the other from state `s` gives `vs` and state `s'`. -/
inductive Reads {ε σ T : Type} (mk : Nat → EStateM ε σ T) : List Nat → σ → List T → σ → Prop
  | nil {s} : Reads mk [] s [] s
  | cons {i is s v s₁ vs s₂} : mk i s = .ok v s₁ → Reads mk is s₁ vs s₂ →
      Reads mk (i :: is) s (v :: vs) s₂

/-- Reading the indices in order fails: those before some index succeed, and that one fails. -/
def Fails {ε σ T : Type} (mk : Nat → EStateM ε σ T) (is : List Nat) (s : σ) (e : ε) (s' : σ) : Prop :=
  ∃ before i after vs s₁, is = before ++ i :: after ∧ Reads mk before s vs s₁ ∧
    mk i s₁ = .error e s'

/-- The indices that are shown of an array of `n` elements. -/
def shownIndices (n : Nat) : List Nat :=
  if n ≤ 12 then List.range n else List.range 11 ++ [n - 1]

/-- The elements of an abbreviated array, in the order of `shownIndices`. -/
def elements {T : Type} : Abbreviated T → List T
  | .all vs => vs
  | .only vs l => vs ++ [l]

/-! ## Diagrams (C16, C18) -/

/-- The variables of the diagram that have an address, where allocations are drawn, and the labels of
allocations that are not drawn. -/
structure Map where
  slot : AllocId → Option (Nat × String × Ty)
  loc : AllocId → Option (MSeg × Ty)
  label : AllocId → Option Nat

/-- `v` shows an array of `n` elements, `P i` relating element `i` to its value: all of them, or the
first eleven and the last. -/
def ShowsArray (n : Nat) (P : Nat → MValue → Prop) (v : MValue) : Prop :=
  (n ≤ 12 ∧ ∃ vs, v = .all vs ∧ vs.length = n ∧ ∀ i w, vs[i]? = some w → P i w) ∨
  (12 < n ∧ ∃ vs l, v = .only vs l ∧ vs.length = 11 ∧ (∀ i w, vs[i]? = some w → P i w) ∧ P (n - 1) l)

/-- The value `v` shows the pointer `p`. -/
inductive ShowsPtr (mem : Mem) (m : Map) (p : Ptr) : MValue → Prop
  /-- into an allocation that is drawn: the place where it is drawn, and the path of the address -/
  | drawn {a off seg ly parts} : p.target = some (a, off) → m.loc a = some (seg, ly) →
      locateAddress ly (mem.size a) p.mdata off = .ok parts →
      ShowsPtr mem m p (.pointer seg parts p.mdata)
  /-- into a stack variable that is not part of the diagram: labelled -/
  | hidden {a off i} : p.target = some (a, off) → mem.kind a = some .stack → m.slot a = none →
      m.label a = some i → ShowsPtr mem m p (.unallocated (some i))

/-- The container that a struct opens for the pointers inside it: a `String` of known length; a `Vec` of
known length, unless it is directly inside a `String` (whose bytes it holds). -/
def opens (ks : List HeapKind) : AdtHeader → Option HeapKind
  | .string (some n) => some (.string n)
  | .vec (some n) el => match ks with
    | .string _ :: _ => none
    | _ => some (.vec n el)
  | _ => none

/-- The name and variant of a struct or enum in the diagram. -/
def title : AdtHeader → String × Option String
  | .struct n => (n, none)
  | .enum n v => (n, some v)
  | .string _ => ("String", none)
  | .vec _ _ => ("Vec", none)

/-- How a container is announced in the diagram. -/
def mark : HeapKind → MKind
  | .string n => .string n
  | .vec n _ => .vec n
  | .box => .box

mutual
/-- The value `v` depicts the operand; `ks` are the kinds of the containers around it, innermost
first. -/
inductive Depicts (mem : Mem) (m : Map) : List HeapKind → Op → MValue → Prop
  | prim {ks x} : Depicts mem m ks (.prim x) (.prim x)
  | uninit {ks} : Depicts mem m ks .uninit (.unallocated none)
  | box {ks o v} : Depicts mem m (.box :: ks) o v →
      Depicts mem m ks (.box o) (.adt "Box" none [("0", v)] (some .box))
  | tuple {ks os vs} : DepictsAll mem m ks os vs → Depicts mem m ks (.tuple os) (.tuple vs)
  | adt {ks h fs vs} : DepictsFields mem m ((opens ks h).toList ++ ks) fs vs →
      Depicts mem m ks (.adt h fs) (.adt (title h).1 (title h).2 vs ((opens ks h).map mark))
  | closure {ks n ns env vs} : DepictsAll mem m ks env vs →
      Depicts mem m ks (.closure n ns env) (.adt n none (ns.zip vs) none)
  | arrayAll {ks n elt vs} : n ≤ 12 → vs.length = n →
      (∀ i w, vs[i]? = some w → Depicts mem m ks (elt i) w) → Depicts mem m ks (.array n elt) (.all vs)
  | arrayOnly {ks n elt vs l} : 12 < n → vs.length = 11 →
      (∀ i w, vs[i]? = some w → Depicts mem m ks (elt i) w) → Depicts mem m ks (elt (n - 1)) l →
      Depicts mem m ks (.array n elt) (.only vs l)
  | str {ks p v} : ShowsPtr mem m p v → Depicts mem m ks (.str p) v
  | ptr {ks p v} : p.accessOk = true → ShowsPtr mem m p v → Depicts mem m ks (.ptr p) v
  /-- a pointer that may not be followed carries the label of its allocation -/
  | dangling {ks p a off i} : p.accessOk = false → p.target = some (a, off) → m.label a = some i →
      Depicts mem m ks (.ptr p) (.unallocated (some i))
  | wild {ks p} : p.accessOk = false → p.target = none →
      Depicts mem m ks (.ptr p) (.unallocated none)
/-- Lists of operands, one by one. -/
inductive DepictsAll (mem : Mem) (m : Map) : List HeapKind → Ops → List MValue → Prop
  | nil {ks} : DepictsAll mem m ks .nil []
  | cons {ks o os v vs} : Depicts mem m ks o v → DepictsAll mem m ks os vs →
      DepictsAll mem m ks (.cons o os) (v :: vs)
/-- Fields, without the zero-sized ones. -/
inductive DepictsFields (mem : Mem) (m : Map) : List HeapKind → OpFields → List (String × MValue) → Prop
  | nil {ks} : DepictsFields mem m ks .nil []
  | skip {ks n o fs vs} : DepictsFields mem m ks fs vs →
      DepictsFields mem m ks (.cons n true o fs) vs
  | cons {ks n o fs v vs} : Depicts mem m ks o v → DepictsFields mem m ks fs vs →
      DepictsFields mem m ks (.cons n false o fs) ((n, v) :: vs)
end

mutual
/-- The pointer occurs in the operand and is followed; `ks'` are the containers around it. -/
def OccursIn (ks' : List HeapKind) (p : Ptr) (ks : List HeapKind) : Op → Prop
  | .box o => OccursIn ks' p (.box :: ks) o
  | .tuple os => OccursInOps ks' p ks os
  | .adt h fs => OccursInFields ks' p ((opens ks h).toList ++ ks) fs
  | .closure _ _ os => OccursInOps ks' p ks os
  | .array n elt => ∃ i, i < n ∧ OccursIn ks' p ks (elt i)
  | .str q => p = q ∧ ks' = ks
  | .ptr q => p = q ∧ ks' = ks ∧ q.accessOk = true
  | _ => False
/-- The pointer occurs in one of the operands. -/
def OccursInOps (ks' : List HeapKind) (p : Ptr) (ks : List HeapKind) : Ops → Prop
  | .nil => False
  | .cons o os => OccursIn ks' p ks o ∨ OccursInOps ks' p ks os
/-- The pointer occurs in one of the fields that are shown. -/
def OccursInFields (ks' : List HeapKind) (p : Ptr) (ks : List HeapKind) : OpFields → Prop
  | .nil => False
  | .cons _ zst o fs => (zst = false ∧ OccursIn ks' p ks o) ∨ OccursInFields ks' p ks fs
end

/-- What is found behind a pointer to type `ty` at an address, in a container: in a string or a vector,
the elements; otherwise, one value. -/
inductive Content (mem : Mem) (ks : List HeapKind) (a : AllocId) (off : Nat) (ty : Ty) : Op → Prop
  | char {len i} : ks.head? = some (.string len) → i < len →
      Content mem ks a off ty (mem.at_ a (off + ty.size * i) ty)
  | elem {len el i} : ks.head? = some (.vec len el) → i < len →
      Content mem ks a off ty (mem.at_ a (off + el.size * i) el)
  | value : (∀ len, ks.head? ≠ some (.string len)) → (∀ len el, ks.head? ≠ some (.vec len el)) →
      Content mem ks a off ty (mem.at_ a off ty)

/-- The pointers that are followed from the variables `roots`, with the containers around them. -/
inductive Reached (mem : Mem) (roots : List Op) : List HeapKind → Ptr → Prop
  | root {o ks p} : o ∈ roots → OccursIn ks p [] o → Reached mem roots ks p
  | step {ks p a off o ks' q} : Reached mem roots ks p → p.target = some (a, off) →
      Content mem ks a off p.ty o → OccursIn ks' q ks o → Reached mem roots ks' q

/-- No pointer cycles: allocations can be ranked so that every followed pointer found behind a followed
pointer goes to an allocation of lower rank. -/
def Acyclic (mem : Mem) (R : List HeapKind → Ptr → Prop) (rank : AllocId → Nat) : Prop :=
  ∀ ks p a off o ks' q b off', R ks p → p.target = some (a, off) → Content mem ks a off p.ty o →
    OccursIn ks' q ks o → q.target = some (b, off') → rank b < rank a

/-- `v` shows what is behind a pointer to type `ty` at an address, in a container: in a string, the
characters; in a vector, the elements; otherwise, the value. -/
inductive ShowsContent (mem : Mem) (m : Map) (ks : List HeapKind) (a : AllocId) (off : Nat) (ty : Ty) :
    MValue → Prop
  | chars {len v} : ks.head? = some (.string len) →
      ShowsArray len (fun i w => ∃ c, mem.at_ a (off + ty.size * i) ty = .prim (.uint c) ∧
        w = .prim (.char c)) v → ShowsContent mem m ks a off ty v
  | elems {len el v} : ks.head? = some (.vec len el) →
      ShowsArray len (fun i => Depicts mem m ks (mem.at_ a (off + el.size * i) el)) v →
      ShowsContent mem m ks a off ty v
  | value {v} : (∀ len, ks.head? ≠ some (.string len)) → (∀ len el, ks.head? ≠ some (.vec len el)) →
      Depicts mem m ks (mem.at_ a off ty) v → ShowsContent mem m ks a off ty v

/-- The type of what is behind a pointer to type `ty`, in a container: in a vector, the elements' type. -/
inductive ContentTy (ks : List HeapKind) (ty : Ty) : Ty → Prop
  | elems {len el} : ks.head? = some (.vec len el) → ContentTy ks ty el
  | value : (∀ len el, ks.head? ≠ some (.vec len el)) → ContentTy ks ty ty

/-- A heap cell of type `ly` shows what is behind some followed pointer to the allocation `a`. -/
def CellShows (mem : Mem) (R : List HeapKind → Ptr → Prop) (m : Map) (a : AllocId) (ly : Ty) (v : MValue) :
    Prop :=
  ∃ ks p off, R ks p ∧ p.target = some (a, off) ∧ ShowsContent mem m ks a off p.ty v ∧ ContentTy ks p.ty ly

/-- A pointer with this target occurs in the value. -/
inductive HasPtr : MValue → MSeg → Prop
  | here {seg parts r} : HasPtr (.pointer seg parts r) seg
  | tuple {vs v seg} : v ∈ vs → HasPtr v seg → HasPtr (.tuple vs) seg
  | all {vs v seg} : v ∈ vs → HasPtr v seg → HasPtr (.all vs) seg
  | only {vs l v seg} : v ∈ vs → HasPtr v seg → HasPtr (.only vs l) seg
  | last {vs l seg} : HasPtr l seg → HasPtr (.only vs l) seg
  | adt {n va fs k x v seg} : (x, v) ∈ fs → HasPtr v seg → HasPtr (.adt n va fs k) seg

/-- What is drawn in one step: the list `order` of the allocations shown in the heap, cell by cell, and
the map of places and labels. -/
structure Diagram (mem : Mem) (roots : List Op) (slots : AllocId → Option (Nat × String × Ty))
    (vs heap : List MValue) (order : List AllocId) (m : Map) : Prop where
  /-- one cell per allocation of the list, each allocation once -/
  cells : order.length = heap.length
  once : order.Nodup
  /-- only heap allocations are shown in the heap, at the position in the list -/
  heapLoc : ∀ a i, (∃ ly, m.loc a = some (.heap i, ly)) ↔ order[i]? = some a
  isHeap : ∀ a ∈ order, mem.kind a = some .machine
  /-- stack locations are variables recorded for the step -/
  slot : m.slot = slots
  stackLoc : ∀ a f n ly, m.loc a = some (.stack f n, ly) →
    slots a = some (f, n, ly) ∧ mem.kind a = some .stack
  /-- the variables shown depict the operands -/
  variables : List.Forall₂ (Depicts mem m []) roots vs
  /-- each cell depicts what is behind a followed pointer to its allocation -/
  cell : ∀ (i : Nat) a ly v, m.loc a = some (.heap i, ly) → heap[i]? = some v →
    CellShows mem (Reached mem roots) m a ly v
  /-- labels are one-to-one -/
  labels : ∀ a b i, m.label a = some i → m.label b = some i → a = b

end Verif.Value.Spec
