import Verif.Value.Model
/-!
# The memory diagram in the browser

Models `ValueView`, `AdtView`, `AbbreviatedView`, `PointerView`, `LocalsView`, `HeapView`, `StackView` and the
search for arrow ends in `renderArrows` (`frontend/packages/aquascope-editor/src/editor-utils/
interpreter.tsx:59-436, 459-528`).

Simplifications.
* Of the rendered document only the elements with a path class and the pointers are kept, in document order. An
  element carries the value drawn in it.
* A path class is kept as a structure; `Cls.name` is the class name, and different structures have different
  names (`C72_names`).
* An exception thrown while rendering, or in the effect that draws the arrows, removes the whole diagram (React
  unmounts a tree that throws): it is an error value.
* The reader of nested values takes fuel; running out of it stands for a stack overflow.
-/
namespace Verif.Frontend

open Verif.Value

/-- A component of a path class. -/
inductive Comp
  | field (i : Nat)
  | index (i : Nat)
  deriving DecidableEq, Repr

/-- A path class: `stack-<frame>-<name>` or `heap-<index>`, followed by the components. -/
structure Cls where
  seg : MSeg
  comps : List Comp
  deriving DecidableEq, Repr

def Cls.push (p : Cls) (c : Comp) : Cls := { p with comps := p.comps ++ [c] }

/-- An element of the document. -/
inductive Item
  | cell (cls : Cls) (v : MValue)
  | ptr (to : Cls) (range : Option Cls)

inductive RErr
  | noField
  | notStruct
  | deep
  | noEnd
  deriving DecidableEq, Repr

/-- The fields of a struct. -/
abbrev FieldList := List (String × MValue)

/-- `read_field` (interpreter.tsx:109-116): the fields of the struct in field `k`. Taking the fields of something
that is not a struct throws a `TypeError`, here already at the field. -/
def readField (fs : FieldList) (k : String) : Except RErr FieldList :=
  match fs.find? (fun f => k == f.1) with
  | none => .error .noField
  | some (_, .adt _ _ gs _) => .ok gs
  | some _ => .error .notStruct

/-- `non_null.fields[0][1]`. -/
def firstField (fs : FieldList) : Except RErr MValue :=
  match fs with
  | [] => .error .notStruct
  | f :: _ => .ok f.2

/-- `read_field` repeated. -/
def readFieldsOf (fs : FieldList) : List String → Except RErr FieldList
  | [] => .ok fs
  | k :: r =>
    match readField fs k with
    | .error e => .error e
    | .ok gs => readFieldsOf gs r

/-- The field path to the `NonNull` of a container (interpreter.tsx:119-148). -/
def specialPath : MKind → List String
  | .string _ => ["vec", "buf", "inner", "ptr", "pointer"]
  | .vec _ => ["buf", "inner", "ptr", "pointer"]
  | .box => ["0", "pointer"]

/-- `specialPtr` (interpreter.tsx:130-149). -/
def specialPtr (fs : FieldList) (kind : Option MKind) : Except RErr (Option MValue) :=
  match kind with
  | none => .ok none
  | some k =>
    match readFieldsOf fs (specialPath k) with
    | .error e => .error e
    | .ok gs =>
      match firstField gs with
      | .error e => .error e
      | .ok v => .ok (some v)

/-- The class component for a segment of a pointer's path (interpreter.tsx:243-251). -/
def compOf : PSeg → Comp
  | .field i => .field i
  | .index i => .index i
  | .subslice lo _ => .index lo

/-- `PointerView` (interpreter.tsx:228-285): the classes pointed to. -/
def pointerTo (seg : MSeg) (parts : List PSeg) : Cls × Option Cls :=
  let parts' := if parts.getLast? = some (.index 0) then parts.dropLast else parts
  let comps := parts'.map compOf
  (⟨seg, comps⟩,
    match parts.getLast? with
    | some (.subslice _ hi) => some ⟨seg, comps.dropLast ++ [.index hi]⟩
    | _ => none)

/-- The cells for a list of values, from position `i`. -/
def cellsFrom (rec_ : Cls → MValue → Except RErr (List Item)) (p : Cls) (mk : Nat → Comp) :
    Nat → List MValue → Except RErr (List Item)
  | _, [] => .ok []
  | i, v :: r =>
    match rec_ (p.push (mk i)) v with
    | .error e => .error e
    | .ok inner =>
      match cellsFrom rec_ p mk (i + 1) r with
      | .error e => .error e
      | .ok rest => .ok (.cell (p.push (mk i)) v :: (inner ++ rest))

/-- `ValueView` (interpreter.tsx:287-340) with `AdtView` (154-230) and `AbbreviatedView` (59-100);
`concrete` is `config.concreteTypes`. -/
def render (concrete : Bool) : Nat → Cls → MValue → Except RErr (List Item)
  | 0, _, _ => .error .deep
  | fuel + 1, p, v =>
    match v with
    | .prim _ => .ok []
    | .unallocated _ => .ok []
    | .tuple vs => cellsFrom (render concrete fuel) p .field 0 vs
    | .all vs => cellsFrom (render concrete fuel) p .index 0 vs
    | .only vs l =>
      match cellsFrom (render concrete fuel) p .index 0 vs with
      | .error e => .error e
      | .ok a =>
        match cellsFrom (render concrete fuel) p .index 100 [l] with
        | .error e => .error e
        | .ok b => .ok (a ++ b)
    | .pointer seg parts _ => let t := pointerTo seg parts; .ok [.ptr t.1 t.2]
    | .adt name _ fs kind =>
      match specialPtr fs kind with
      | .error e => .error e
      | .ok sp =>
        match (if concrete then none else sp) with
        | some ptr => render concrete fuel p ptr
        | none =>
          if name = "Iter" ∧ concrete = false then
            match readField fs "ptr" with
            | .error e => .error e
            | .ok gs =>
              match firstField gs with
              | .error e => .error e
              | .ok ptr => render concrete fuel p ptr
          else cellsFrom (render concrete fuel) p .field 0 (fs.map Prod.snd)

/-- The locals of a frame (interpreter.tsx:338-365). -/
def renderLocals (concrete : Bool) (fuel : Nat) (frame : Nat) : List (String × MValue) → Except RErr (List Item)
  | [] => .ok []
  | (n, v) :: r =>
    match render concrete fuel ⟨.stack frame n, []⟩ v with
    | .error e => .error e
    | .ok inner =>
      match renderLocals concrete fuel frame r with
      | .error e => .error e
      | .ok rest => .ok (.cell ⟨.stack frame n, []⟩ v :: (inner ++ rest))

/-- `StackView` (interpreter.tsx:398-407), from frame `i`. -/
def renderStack (concrete : Bool) (fuel : Nat) : Nat → List (List (String × MValue)) → Except RErr (List Item)
  | _, [] => .ok []
  | i, f :: r =>
    match renderLocals concrete fuel i f with
    | .error e => .error e
    | .ok a =>
      match renderStack concrete fuel (i + 1) r with
      | .error e => .error e
      | .ok b => .ok (a ++ b)

/-- `HeapView` (interpreter.tsx:409-430), from location `i`. -/
def renderHeap (concrete : Bool) (fuel : Nat) : Nat → List MValue → Except RErr (List Item)
  | _, [] => .ok []
  | i, v :: r =>
    match render concrete fuel ⟨.heap i, []⟩ v with
    | .error e => .error e
    | .ok inner =>
      match renderHeap concrete fuel (i + 1) r with
      | .error e => .error e
      | .ok rest => .ok (.cell ⟨.heap i, []⟩ v :: (inner ++ rest))

/-- A step: the stack, then the heap. -/
def renderStep (concrete : Bool) (fuel : Nat) (frames : List (List (String × MValue))) (heap : List MValue) :
    Except RErr (List Item) :=
  match renderStack concrete fuel 0 frames with
  | .error e => .error e
  | .ok a =>
    match renderHeap concrete fuel 0 heap with
    | .error e => .error e
    | .ok b => .ok (a ++ b)

/-- `query` (interpreter.tsx:473-480): the first element with the class, here the value drawn in it. -/
def query (items : List Item) (c : Cls) : Except RErr MValue :=
  match items.findSome? (fun | .cell d v => if d = c then some v else none | .ptr _ _ => none) with
  | some v => .ok v
  | none => .error .noEnd

/-- The ends of the arrows (interpreter.tsx:501-519): for each pointer the value drawn where the arrow ends, and
the value drawn in the last element of the range. -/
def arrowEnds (items : List Item) : List Item → Except RErr (List (MValue × Option MValue))
  | [] => .ok []
  | .cell _ _ :: r => arrowEnds items r
  | .ptr to range :: r =>
    match query items to with
    | .error e => .error e
    | .ok v =>
      match range with
      | none =>
        match arrowEnds items r with
        | .error e => .error e
        | .ok rest => .ok ((v, none) :: rest)
      | some c =>
        match query items c with
        | .error e => .error e
        | .ok w =>
          match arrowEnds items r with
          | .error e => .error e
          | .ok rest => .ok ((v, some w) :: rest)

/-- A step with its arrows. -/
def drawStep (concrete : Bool) (fuel : Nat) (frames : List (List (String × MValue))) (heap : List MValue) :
    Except RErr (List Item × List (MValue × Option MValue)) :=
  match renderStep concrete fuel frames heap with
  | .error e => .error e
  | .ok items =>
    match arrowEnds items items with
    | .error e => .error e
    | .ok ends => .ok (items, ends)

/-! ## Class names -/

def digitOf (n : Nat) : Char := Char.ofNat (48 + n % 10)

/-- `Number.toString`. -/
def decimal (n : Nat) : List Char :=
  if h : n < 10 then [digitOf n] else decimal (n / 10) ++ [digitOf n]
termination_by n
decreasing_by omega

def Comp.name : Comp → List Char
  | .field i => ['-', 'f', 'i', 'e', 'l', 'd', '-'] ++ decimal i
  | .index i => ['-', 'i', 'n', 'd', 'e', 'x', '-'] ++ decimal i

/-- `path.join("-")`. -/
def Cls.name (c : Cls) : List Char :=
  (match c.seg with
    | .stack f n => ['s', 't', 'a', 'c', 'k', '-'] ++ decimal f ++ ['-'] ++ n.toList
    | .heap i => ['h', 'e', 'a', 'p', '-'] ++ decimal i) ++ c.comps.flatMap Comp.name

end Verif.Frontend
