import Verif.Frontend.Diagram
import Verif.Value.Spec
/-!
# Where an arrow should end
-/
namespace Verif.Frontend

open Verif.Value Verif.Value.Spec

/-- Operand `i` of a list. -/
def opAt : Ops → Nat → Option Op
  | .nil, _ => none
  | .cons o _, 0 => some o
  | .cons _ os, i + 1 => opAt os i

/-- Field `i` of a struct, counted as declared, and whether no field up to it is zero-sized. -/
def fieldAt : OpFields → Nat → Option (Bool × Op)
  | .nil, _ => none
  | .cons _ z o _, 0 => some (!z, o)
  | .cons _ z _ fs, i + 1 => (fieldAt fs i).map (fun x => (!z && x.1, x.2))

/-- The path leads from one operand to another: the paths a pointer may have. `ks` are the containers around. -/
inductive Valid : List HeapKind → Op → List Comp → List HeapKind → Op → Prop
  | here {ks o} : Valid ks o [] ks o
  | tuple {ks os i o r ks' o'} : opAt os i = some o → Valid ks o r ks' o' →
      Valid ks (.tuple os) (.field i :: r) ks' o'
  | closure {ks n ns env i o r ks' o'} : opAt env i = some o → Valid ks o r ks' o' →
      Valid ks (.closure n ns env) (.field i :: r) ks' o'
  | box {ks o r ks' o'} : Valid (.box :: ks) o r ks' o' → Valid ks (.box o) (.field 0 :: r) ks' o'
  | adt {ks h fs i b o r ks' o'} : fieldAt fs i = some (b, o) → Valid ((opens ks h).toList ++ ks) o r ks' o' →
      Valid ks (.adt h fs) (.field i :: r) ks' o'
  | array {ks n elt i r ks' o'} : i < n → Valid ks (elt i) r ks' o' → Valid ks (.array n elt) (.index i :: r) ks' o'

/-- The paths that avoid the three places where the diagram does not follow the value: a container or a struct named
`Iter` drawn as its pointer (unless concrete types are shown), a field after a zero-sized one, and an element left
out or drawn last of a long array. -/
inductive Direct (concrete : Bool) : List HeapKind → Op → List Comp → List HeapKind → Op → Prop
  | here {ks o} : Direct concrete ks o [] ks o
  | tuple {ks os i o r ks' o'} : opAt os i = some o → Direct concrete ks o r ks' o' →
      Direct concrete ks (.tuple os) (.field i :: r) ks' o'
  | closure {ks n ns env i o r ks' o'} : opAt env i = some o → i < ns.length → (n ≠ "Iter" ∨ concrete = true) →
      Direct concrete ks o r ks' o' → Direct concrete ks (.closure n ns env) (.field i :: r) ks' o'
  | box {ks o r ks' o'} : concrete = true → Direct concrete (.box :: ks) o r ks' o' →
      Direct concrete ks (.box o) (.field 0 :: r) ks' o'
  | adt {ks h fs i o r ks' o'} : fieldAt fs i = some (true, o) →
      ((opens ks h = none ∧ (title h).1 ≠ "Iter") ∨ concrete = true) →
      Direct concrete ((opens ks h).toList ++ ks) o r ks' o' → Direct concrete ks (.adt h fs) (.field i :: r) ks' o'
  | array {ks n elt i r ks' o'} : i < n → (n ≤ 12 ∨ i < 11) → Direct concrete ks (elt i) r ks' o' →
      Direct concrete ks (.array n elt) (.index i :: r) ks' o'

/-- The part of a drawn value at a path. -/
inductive Shown (concrete : Bool) : MValue → List Comp → MValue → Prop
  | here {v} : Shown concrete v [] v
  | tuple {vs i v r w} : vs[i]? = some v → Shown concrete v r w → Shown concrete (.tuple vs) (.field i :: r) w
  | all {vs i v r w} : vs[i]? = some v → Shown concrete v r w → Shown concrete (.all vs) (.index i :: r) w
  | only {vs l i v r w} : vs[i]? = some v → Shown concrete v r w → Shown concrete (.only vs l) (.index i :: r) w
  | adt {n va fs k i x v r w} : ((k = none ∧ n ≠ "Iter") ∨ concrete = true) → fs[i]? = some (x, v) →
      Shown concrete v r w → Shown concrete (.adt n va fs k) (.field i :: r) w

/-- The first value occurs in the second. -/
inductive Part (w : MValue) : MValue → Prop
  | here : Part w w
  | tuple {vs v} : v ∈ vs → Part w v → Part w (.tuple vs)
  | all {vs v} : v ∈ vs → Part w v → Part w (.all vs)
  | only {vs l v} : v ∈ vs → Part w v → Part w (.only vs l)
  | last {vs l} : Part w l → Part w (.only vs l)
  | adt {n va fs k x} : x ∈ fs → Part w x.2 → Part w (.adt n va fs k)

/-- Long arrays keep at most 100 elements before the dots (the tool keeps eleven). -/
def Short (v : MValue) : Prop := ∀ vs l, Part (.only vs l) v → vs.length ≤ 100

/-- The classes of the elements. -/
def classes (items : List Item) : List Cls :=
  items.filterMap (fun | .cell c _ => some c | .ptr _ _ => none)

/-- Going through fields that are structs: the fields of the struct that is reached. The first field of a name
counts. -/
inductive Through : FieldList → List String → FieldList → Prop
  | here {fs} : Through fs [] fs
  | step {pre k n va gs kd post r hs} : (∀ x ∈ pre, x.1 ≠ k) → Through gs r hs →
      Through (pre ++ (k, .adt n va gs kd) :: post) (k :: r) hs

/-- Where the pointer of a container is found: a `String` holds a `Vec`, a `Vec` a buffer, and so on, to the
`NonNull` whose first field is the pointer. -/
inductive Holds : MKind → List String → Prop
  | string {n} : Holds (.string n) ["vec", "buf", "inner", "ptr", "pointer"]
  | vec {n} : Holds (.vec n) ["buf", "inner", "ptr", "pointer"]
  | box : Holds .box ["0", "pointer"]

/-- A value that can be drawn: nested less than `n` deep; containers have the fields of the standard library's
containers; and a struct named `Iter` has a field `ptr` with a struct, unless concrete types are shown. -/
inductive Drawable (concrete : Bool) : Nat → MValue → Prop
  | prim {n x} : Drawable concrete (n + 1) (.prim x)
  | unallocated {n i} : Drawable concrete (n + 1) (.unallocated i)
  | pointer {n seg parts r} : Drawable concrete (n + 1) (.pointer seg parts r)
  | tuple {n vs} : (∀ v ∈ vs, Drawable concrete n v) → Drawable concrete (n + 1) (.tuple vs)
  | all {n vs} : (∀ v ∈ vs, Drawable concrete n v) → Drawable concrete (n + 1) (.all vs)
  | only {n vs l} : (∀ v ∈ vs, Drawable concrete n v) → Drawable concrete n l → Drawable concrete (n + 1) (.only vs l)
  | container {n name va fs k ks x v gs} : Holds k ks → Through fs ks ((x, v) :: gs) → concrete = false →
      Drawable concrete n v → Drawable concrete (n + 1) (.adt name va fs (some k))
  | container' {n name va fs k ks x v gs} : Holds k ks → Through fs ks ((x, v) :: gs) → concrete = true →
      (∀ y ∈ fs, Drawable concrete n y.2) → Drawable concrete (n + 1) (.adt name va fs (some k))
  | iter {n va fs x v gs} : concrete = false → Through fs ["ptr"] ((x, v) :: gs) → Drawable concrete n v →
      Drawable concrete (n + 1) (.adt "Iter" va fs none)
  | struct {n name va fs} : name ≠ "Iter" ∨ concrete = true → (∀ y ∈ fs, Drawable concrete n y.2) →
      Drawable concrete (n + 1) (.adt name va fs none)

/-- The variables of a frame have different names. -/
def NamesDiffer (frames : List (List (String × MValue))) : Prop :=
  ∀ f ∈ frames, (f.map Prod.fst).Nodup

/-- The value is drawn at the start of a path: a variable of a frame, or a cell of the heap. -/
inductive DrawnAt (frames : List (List (String × MValue))) (heap : List MValue) : MSeg → MValue → Prop
  | stack {i f n v} : frames[i]? = some f → (n, v) ∈ f → DrawnAt frames heap (.stack i n) v
  | heap {i v} : heap[i]? = some v → DrawnAt frames heap (.heap i) v

end Verif.Frontend
