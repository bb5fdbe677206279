/-!
# Where the arrows of a memory diagram end and how they are told apart

Model of the second half of `renderArrows` (frontend/packages/aquascope-editor/src/editor-utils/interpreter.tsx:482-631)
and of `evenlySpaceAround` (editor-utils/misc.tsx:59-78).

Simplifications: heights are exact fractions (the code uses floating point); elements are numbers, equal for equal
selectors; the library that draws the lines is not modelled, an arrow is the set of options given to it; drawing an arrow
never throws (a thrown exception is caught and the arrow left out, interpreter.tsx:623-626); colours are their
positions in the palette.
-/

namespace Verif.Frontend.Layout

/-- `MemoryRegion`, interpreter.tsx:482. -/
inductive Region
  | stack
  | heap
  deriving DecidableEq, Repr

/-- `interface Pointer`, interpreter.tsx:486-497: the element pointed to, whether there is a range, whether the arrow
must enter from below, the two regions, and whether the pointer is inside something moved (`closest(".moved")`). -/
structure Ptr where
  dst : Nat
  ranged : Bool
  bottom : Bool
  src : Region
  tgt : Region
  moved : Bool
  deriving DecidableEq, Repr

/-- Where the line is attached (`AnchorAttachment`): an area below the element, a point given in percent of the width
and height (`none` is `NaN`), or the element itself. -/
inductive Anchor
  | area
  | point (x : Nat) (y : Option Rat)
  | element
  deriving DecidableEq

/-- The options of one line, interpreter.tsx:600-608. `gravity` is the pair of start and end gravity. -/
structure Arrow where
  startLeft : Bool
  anchor : Anchor
  color : Nat
  faded : Bool
  gravity : Option (Int × Int)
  deriving DecidableEq

/-- `lerp`, misc.tsx:59-60. -/
def lerp (min max alpha : Rat) : Rat := (max - min) * alpha + min

/-- `evenlySpaceAround`, misc.tsx:62-78. With `total = 0` the index is `0` too and `0 / 0` is `NaN`. -/
def evenlySpaceAround (center spacing : Rat) (index total : Nat) : Option Rat :=
  let range := (total : Rat) * spacing
  let min := center - range / 2
  let max := center + range / 2
  if total = 0 then none else some (lerp min max ((index : Rat) / (total : Rat)))

/-- The loop that numbers the pointers to each element, interpreter.tsx:502-520 (`dstCounts`, `dstIndex`). -/
def collect : List Ptr → (Nat → Nat) → List (Ptr × Nat) × (Nat → Nat)
  | [], counts => ([], counts)
  | p :: ps, counts =>
    let r := collect ps (fun d => if d = p.dst then counts d + 1 else counts d)
    ((p, counts p.dst) :: r.1, r.2)

/-- `_.groupBy` with `Object.entries`: the groups in the order in which their keys first occur (for keys that are not
array indices). -/
def groupBy {α β} [DecidableEq β] (key : α → β) : List α → List (β × List α)
  | [] => []
  | a :: as =>
    (key a, a :: as.filter (fun b => key b = key a)) ::
      (groupBy key as).filter (fun g => g.1 ≠ key a)

/-- `String({srcRegion, dstRegion})`, the key that lodash uses for the property `group`, whose value is an object:
interpreter.tsx:525. -/
def groupKey (_ : Ptr) : List Char :=
  ['[', 'o', 'b', 'j', 'e', 'c', 't', ' ', 'O', 'b', 'j', 'e', 'c', 't', ']']

/-- The number of colours of each palette, interpreter.tsx:434-453. -/
def paletteSize : Nat := 6

/-- `renderPtr`, interpreter.tsx:533-627: `counts` is `dstCounts` after the loop, `index` is `ptr.dstIndex`, `i` the
position in the group. -/
def renderPtr (counts : Nat → Nat) (p : Ptr) (index i : Nat) : Arrow where
  startLeft := p.src = .heap && p.tgt = .stack
  anchor :=
    if p.ranged then .area
    else if p.src = .stack && p.tgt = .stack then .point 100 (some 75)
    else if p.bottom then .element
    else .point (if p.tgt = .stack then 100 else 0) (evenlySpaceAround 50 30 index (counts p.dst - 1))
  color := i % paletteSize
  faded := p.moved
  gravity := if p.src = .stack && p.tgt = .heap then some (60, 100 - (i : Int) * 10) else none

/-- The arrows of one step, interpreter.tsx:502-631, from the pointers in document order. -/
def arrows (ps : List Ptr) : List Arrow :=
  let r := collect ps (fun _ => 0)
  (groupBy (fun q => groupKey q.1) r.1).flatMap fun g =>
    g.2.zipIdx.map fun q => renderPtr r.2 q.1.1 q.1.2 q.2

end Verif.Frontend.Layout
