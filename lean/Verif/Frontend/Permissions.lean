import Verif.Frontend.Trace
import Verif.Frontend.Stepper
/-!
# Boundaries and highlighted regions in the editor

Models `makePermissionsDecorations` and `renderPermissions`
(`frontend/packages/aquascope-editor/src/editor-utils/permissions.tsx:25-75`), `PermStack` and
`BoundaryPointWidget` (`boundaries.tsx:57-185`), and the facts shown while the mouse is over a letter
(`misc.tsx:106-309`).

Simplifications.
* `makeTag` returns random names; the n-th name returned is `tag n` for a parameter `tag`.
* The elements made for a mark decoration are one element; CodeMirror may split it at other decorations.
* `Decoration.mark(…).range(from, to)` throws a `RangeError` unless `from < to` (CodeMirror).
* Animation is left out.
-/
namespace Verif.Frontend

/-! ## Boundaries -/

/-- The part of a `PermissionsBoundary` that is drawn. `flow`: `expecting_flow`, with `is_violation`. -/
structure Bnd where
  location : Pos
  expRead : Bool
  expWrite : Bool
  expDrop : Bool
  actRead : Bool
  actWrite : Bool
  actDrop : Bool
  flow : Option Bool
  deriving DecidableEq, Repr

/-- `allIcons.filter(i => i.exp)` (boundaries.tsx:64-125): the letters and whether they are drawn as missing. -/
def bndIcons (b : Bnd) : List (Letter × Bool) :=
  let all : List (Letter × Bool × Bool) :=
    [(.R, b.expRead, b.actRead), (.W, b.expWrite, b.actWrite), (.O, b.expDrop, b.actDrop),
     (.F, b.flow.isSome, !(b.flow.getD false))]
  (all.filter (fun i => i.2.1)).map (fun i => (i.1, !i.2.2))

/-- `numDisplayed` (boundaries.tsx:152-158), the size used by the style sheet. -/
def numDisplayed (b : Bnd) : Nat :=
  let toi (x : Bool) : Nat := if x then 1 else 0
  [toi b.expRead, toi b.expWrite, toi b.expDrop, toi b.flow.isSome].foldl (· + ·) 0

/-- `_.uniqBy(l, key)`: the first element of each key. -/
def uniqBy {β : Type} (key : β → Nat) : List β → List Nat → List β
  | [], _ => []
  | x :: r, seen => if seen.contains (key x) then uniqBy key r seen else x :: uniqBy key r (key x :: seen)

/-- `makeBoundaryDecorations` (boundaries.tsx:192-203): the position and the boundary. -/
def boundaryDecos (doc : List Char) (bs : List Bnd) : Except TErr (List (Nat × Bnd)) :=
  mapAll (fun b => match posOf doc b.location with
    | .error e => .error e
    | .ok n => .ok (n, b)) bs

/-- The boundaries of `makePermissionsDecorations` (permissions.tsx:25-53). -/
def drawnBoundaries (doc : List Char) (results : List (List Bnd)) : Except TErr (List (Nat × Bnd)) :=
  match mapAll (boundaryDecos doc) results with
  | .error e => .error e
  | .ok l => .ok (uniqBy (fun d => d.1) l.flatten [])

/-! ## Regions shown while the mouse is over a letter -/

abbrev Rng := Pos × Pos

/-- The part of an `AnalysisOutput` used: points and regions of loans and moves, by key. -/
structure Out where
  loanPoints : Nat → Option Rng
  loanRegions : List (Nat × List Rng)
  movePoints : Nat → Option Rng
  moveRegions : List (Nat × List Rng)

/-- One entry of the facts: the key, the two tag names, and the ranges they are attached to
(misc.tsx:166-204). -/
structure FactEntry where
  key : Nat
  refinerTag : Nat
  regionTag : Nat
  point : Option Rng
  ranges : List Rng
  deriving DecidableEq, Repr

/-- One of the two loops (misc.tsx:166-180 and 182-196); `n` names have been made before. -/
def factsLoop (points : Nat → Option Rng) : Nat → List (Nat × List Rng) → List FactEntry
  | _, [] => []
  | n, (k, rs) :: r => ⟨k, n, n + 1, points k, rs⟩ :: factsLoop points (n + 2) r

/-- The facts of one body: loans and moves. -/
structure BodyFacts where
  loans : List FactEntry
  moves : List FactEntry
  deriving DecidableEq, Repr

/-- `generateAnalysisDecorationFacts` for each body in turn (permissions.tsx:34-48). -/
def allFacts : Nat → List Out → List BodyFacts
  | _, [] => []
  | n, o :: r =>
    let m := n + 2 * o.loanRegions.length
    ⟨factsLoop o.loanPoints n o.loanRegions, factsLoop o.movePoints m o.moveRegions⟩ ::
      allFacts (m + 2 * o.moveRegions.length) r

inductive HErr
  | noLine
  | empty
  | noPoint
  deriving DecidableEq, Repr

/-- An element of the document for a mark decoration. -/
structure El (T : Type) where
  tag : T
  from_ : Nat
  to_ : Nat
  deriving DecidableEq, Repr

/-- `Decoration.mark({ tagName }).range(…)`. -/
def markEl {T : Type} (doc : List Char) (t : T) (r : Rng) : Except HErr (El T) :=
  match linecol doc r.1, linecol doc r.2 with
  | some a, some b => if a < b then .ok ⟨t, a, b⟩ else .error .empty
  | _, _ => .error .noLine

def markEls {T : Type} (doc : List Char) (t : T) : List Rng → Except HErr (List (El T))
  | [] => .ok []
  | r :: rs =>
    match markEl doc t r with
    | .error e => .error e
    | .ok x =>
      match markEls doc t rs with
      | .error e => .error e
      | .ok xs => .ok (x :: xs)

/-- `loanFactsToDecoration` (misc.tsx:128-154). -/
def entryEls {T : Type} (tag : Nat → T) (doc : List Char) (e : FactEntry) : Except HErr (List (El T)) :=
  match e.point with
  | none => .error .noPoint
  | some p =>
    match markEl doc (tag e.refinerTag) p with
    | .error er => .error er
    | .ok x =>
      match markEls doc (tag e.regionTag) (e.ranges.filter (fun r => r.1 != r.2)) with
      | .error er => .error er
      | .ok xs => .ok (x :: xs)

def entriesEls {T : Type} (tag : Nat → T) (doc : List Char) : List FactEntry → Except HErr (List (El T))
  | [] => .ok []
  | e :: r =>
    match entryEls tag doc e with
    | .error er => .error er
    | .ok x =>
      match entriesEls tag doc r with
      | .error er => .error er
      | .ok xs => .ok (x ++ xs)

/-- All elements for the facts of all bodies (misc.tsx:119-124). -/
def factEls {T : Type} (tag : Nat → T) (doc : List Char) (fs : List BodyFacts) : Except HErr (List (El T)) :=
  entriesEls tag doc (fs.flatMap (fun f => f.loans ++ f.moves))

/-- `points[key]` and `regions[key]`: the names for a key. -/
def tagsOf (es : List FactEntry) (key : Nat) : Option (Nat × Nat) :=
  (es.find? (fun e => e.key == key)).map (fun e => (e.refinerTag, e.regionTag))

/-- `showRegion` (misc.tsx:232-252): the elements that get the classes. -/
def highlighted {T : Type} [DecidableEq T] (tag : Nat → T) (els : List (El T)) (es : List FactEntry)
    (key : Option Nat) : List (El T) :=
  match key with
  | none => []
  | some k =>
    match tagsOf es k with
    | none => []
    | some (p, r) => els.filter (fun x => x.tag = tag p) ++ els.filter (fun x => x.tag = tag r)

end Verif.Frontend
