import Verif.Pipeline.Recorded
import Verif.Overlap.Model
/-!
# The repository's tests of permissions

The programs in `crates/aquascope/tests/refinement` say which permissions a place has where it is used
(`test_refinements_in_file`, test_utils.rs:213-295): at the start of the location that borrows or moves the place, whether
its variable is live or not.  Here they are written down as lists of statements, and the model is asked for the same
permissions: declared maxima, conflicts of places, moves, initialisation and loans.  `#guard` evaluates; these are tests, not
proofs.

What is written by hand: the statements, without those that only concern temporaries, and in which variables a loan is
kept.  Left out are `mut_ref_0` (its places are those of a call to `index_mut`), `refine_field_2` and `refine_match_0`.
-/
namespace Verif.Pipeline.Refinements

open Verif.Permissions

/-- A statement. -/
inductive Instr where
  /-- a new value for a variable, made from others -/
  | set (v : Nat) (uses : List Nat)
  /-- a new value for a place -/
  | setPart (p : Place)
  /-- a variable gets the value of a place -/
  | move (v : Nat) (p : Place)
  /-- a borrow of a place; the loan lives as long as one of the variables is of use -/
  | borrow (v : Nat) (isMut : Bool) (p : Place) (carriers : List Nat)
  | use (vs : List Nat)
  /-- `let _a = &p`, with the expected permissions -/
  | check (p : Place) (perms : String)
  /-- `let _a = p`, which moves it -/
  | checkMove (p : Place) (perms : String)

structure Prog where
  /-- type of each variable and whether it is declared `mut` -/
  vars : List (Ty × Bool)
  args : List Nat
  places : List Place
  /-- the types of the fields of structs -/
  fields : Nat → Nat → Ty := fun _ _ => .other 0
  code : List Instr

/-- `impl From<&str> for Permissions` (test_utils.rs:68-80) -/
def parse (s : String) : Perms :=
  let l := s.toList.map Char.toLower
  ⟨l.contains 'r', l.contains 'w', l.contains 'd' || l.contains 'o'⟩

def Prog.decls (p : Prog) : Decls :=
  ⟨fun v => ((p.vars[v]?).map (·.1)).getD (.other 0), fun v => ((p.vars[v]?).map (·.2)).getD false⟩

def Prog.kind (p : Prog) : Ty → Overlap.Kind Ty
  | .ref m t => .ref (!m) t
  | .ptr _ t => .ref false t
  | .box t => .ref false t
  | .adt id _ => .struct (p.fields id)
  | .array t => .slice t
  | .other _ => .leaf

def proj : Elem → Overlap.Proj
  | .deref => .deref
  | .field i _ => .field i
  | .index l => .index l
  | .constantIndex o => .constantIndex o 0 false
  | .subslice a b => .subslice a b false
  | .downcast v => .downcast v

def Prog.conflict (p : Prog) (a b : Place) : Bool :=
  ((Overlap.placesConflict ⟨p.kind, p.decls.ty⟩ ⟨a.local_, a.projection.map proj⟩ ⟨b.local_, b.projection.map proj⟩).getD false)

def within (part whole : Place) : Bool :=
  part.local_ == whole.local_ && whole.projection.isPrefixOf part.projection

def Instr.moved : Instr → List Place
  | .move _ p | .checkMove p _ => [p]
  | _ => []

def Instr.assigned : Instr → List Place
  | .set v _ | .move v _ | .borrow v _ _ _ => [⟨v, []⟩]
  | .setPart p => [p]
  | _ => []

def Instr.uses : Instr → List Nat
  | .set _ us | .use us => us
  | .move _ p | .borrow _ _ p _ | .check p _ | .checkMove p _ => [p.local_]
  | .setPart p => if p.projection.contains .deref then [p.local_] else []

def Prog.idx (p : Prog) (x : Place) : Nat := p.places.findIdx (· = x)

/-- Move paths: variables, what is moved or assigned, and what they are parts of. -/
def Prog.known (p : Prog) (x : Place) : Bool :=
  x.projection.isEmpty || p.code.any fun c => (c.moved ++ c.assigned).any fun y => within y x && !y.projection.contains .deref

def Prog.knownAll (p : Prog) : List Place := p.places.filter p.known

def Prog.edges (p : Prog) : List (Nat × Nat) := (List.range (2 * p.code.length - 1)).map fun n => (n, n + 1)

def Prog.acts (p : Prog) : List (Nat × Instr) := p.code.zipIdx.map fun x => (2 * x.2, x.1)

def Prog.live (p : Prog) : List (Nat × Nat) :=
  let edges := p.edges
  let acts := p.acts
  Recorded.grow (fun s => s.flatMap fun x => (edges.filter fun e =>
      e.2 = x.1 && !(acts.any fun a => a.1 + 1 = e.1 && a.2.assigned.contains ⟨x.2, []⟩)).map fun e => (e.1, x.2)) 200
    (acts.flatMap fun a => a.2.uses.map fun v => (a.1 + 1, v))

/-- The loans, in order: borrowed place, whether mutable, the middle of its location, carriers. -/
def Prog.loans (p : Prog) : List (Place × Bool × Nat × List Nat) :=
  p.acts.filterMap fun a => match a.2 with
    | .borrow _ m x cs => some (x, m, a.1 + 1, cs)
    | _ => none

/-- A loan lives on while one of its carriers is of use and the borrowed place is not assigned (`killed`). -/
def Prog.loanLive (p : Prog) : List (Nat × Nat) :=
  let live := p.live
  let edges := p.edges
  let acts := p.acts
  p.loans.zipIdx.flatMap fun (x, k) =>
    let ok := fun q => x.2.2.2.any fun v => live.contains (q, v)
    let kills := fun q => acts.any fun a => a.1 + 1 = q && a.2.assigned.any fun y => within x.1 y
    Recorded.grow (fun s => s.flatMap fun y => (edges.filter fun e => e.1 = y.2 && !kills e.1 && ok e.2).map
      fun e => (k, e.2)) 200 ((edges.filter fun e => e.1 = x.2.2.1 && ok e.2).map fun e => (k, e.2))

def Prog.uninit (p : Prog) : List (Nat × Nat) :=
  let edges := p.edges
  let acts := p.acts
  p.knownAll.flatMap fun x =>
    let sets := fun q => acts.any fun a => a.1 + 1 = q && a.2.assigned.any fun y => within x y
    Recorded.grow (fun s => s.flatMap fun y => (edges.filter fun e => e.1 = y.1 && !sets e.2).map fun e => (e.2, p.idx x)) 200
      ((if p.args.contains x.local_ then [] else [(0, p.idx x)]) ++
        (acts.filter fun a => a.2.moved.any fun y => within x y).map fun a => (a.1 + 1, p.idx x))

def Prog.input (p : Prog) : Facts.Input :=
  let edges := p.edges
  let uninit := p.uninit
  let known := p.knownAll
  let acts := p.acts
  let loans := p.loans
  let loanLive := p.loanLive
  let live := p.live
  let assigned := acts.flatMap fun a => (a.2.assigned.filter known.contains).map fun x => (p.idx x, a.1 + 1)
  let table := p.places.map fun x => p.places.map fun y => p.conflict x y
  { cfgEdge := edges
    uninitExit := uninit
    childPath := known.filterMap fun x =>
      if x.projection.isEmpty then none else some (p.idx x, p.idx ⟨x.local_, x.projection.dropLast⟩)
    moves := acts.flatMap fun a => a.2.moved.map fun x => (p.idx x, a.1)
    interior := fun k => match p.places[k]? with
      | none => []
      | some x => (p.places.filter fun y => within y x).map p.idx
    parents := fun k => match p.places[k]? with
      | none => []
      | some x => (known.filter fun y => within x y && y != x).map p.idx
    assigned := assigned
    conflict := fun a b => ((table[a]?).bind (·[b]?)).getD false
    issued := List.range loans.length
    borrowed := fun k => ((loans[k]?).map fun x => p.idx x.1).getD 1000
    isMutLoan := fun k => ((loans[k]?).map fun x => x.2.1).getD false
    loanLive := loanLive
    paths := List.range p.places.length
    varLive := live
    varOf := fun k => ((p.places[k]?).map (·.local_)).getD 0
    writeEnabled := fun k => ((p.places[k]?).map (writeEnabled p.decls)).getD false
    dropEnabled := fun k => ((p.places[k]?).map (dropEnabled p.decls)).getD false
    copyable := fun _ => false }

/-- The expected and the computed permissions, for each annotation. -/
def Prog.results (p : Prog) : Option (List (Perms × Perms)) :=
  let i := p.input
  (Facts.derive 1000 i).map fun o => p.acts.filterMap fun a => match a.2 with
    | .check x s | .checkMove x s => some (parse s, (Facts.dataAtPoint i o (p.idx x) a.1).permissionsIgnoreLiveness)
    | _ => none

/-- All annotations hold, and there are `n` of them. -/
def Prog.passes (p : Prog) (n : Nat) : Bool := match p.results with
  | none => false
  | some rs => rs.length == n && rs.all fun r => r.1 == r.2

def string : Ty := .adt 100 false
def vec : Ty := .adt 101 false
def int : Ty := .other 1
def var (v : Nat) : Place := ⟨v, []⟩
def deref (v : Nat) : Place := ⟨v, [.deref]⟩

/-! `t` is variable 1, `s` variable 2; `t` is a pair of strings. -/

def fst (v : Nat) : Place := ⟨v, [.field 0 string]⟩
def snd (v : Nat) : Place := ⟨v, [.field 1 string]⟩

def pair : Ty := .adt 0 false
def fieldsOf : Nat → Nat → Ty
  | 0, _ => string
  | _, _ => int

def interiorMove : Prog where
  vars := [(int, true), (pair, true), (string, false)]
  args := []
  fields := fieldsOf
  places := [var 0, var 1, fst 1, snd 1, var 2]
  code := [.use [], .set 1 [], .move 2 (fst 1), .check (var 1) "---", .check (fst 1) "---", .check (snd 1) "RWO",
    .check (var 2) "R-O", .checkMove (var 2) "R-O", .check (var 2) "---", .setPart (fst 1), .check (var 1) "RWO",
    .check (fst 1) "RWO", .check (snd 1) "RWO", .checkMove (var 1) "RWO", .use []]

#guard interiorMove.passes 10

def refineField0 : Prog where
  vars := [(int, true), (pair, true), (.ref true string, false)]
  args := []
  fields := fieldsOf
  places := [var 0, var 1, fst 1, snd 1, var 2, deref 2]
  code := [.use [], .set 1 [], .borrow 2 true (fst 1) [2], .check (var 2) "R-D", .check (deref 2) "RW-",
    .check (var 1) "---", .check (fst 1) "---", .check (snd 1) "RWD", .use [2], .check (var 1) "RWD", .use []]

#guard refineField0.passes 6

/-- The borrow of `both` for the call is kept in the result. -/
def refineField1 : Prog where
  vars := [(int, true), (pair, true), (.ref true string, false), (.ref true pair, false)]
  args := []
  fields := fieldsOf
  places := [var 0, var 1, fst 1, snd 1, var 2, deref 2, var 3]
  code := [.use [], .set 1 [], .borrow 3 true (var 1) [3, 2], .set 2 [3], .check (var 2) "R-D", .check (deref 2) "RW-",
    .check (var 1) "---", .check (fst 1) "---", .check (snd 1) "---", .use [2], .use [2],
    .check (var 1) "RWD", .check (fst 1) "RWD", .check (snd 1) "RWD", .use []]

#guard refineField1.passes 8

def refineField3 : Prog where
  vars := [(int, true), (pair, true), (string, true)]
  args := []
  fields := fieldsOf
  places := [var 0, var 1, fst 1, snd 1, var 2]
  code := [.use [], .set 1 [], .move 2 (fst 1), .check (var 2) "RWD", .check (var 1) "---", .check (fst 1) "---",
    .check (snd 1) "RWD", .use [2], .check (var 1) "---", .check (fst 1) "---", .check (snd 1) "RWD", .setPart (fst 1),
    .check (var 1) "RWD", .check (fst 1) "RWD", .check (snd 1) "RWD", .use [1], .use []]

#guard refineField3.passes 10

/-- `v` is variable 1, the reference to it variable 2. -/
def vecProg (isMut refMut : Bool) (code : List Instr) : Prog where
  vars := [(int, true), (vec, isMut), (.ref refMut vec, false)]
  args := []
  places := [var 0, var 1, var 2, deref 2]
  code := [.use [], .set 1 []] ++ code ++ [.use []]

#guard (vecProg true false [.borrow 2 false (var 1) [2], .check (var 1) "R", .use [2]]).passes 1
#guard (vecProg true true [.borrow 2 true (var 1) [2], .check (var 1) "-", .use [2], .check (var 1) "RWD"]).passes 2
#guard (vecProg true false [.check (var 1) "RWD", .borrow 2 false (var 1) [2], .check (var 2) "R-D", .check (deref 2) "R--",
  .check (var 1) "R--", .use [2], .check (var 1) "RWD"]).passes 5
#guard (vecProg false false [.check (var 1) "R-D", .borrow 2 false (var 1) [2], .check (var 2) "R-D", .check (deref 2) "R--",
  .check (var 1) "R--", .use [2], .check (var 1) "R-D"]).passes 5

#guard (vecProg true false [.checkMove (var 1) "RWD"]).passes 1
#guard (vecProg false false [.checkMove (var 1) "RD"]).passes 1

/-- `let v = &mut vec![1]; let a = &mut *v; let _a = v;` -/
def maxPerms2 : Prog where
  vars := [(int, true), (vec, false), (.ref true vec, false)]
  args := []
  places := [var 0, var 1, var 2, deref 2]
  code := [.use [], .set 1 [], .borrow 2 true (var 1) [2], .check (deref 2) "RW", .checkMove (var 2) "RD", .use []]

#guard maxPerms2.passes 2

/-- `z`, `x`, `y` are the variables 1, 2, 3. -/
def refineBasic (code : List Instr) : Prog where
  vars := [(int, true), (int, true), (.ref true int, false), (.ref false int, false)]
  args := []
  places := [var 0, var 1, var 2, deref 2, var 3, deref 3]
  code := [.use [], .set 1 [], .check (var 1) "RWD", .borrow 2 true (var 1) [2, 3], .check (var 1) "---",
    .check (var 2) "R-D", .check (deref 2) "RW-", .borrow 3 false (deref 2) [3], .check (var 1) "---",
    .check (var 2) "R--", .check (deref 2) "R--", .check (var 3) "R-D", .check (deref 3) "R--"] ++ code ++
    [.use [2, 3], .use []]

#guard (refineBasic []).passes 9

/-- The assignment of `*x` ends the loan although `y` is of use. -/
def refineBasic5 : Prog :=
  refineBasic [.setPart (deref 2), .check (var 1) "---", .check (var 2) "R-D", .check (deref 2) "RW-",
    .check (var 3) "R-D", .check (deref 3) "R--"]

#guard refineBasic5.passes 14

/-- `let s = *b; let _a = s;` with `b: Box<String>` -/
def moveOutOfBox : Prog where
  vars := [(int, true), (.box string, false), (string, false)]
  args := [1]
  places := [var 0, var 1, deref 1, var 2]
  code := [.use [], .move 2 (deref 1), .checkMove (var 2) "R-D", .use []]

#guard moveOutOfBox.passes 1

/-- The struct has a destructor, so that its parts cannot be moved and rustc records no such moves. -/
def structWithDtor : Prog where
  vars := [(int, true), (.adt 0 true, false), (string, false)]
  args := [1]
  fields := fieldsOf
  places := [var 0, var 1, fst 1, snd 1, var 2]
  code := [.use [], .check (fst 1) "R--", .check (snd 1) "R--", .checkMove (var 1) "R-D", .use []]

#guard structWithDtor.passes 3

end Verif.Pipeline.Refinements
