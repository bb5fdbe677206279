import Verif.Story.Model
/-!
# Specification of the diagrams of an execution

An execution is seen as the story of the user's functions: a function visits places (a statement of its outermost
block, or its closing brace), one after the other; while it is at a place it works and calls other functions.
-/
namespace Verif.Story.Spec
open Verif.Cfg Verif.Mapper Verif.Trace.Spec

variable {σ E Vars Heap : Type}

/-! ## Stories -/

mutual
/-- What a function does while it is at one place. A state pair is the state before and after a machine step. -/
inductive Parts (σ : Type) where
  | done
  /-- one machine step in which no function of the user is entered or left -/
  | work (s s' : σ) (rest : Parts σ)
  /-- a function of the user is entered with the first step, and left with the second -/
  | call (s s' : σ) (callee : Nat) (body : Visits σ) (t t' : σ) (rest : Parts σ)
  /-- a function of the user is entered and the execution ends before it is left -/
  | ends (s s' : σ) (callee : Nat) (body : Visits σ)
/-- The places a function visits; `none` is a place in no statement. -/
inductive Visits (σ : Type) where
  | done
  | visit (place : Option Span) (parts : Parts σ) (rest : Visits σ)
end

/-- The functions of the user that are running, the innermost last, each with the place where it is. -/
abbrev CallStack := List (Nat × Option Span)

mutual
/-- The machine steps of a story. -/
def Parts.path : Parts σ → List (σ × σ)
  | .done => []
  | .work s s' rest => (s, s') :: rest.path
  | .call s s' _ body t t' rest => (s, s') :: (body.path ++ (t, t') :: rest.path)
  | .ends s s' _ body => (s, s') :: body.path
def Visits.path : Visits σ → List (σ × σ)
  | .done => []
  | .visit _ parts rest => parts.path ++ rest.path
end

/-! ## A story is true of a machine -/

/-- Where a machine location is: at a place where it is shown, or in no statement. -/
def PlaceOf (fns : Nat → Fn) (S : Spans) (l : MirLoc) : Option Span → Prop
  | some sp => ShownAt fns S l sp
  | none => ∃ loc, l.2 = .inl loc ∧ ¬AtBrace (fns l.1) loc ∧
      ¬∃ s, InBody (fns l.1).body loc ∧ RealLoc (fns l.1).body loc ∧ TopLevel (fns l.1).value s ∧
        Below (fns l.1).hir s ((fns l.1).hirOf loc)

/-- The frames are those of the call stack, each at its place. -/
def Are (fns : Nat → Fn) (S : Spans) (frames : List (Nat × Trace.Frame Nat (Loc ⊕ Span))) (us : CallStack) : Prop :=
  List.Forall₂ (fun f u => f.2.inst = u.1 ∧ PlaceOf fns S (f.2.inst, f.2.loc) u.2) frames us

/-- After the step the function `inst` is the innermost one, called from `outer`. If a function of a library is running
on its behalf, it is still at the place. -/
def After (m : Machine σ E Vars Heap) (fns : Nat → Fn) (S : Spans) (s' : σ) (outer : CallStack) (inst : Nat)
    (place : Option Span) : Prop :=
  ∃ lower i f, userFrames m s' = lower ++ [(i, f)] ∧ Are fns S lower outer ∧ f.inst = inst ∧
    (i + 1 ≠ (m.stack s').length → PlaceOf fns S (inst, f.loc) place)

/-- A step in which `inst`, called from `outer`, works at `place`: it was there before the step. -/
def Works (m : Machine σ E Vars Heap) (fns : Nat → Fn) (S : Spans) (outer : CallStack) (inst : Nat)
    (place : Option Span) (s s' : σ) : Prop :=
  (∃ lower j g, userFrames m s = lower ++ [(j, g)] ∧ lower.length = outer.length ∧ g.inst = inst ∧
    PlaceOf fns S (inst, g.loc) place) ∧ After m fns S s' outer inst place

/-- A step that enters `callee`, called from `outer`, whose header is shown at `head`. -/
def Enters (m : Machine σ E Vars Heap) (fns : Nat → Fn) (S : Spans) (outer : CallStack) (callee : Nat)
    (head : Span) (s s' : σ) : Prop :=
  (userFrames m s).length = outer.length ∧ ShownAt fns S (callee, m.header callee) head ∧
    ∃ lower i f, userFrames m s' = lower ++ [(i, f)] ∧ Are fns S lower outer ∧ f.inst = callee ∧
      i + 1 = (m.stack s').length

/-- A step that goes back to `inst`, called from `outer`, which is at `place`. -/
def Returns (m : Machine σ E Vars Heap) (fns : Nat → Fn) (S : Spans) (outer : CallStack) (inst : Nat)
    (place : Option Span) (s s' : σ) : Prop :=
  (∃ lower j g x, userFrames m s = lower ++ [(j, g), x] ∧ lower.length = outer.length ∧ g.inst = inst ∧
    PlaceOf fns S (inst, g.loc) place) ∧ After m fns S s' outer inst place

mutual
/-- The story of a visit of `inst` at `place`, called from `outer`, is true. `head` gives the place of a header. -/
def Parts.True (m : Machine σ E Vars Heap) (fns : Nat → Fn) (S : Spans) (head : Nat → Span) (outer : CallStack)
    (inst : Nat) (place : Option Span) : Parts σ → Prop
  | .done => _root_.True
  | .work s s' rest => Works m fns S outer inst place s s' ∧ rest.True m fns S head outer inst place
  | .call s s' callee body t t' rest =>
    Enters m fns S (outer ++ [(inst, place)]) callee (head callee) s s' ∧
      body.True m fns S head (outer ++ [(inst, place)]) callee ∧
      Returns m fns S outer inst place t t' ∧ rest.True m fns S head outer inst place
  | .ends s s' callee body =>
    Enters m fns S (outer ++ [(inst, place)]) callee (head callee) s s' ∧
      body.True m fns S head (outer ++ [(inst, place)]) callee
/-- The story of a function is true. -/
def Visits.True (m : Machine σ E Vars Heap) (fns : Nat → Fn) (S : Spans) (head : Nat → Span) (outer : CallStack)
    (inst : Nat) : Visits σ → Prop
  | .done => _root_.True
  | .visit place parts rest => parts.True m fns S head outer inst place ∧ rest.True m fns S head outer inst
end

/-- The story of a program: what happens before `main` is entered, the step that enters it, the story of `main`, and
what happens after (nothing if the execution ends inside `main`). -/
structure Program (σ : Type) where
  before : List (σ × σ)
  first : σ × σ
  main : Nat
  body : Visits σ
  after : List (σ × σ)

def Program.path (p : Program σ) : List (σ × σ) := p.before ++ p.first :: (p.body.path ++ p.after)

/-- The story of a program is true: before and after `main` no function of the user runs. -/
structure Program.True (m : Machine σ E Vars Heap) (fns : Nat → Fn) (S : Spans) (head : Nat → Span) (p : Program σ) :
    Prop where
  before : ∀ x ∈ p.before, userFrames m x.1 = [] ∧ userFrames m x.2 = []
  first : Enters m fns S [] p.main (head p.main) p.first.1 p.first.2
  body : p.body.True m fns S head [] p.main
  after : ∀ x ∈ p.after, (userFrames m x.1).length ≤ 1 ∧ userFrames m x.2 = []

/-! ## The diagrams of a story -/

mutual
/-- The stretches of a visit: the state at the end of each stretch of work that is not interrupted by a call, and for
every call the state on entering the function, followed by its stretches. `last` is the state in which the present
stretch has arrived. -/
def Parts.stretches (head : Nat → Span) (outer : CallStack) (inst : Nat) (place : Option Span) :
    Option σ → Parts σ → List (σ × CallStack)
  | last, .done => last.toList.map fun s => (s, outer ++ [(inst, place)])
  | _, .work _ s' rest => rest.stretches head outer inst place (some s')
  | last, .call _ s' callee body _ t' rest =>
    (last.toList.map fun s => (s, outer ++ [(inst, place)])) ++
      (s', outer ++ [(inst, place), (callee, some (head callee))]) ::
        (body.stretches head (outer ++ [(inst, place)]) callee ++
          rest.stretches head outer inst place (some t'))
  | last, .ends _ s' callee body =>
    (last.toList.map fun s => (s, outer ++ [(inst, place)])) ++
      (s', outer ++ [(inst, place), (callee, some (head callee))]) ::
        body.stretches head (outer ++ [(inst, place)]) callee
/-- The stretches of a function. -/
def Visits.stretches (head : Nat → Span) (outer : CallStack) (inst : Nat) : Visits σ → List (σ × CallStack)
  | .done => []
  | .visit place parts rest =>
    parts.stretches head outer inst place none ++ rest.stretches head outer inst
end

def Program.stretches (head : Nat → Span) (p : Program σ) : List (σ × CallStack) :=
  (p.first.2, [(p.main, some (head p.main))]) :: p.body.stretches head [] p.main

/-- Every function is at a place that can be shown. -/
def Seen (us : CallStack) : Bool := us.all (fun u => u.2.isSome)

/-- The diagram shows the state: the user's functions with their places and variables, and the heap. -/
def Shows (m : Machine σ E Vars Heap) (x : σ × CallStack) (d : Group.Step Span (Nat × Vars) Heap) : Prop :=
  d.heap = m.heap x.1 ∧ d.frames.length = x.2.length ∧ (userFrames m x.1).length = x.2.length ∧
  ∀ (k : Nat) (u : Nat × Option Span) (fr : Group.Frame Span (Nat × Vars)), x.2[k]? = some u → d.frames[k]? = some fr →
    u = (fr.payload.1, some fr.location) ∧
    ∃ i f, (userFrames m x.1)[k]? = some (i, f) ∧ f.inst = fr.payload.1 ∧ m.vars x.1 i = .ok fr.payload.2

/-- The place of the innermost function. -/
def top (x : σ × CallStack) : Option (Option Span) := x.2.getLast?.map (·.2)

/-- Of several stretches in a row at the same place of the innermost function the last one remains. -/
def joined : List (σ × CallStack) → List (σ × CallStack)
  | [] => []
  | [x] => [x]
  | x :: y :: rest => if top x = top y then joined (y :: rest) else x :: joined (y :: rest)

/-- Every stretch is at another place than the one before. -/
def Moving : List (σ × CallStack) → Prop
  | [] => _root_.True
  | [_] => _root_.True
  | x :: y :: rest => top x ≠ top y ∧ Moving (y :: rest)

/-! ## Counting -/

/-- The visit begins with work of the function itself. -/
def Parts.begins : Parts σ → Nat
  | .work .. => 1
  | _ => 0

mutual
/-- Functions entered during a visit. -/
def Parts.entered : Parts σ → Nat
  | .done => 0
  | .work _ _ rest => rest.entered
  | .call _ _ _ body _ _ rest => 1 + body.entered + rest.entered
  | .ends _ _ _ body => 1 + body.entered
def Visits.entered : Visits σ → Nat
  | .done => 0
  | .visit _ parts rest => parts.entered + rest.entered
end

mutual
/-- Returns to a function of the user during a visit. -/
def Parts.returned : Parts σ → Nat
  | .done => 0
  | .work _ _ rest => rest.returned
  | .call _ _ _ body _ _ rest => 1 + body.returned + rest.returned
  | .ends _ _ _ body => body.returned
def Visits.returned : Visits σ → Nat
  | .done => 0
  | .visit _ parts rest => parts.returned + rest.returned
end

mutual
/-- Visits of the functions called during a visit that begin with work. -/
def Parts.visits : Parts σ → Nat
  | .done => 0
  | .work _ _ rest => rest.visits
  | .call _ _ _ body _ _ rest => body.visits + rest.visits
  | .ends _ _ _ body => body.visits
/-- Visits that begin with work, of the function and of all functions called. -/
def Visits.visits : Visits σ → Nat
  | .done => 0
  | .visit _ parts rest => parts.begins + parts.visits + rest.visits
end

end Verif.Story.Spec
