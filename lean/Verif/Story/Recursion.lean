import Verif.Story.Demo
/-!
# C126: recursive functions
-/
namespace Verif.Story
open Verif.Cfg Verif.Mapper Verif.Trace.Spec Verif.Story.Spec

variable {σ E Vars Heap : Type}

/-! ## Specification -/

/-- One activation of a function that calls itself: the states before and after its work, the call and the return. -/
structure Level (σ : Type) where
  work : σ × σ
  call : σ × σ
  ret : σ × σ

/-- A function that calls itself from the statement `place`, like `if n == 0 { 1 } else { n * f(n - 1) }`: the activations
of `levels` each work and then call the next one, the last one only works; all return from this statement. -/
def recursion (inst : Nat) (place : Option Span) (last : σ × σ) : List (Level σ) → Parts σ
  | [] => .work last.1 last.2 .done
  | l :: ls => .work l.work.1 l.work.2 (.call l.call.1 l.call.2 inst
      (.visit place (recursion inst place last ls) .done) l.ret.1 l.ret.2 .done)

/-- The way down: for each activation its work, and the next one entered. -/
def down (head : Nat → Span) (inst : Nat) (place : Option Span) : CallStack → List (Level σ) → List (σ × CallStack)
  | _, [] => []
  | outer, l :: ls => (l.work.2, outer ++ [(inst, place)]) ::
      (l.call.2, outer ++ [(inst, place), (inst, some (head inst))]) ::
      down head inst place (outer ++ [(inst, place)]) ls

/-- The state after everything: the outermost activation has got its result. -/
def final (last : σ × σ) : List (Level σ) → σ
  | [] => last.2
  | l :: _ => l.ret.2

/-! ## Proof -/

theorem joined_snoc (xs : List (σ × CallStack)) (x y : σ × CallStack) (h : top x = top y) :
    joined (xs ++ [x, y]) = joined (xs ++ [y]) := by
  induction xs with
  | nil => simp [joined, h]
  | cons a xs ih =>
    cases xs with
    | nil =>
      simp only [List.cons_append, List.nil_append, joined, h, if_true]
    | cons b xs =>
      simp only [List.cons_append, joined] at ih ⊢
      rw [ih]

theorem top_snoc (s : σ) (outer : CallStack) (a : Nat × Option Span) : top (s, outer ++ [a]) = some a.2 := by
  simp [top]

theorem recursion_stretches (head : Nat → Span) (inst : Nat) (place : Option Span) (last : σ × σ) (ls : List (Level σ))
    (outer : CallStack) :
    ∃ xs, (recursion inst place last ls).stretches head outer inst place none =
      down head inst place outer ls ++ xs ++ [(final last ls, outer ++ [(inst, place)])] ∧
      ∀ x ∈ xs, top x = some place := by
  induction ls generalizing outer with
  | nil =>
    refine ⟨[], ?_, by simp⟩
    simp [recursion, Parts.stretches, down, final]
  | cons l ls ih =>
    obtain ⟨xs, h1, h2⟩ := ih (outer ++ [(inst, place)])
    refine ⟨xs ++ [(final last ls, outer ++ [(inst, place)] ++ [(inst, place)])], ?_, ?_⟩
    · simp only [recursion, Parts.stretches, Visits.stretches, h1, down, final]
      simp
    · intro x hx
      rcases List.mem_append.1 hx with hx | hx
      · exact h2 x hx
      · rw [List.mem_singleton.1 hx, top_snoc]

theorem joined_run (xs ys : List (σ × CallStack)) (y : σ × CallStack) (h : ∀ x ∈ ys, top x = top y) :
    joined (xs ++ ys ++ [y]) = joined (xs ++ [y]) := by
  induction ys generalizing xs with
  | nil => simp
  | cons a ys ih =>
    have h1 := ih (xs ++ [a]) (fun x hx => h x (List.mem_cons_of_mem _ hx))
    have h2 := joined_snoc xs a y (h a (List.mem_cons_self ..))
    simp only [List.append_assoc, List.cons_append, List.nil_append] at h1 h2 ⊢
    rw [h1, h2]

theorem down_moving (head : Nat → Span) (inst : Nat) (place : Option Span) (hne : some (head inst) ≠ place)
    (ls : List (Level σ)) (outer : CallStack) (y : σ × CallStack) (hy : top y = some place) :
    Moving (down head inst place outer ls ++ [y]) := by
  induction ls generalizing outer with
  | nil => simp [down, Moving]
  | cons l ls ih =>
    have hh : top (l.call.2, outer ++ [(inst, place), (inst, some (head inst))]) = some (some (head inst)) := by
      rw [append_pair, top_snoc]
    have ih := ih (outer ++ [(inst, place)])
    cases ls with
    | nil =>
      simp only [down, List.cons_append, List.nil_append, Moving, top_snoc, hh, hy, and_true]
      exact ⟨fun h => hne (Option.some.inj h).symm, fun h => hne (Option.some.inj h)⟩
    | cons l' ls =>
      simp only [down, List.cons_append, Moving, top_snoc, hh] at ih ⊢
      exact ⟨fun h => hne (Option.some.inj h).symm, fun h => hne (Option.some.inj h), ih⟩

/-- **C126** (the code does otherwise). When a function has called itself any number of times from one statement, all the
returns are one diagram: the way down is shown, then the outermost activation with its result. Neither the innermost
activation after its work nor any of the others with its result is shown, although the functions on the stack differ. -/
theorem C126_recursion (head : Nat → Span) (inst : Nat) (sp : Span) (hne : head inst ≠ sp) (last : σ × σ)
    (ls : List (Level σ)) (outer : CallStack) :
    joined ((recursion inst (some sp) last ls).stretches head outer inst (some sp) none) =
      down head inst (some sp) outer ls ++ [(final last ls, outer ++ [(inst, some sp)])] := by
  obtain ⟨xs, h1, h2⟩ := recursion_stretches head inst (some sp) last ls outer
  rw [h1, joined_run _ _ _ (fun x hx => by rw [h2 x hx, top_snoc])]
  exact joined_of_moving _ (down_moving head inst (some sp) (fun h => hne (Option.some.inj h)) ls outer _ (top_snoc ..))

/-- The stretches lost: as many as there are calls. -/
theorem C126_recursion_count (head : Nat → Span) (inst : Nat) (sp : Span) (hne : head inst ≠ sp) (last : σ × σ)
    (ls : List (Level σ)) (outer : CallStack) :
    ((recursion inst (some sp) last ls).stretches head outer inst (some sp) none).length =
      (joined ((recursion inst (some sp) last ls).stretches head outer inst (some sp) none)).length + ls.length := by
  rw [C126_recursion head inst sp hne]
  have hd : ∀ (ls : List (Level σ)) (outer : CallStack), (down head inst (some sp) outer ls).length = 2 * ls.length := by
    intro ls
    induction ls with
    | nil => intro _; rfl
    | cons l ls ih => intro o; simp only [down, List.length_cons, ih]; omega
  have hs : ∀ (ls : List (Level σ)) (outer : CallStack),
      ((recursion inst (some sp) last ls).stretches head outer inst (some sp) none).length = 3 * ls.length + 1 := by
    intro ls
    induction ls with
    | nil => intro _; simp [recursion, Parts.stretches]
    | cons l ls ih =>
      intro o
      simp only [recursion, Parts.stretches, Visits.stretches, List.length_append, List.length_cons, ih,
        Option.toList, List.map_cons, List.map_nil, List.length_nil]
      omega
  rw [hs, List.length_append, hd]
  simp
  omega

/-! ## A concrete execution

`main` (function 0) calls itself once from its first statement. -/

def recStack : Nat → List (Trace.Frame Nat (Loc ⊕ Span))
  | 1 => [demoStart, demoUser 0 0 0]
  | 2 => [demoStart, demoUser 0 0 1]
  | 3 => [demoStart, demoUser 0 0 1, demoUser 0 0 0]
  | 4 => [demoStart, demoUser 0 0 1, demoUser 0 0 1]
  | 5 => [demoStart, demoUser 0 1 0]
  | _ => [demoStart]

def recMachine : Machine Nat Unit Nat Nat :=
  { demoMachine with stack := recStack, next := fun n => .ok (n + 1, n < 5) }

/-- The state after the work of the inner activation, 4, is not shown. -/
example : interpret recMachine (fun _ => false) demoFns demoOrder demoSpans 10 0 = some
    { steps := [
        ⟨[⟨⟨100, 101⟩, (0, 11)⟩], 1⟩,
        ⟨[⟨⟨20, 25⟩, (0, 21)⟩], 2⟩,
        ⟨[⟨⟨20, 25⟩, (0, 31)⟩, ⟨⟨100, 101⟩, (0, 32)⟩], 3⟩,
        ⟨[⟨⟨20, 25⟩, (0, 51)⟩], 5⟩],
      result := none } := by decide +kernel

example : joined ((recursion 0 (some ⟨20, 25⟩) (3, 4) [⟨(1, 2), (2, 3), (4, 5)⟩]).stretches demoHead [] 0
    (some ⟨20, 25⟩) none) =
    [(2, [(0, some ⟨20, 25⟩)]), (3, [(0, some ⟨20, 25⟩), (0, some ⟨100, 101⟩)]), (5, [(0, some ⟨20, 25⟩)])] := by
  decide +kernel

end Verif.Story
