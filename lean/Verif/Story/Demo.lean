import Verif.Story.Props
/-!
# A concrete execution

`main` (function 0) has two statements and calls function 2, which has the same code, from the first.
-/
namespace Verif.Story
open Verif.Cfg Verif.Mapper Verif.Trace.Spec Verif.Story.Spec

/-- A frame of the user at a location, and the frame of the library that runs `main`. -/
def demoUser (i b k : Nat) : Trace.Frame Nat (Loc ⊕ Span) := ⟨i, true, .inl ⟨b, k⟩⟩
def demoStart : Trace.Frame Nat (Loc ⊕ Span) := ⟨9, false, .inl ⟨0, 0⟩⟩

def demoStack : Nat → List (Trace.Frame Nat (Loc ⊕ Span))
  | 1 => [demoStart, demoUser 0 0 0]
  | 2 => [demoStart, demoUser 0 0 1]
  | 3 => [demoStart, demoUser 0 0 1, demoUser 2 0 0]
  | 4 => [demoStart, demoUser 0 0 1, demoUser 2 1 0]
  | 5 => [demoStart, demoUser 0 0 1, demoUser 2 2 0]
  | 6 => [demoStart, demoUser 0 1 0]
  | 7 => [demoStart, demoUser 0 1 1]
  | 8 => [demoStart, demoUser 0 2 0]
  | _ => [demoStart]

def demoMachine : Machine Nat Unit Nat Nat where
  stack := demoStack
  next n := .ok (n + 1, n < 8)
  header i := .inr ⟨100 + i, 101 + i⟩
  vars n i := .ok (10 * n + i)
  heap n := n

def demoHead (i : Nat) : Span := ⟨100 + i, 101 + i⟩

def demoStory : Program Nat where
  before := []
  first := (0, 1)
  main := 0
  body :=
    .visit (some ⟨20, 25⟩)
      (.work 1 2 (.call 2 3 2
        (.visit (some ⟨20, 25⟩) (.work 3 4 .done) (.visit (some ⟨40, 45⟩) (.work 4 5 .done) .done)) 5 6 .done))
      (.visit (some ⟨40, 45⟩) (.work 6 7 (.work 7 8 .done)) .done)
  after := [(8, 9)]

/-- Seven diagrams: `main` entered, its first statement before the call, the function entered, its two statements, the
first statement of `main` after the call, and the second. -/
example : interpret demoMachine (fun _ => false) demoFns demoOrder demoSpans 10 0 = some
    { steps := [
        ⟨[⟨⟨100, 101⟩, (0, 11)⟩], 1⟩,
        ⟨[⟨⟨20, 25⟩, (0, 21)⟩], 2⟩,
        ⟨[⟨⟨20, 25⟩, (0, 31)⟩, ⟨⟨102, 103⟩, (2, 32)⟩], 3⟩,
        ⟨[⟨⟨20, 25⟩, (0, 41)⟩, ⟨⟨20, 25⟩, (2, 42)⟩], 4⟩,
        ⟨[⟨⟨20, 25⟩, (0, 51)⟩, ⟨⟨40, 45⟩, (2, 52)⟩], 5⟩,
        ⟨[⟨⟨20, 25⟩, (0, 61)⟩], 6⟩,
        ⟨[⟨⟨40, 45⟩, (0, 81)⟩], 8⟩],
      result := none } := by decide +kernel

theorem demo_shownAt (l : MirLoc) (sp : Span) (h : both demoFns demoOrder demoSpans l = some sp) :
    ShownAt demoFns demoSpans l sp := (shownAt_iff demo_wellFormed demoSpans l sp).1 h

/-- The story is true of the machine. -/
theorem demo_true : demoStory.True demoMachine demoFns demoSpans demoHead where
  before := by intro x hx; simp [demoStory] at hx
  first := ⟨rfl, demo_shownAt _ _ (by decide +kernel), [], 1, _, rfl, .nil, rfl, rfl⟩
  after := by
    intro x hx
    simp only [demoStory, List.mem_singleton] at hx
    subst hx
    exact ⟨by decide, rfl⟩
  body := by
    have h1 : ShownAt demoFns demoSpans (0, .inl ⟨0, 0⟩) ⟨20, 25⟩ := demo_shownAt _ _ (by decide +kernel)
    have h2 : ShownAt demoFns demoSpans (0, .inl ⟨0, 1⟩) ⟨20, 25⟩ := demo_shownAt _ _ (by decide +kernel)
    have h3 : ShownAt demoFns demoSpans (2, .inl ⟨0, 0⟩) ⟨20, 25⟩ := demo_shownAt _ _ (by decide +kernel)
    have h4 : ShownAt demoFns demoSpans (2, .inl ⟨1, 0⟩) ⟨40, 45⟩ := demo_shownAt _ _ (by decide +kernel)
    have h5 : ShownAt demoFns demoSpans (0, .inl ⟨1, 0⟩) ⟨40, 45⟩ := demo_shownAt _ _ (by decide +kernel)
    have h6 : ShownAt demoFns demoSpans (0, .inl ⟨1, 1⟩) ⟨40, 45⟩ := demo_shownAt _ _ (by decide +kernel)
    have below : Are demoFns demoSpans [(1, demoUser 0 0 1)] [(0, some ⟨20, 25⟩)] := .cons ⟨rfl, h2⟩ .nil
    simp only [demoStory, Visits.True, Parts.True, and_true]
    refine ⟨⟨?_, ?_, ⟨?_, ?_⟩, ?_⟩, ?_, ?_⟩
    · exact ⟨⟨[], 1, _, rfl, rfl, rfl, h1⟩, [], 1, _, rfl, .nil, rfl, fun h => absurd rfl h⟩
    · exact ⟨rfl, demo_shownAt _ _ (by decide +kernel), [(1, demoUser 0 0 1)], 2, _, rfl, below, rfl, rfl⟩
    · exact ⟨⟨[(1, demoUser 0 0 1)], 2, _, rfl, rfl, rfl, h3⟩, [(1, demoUser 0 0 1)], 2, _, rfl, below, rfl,
        fun h => absurd rfl h⟩
    · exact ⟨⟨[(1, demoUser 0 0 1)], 2, _, rfl, rfl, rfl, h4⟩, [(1, demoUser 0 0 1)], 2, _, rfl, below, rfl,
        fun h => absurd rfl h⟩
    · exact ⟨⟨[], 1, _, _, rfl, rfl, rfl, h2⟩, [], 1, _, rfl, .nil, rfl, fun h => absurd rfl h⟩
    · exact ⟨⟨[], 1, _, rfl, rfl, rfl, h5⟩, [], 1, _, rfl, .nil, rfl, fun h => absurd rfl h⟩
    · exact ⟨⟨[], 1, _, rfl, rfl, rfl, h6⟩, [], 1, _, rfl, .nil, rfl, fun h => absurd rfl h⟩

/-- The hypotheses of `C126_exact_partial` hold of it, and there are seven stretches. -/
example : ∃ fuel out, interpret demoMachine (fun _ => false) demoFns demoOrder demoSpans fuel 0 = some out ∧
    out.result = none ∧ out.steps.length = 7 := by
  have hx : Exec demoMachine.next 0 demoStory.path .finished :=
    .step rfl (.step rfl (.step rfl (.step rfl (.step rfl (.step rfl (.step rfl (.step rfl (.done rfl))))))))
  obtain ⟨fuel, out, h1, h2, h3⟩ := C126_exact_partial demoMachine (fun _ => false) demoFns demoOrder demo_wellFormed demoSpans
    demoHead demoStory demo_true 0 .finished hx (fun _ _ f _ => ⟨_, rfl⟩) none rfl (by decide +kernel)
    (by simp [demoStory, Program.stretches, Visits.stretches, Parts.stretches, Moving, top, demoHead])
  exact ⟨fuel, out, h1, h2, by rw [← forall₂_length h3, C126_count]; rfl⟩

end Verif.Story
