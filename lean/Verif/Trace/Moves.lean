import Verif.Trace.Props
/-!
# Which operands of a statement mark a variable as moved

Model of `collect_moves` (crates/aquascope/src/interpreter/step.rs:499-528) and of the match on the evaluated place in `handle_moves`
(step.rs:542-553), which were parameters of `Trace/Model`.

Simplifications.
* A statement or terminator is the list of its operands; `visit_operand` (step.rs:513-521) is called for each of them in order.
* `eval_place(..).as_mplace_or_local()` of miri: a place is memory if its variable lives in memory (it was borrowed, or is too big for a
  register) or if it is behind a pointer; else it is the variable, with an offset that is not looked at (step.rs:548).
* Evaluating a place does not fail.
* Without a frame, or at a place without location (step.rs:500-506), the list of operands is empty.
* Whether a variable lives in memory is asked after the step; it is a parameter of each step.
-/
namespace Verif.Trace

/-- A part of a place. -/
inductive Elem
  | deref
  | field (n : Nat)
  deriving DecidableEq, Repr

/-- A place. -/
structure MPlace where
  var : Nat
  elems : List Elem
  deriving DecidableEq, Repr

/-- An operand. -/
inductive Operand
  | copy (p : MPlace)
  | move (p : MPlace)
  | const
  deriving DecidableEq, Repr

/-- `CollectMoves` (step.rs:508-522). -/
def collectMoves : List Operand → List MPlace
  | [] => []
  | .move p :: os => p :: collectMoves os
  | _ :: os => collectMoves os

/-- `eval_place(..).as_mplace_or_local()` (step.rs:543-544). -/
def evalPlace (inMemory : Nat → Bool) (p : MPlace) : Moved :=
  if inMemory p.var || decide (Elem.deref ∈ p.elems) then .memory else .direct p.var

/-- `collect_moves` before and `handle_moves` after a machine step (step.rs:581-584). -/
def moveStep (inMemory : Nat → Bool) (mp : MovedPlaces) (n n' : Nat) (os : List Operand) : Option MovedPlaces :=
  handleMoves mp n n' ((collectMoves os).map (evalPlace inMemory))

/-! ## Specification -/

/-- The statement moves out of the variable or of a part of it that is in the variable itself, and the variable has no address. -/
def MovesFrom (inMemory : Nat → Bool) (os : List Operand) (l : Nat) : Prop :=
  inMemory l = false ∧ ∃ es, Operand.move ⟨l, es⟩ ∈ os ∧ Elem.deref ∉ es

theorem mem_collectMoves (p : MPlace) : ∀ os, p ∈ collectMoves os ↔ Operand.move p ∈ os
  | [] => by simp [collectMoves]
  | .move q :: os => by simp [collectMoves, mem_collectMoves p os]
  | .copy q :: os => by simp [collectMoves, mem_collectMoves p os]
  | .const :: os => by simp [collectMoves, mem_collectMoves p os]

theorem addMoves_sets {frame : Nat} : ∀ (ms : List Moved) {mp : MovedPlaces} {set : List Nat}, mp[frame]? = some set →
    ∃ mp' set', addMoves mp frame ms = some mp' ∧ mp'[frame]? = some set' ∧ (∀ l, l ∈ set' ↔ l ∈ set ∨ Moved.direct l ∈ ms) ∧
      mp'.length = mp.length ∧ ∀ j, j ≠ frame → mp'[j]? = mp[j]?
  | [], mp, set, h => ⟨mp, set, rfl, h, by simp, rfl, fun _ _ => rfl⟩
  | .memory :: ms, mp, set, h => by
    obtain ⟨mp', set', h1, h2, h3, h4⟩ := addMoves_sets ms h
    exact ⟨mp', set', h1, h2, fun l => by rw [h3]; simp, h4⟩
  | .direct x :: ms, mp, set, h => by
    have hlt := (List.getElem?_eq_some_iff.1 h).1
    have hx : (mp.set frame (x :: set))[frame]? = some (x :: set) := by rw [List.getElem?_set_self hlt]
    obtain ⟨mp', set', h1, h2, h3, h4, h5⟩ := addMoves_sets ms hx
    refine ⟨mp', set', ?_, h2, fun l => ?_, by rw [h4, List.length_set], fun j hj => ?_⟩
    · simp only [addMoves, addPlace, h]
      exact h1
    · rw [h3, List.mem_cons, List.mem_cons, Moved.direct.injEq]
      constructor
      · rintro ((h | h) | h)
        · exact .inr (.inl h)
        · exact .inl h
        · exact .inr (.inr h)
      · rintro (h | h | h)
        · exact .inl (.inr h)
        · exact .inl (.inl h)
        · exact .inr h
    · rw [h5 j hj, List.getElem?_set_ne (fun e => hj e.symm)]

/-- **C19 (a statement).** A statement that stays in its function marks exactly the variables that it moves out of, whole or in
part, that have no address; nothing is unmarked, and no other frame changes. -/
theorem C19_statement (inMemory : Nat → Bool) {mp : MovedPlaces} {n : Nat} {set : List Nat} (h : mp[n - 1]? = some set)
    (os : List Operand) : ∃ mp' set', moveStep inMemory mp n n os = some mp' ∧ mp'[n - 1]? = some set' ∧
      (∀ l, l ∈ set' ↔ l ∈ set ∨ MovesFrom inMemory os l) ∧ mp'.length = mp.length ∧ ∀ j, j ≠ n - 1 → mp'[j]? = mp[j]? := by
  obtain ⟨mp', set', h1, h2, h3, h4, h5⟩ := addMoves_sets ((collectMoves os).map (evalPlace inMemory)) h
  refine ⟨mp', set', ?_, h2, fun l => ?_, h4, h5⟩
  · simp [moveStep, handleMoves, h1]
  · rw [h3, List.mem_map]
    refine or_congr Iff.rfl ?_
    constructor
    · rintro ⟨p, hp, e⟩
      rw [mem_collectMoves] at hp
      unfold evalPlace at e
      split at e
      · exact Moved.noConfusion e
      · rename_i hq
        rw [Bool.or_eq_true, decide_eq_true_eq] at hq
        obtain ⟨v, es⟩ := p
        cases e
        exact ⟨Bool.eq_false_iff.2 fun q => hq (.inl q), es, hp, fun q => hq (.inr q)⟩
    · rintro ⟨hm, es, hp, hd⟩
      refine ⟨⟨l, es⟩, (mem_collectMoves _ _).2 hp, ?_⟩
      simp [evalPlace, hm, hd]

/-- **C19 is false: moves of a part.** Moving one field out of a variable without an address marks the whole variable. -/
theorem C19_part (inMemory : Nat → Bool) {mp : MovedPlaces} {n : Nat} {set : List Nat} (h : mp[n - 1]? = some set) {l : Nat}
    (hm : inMemory l = false) (f : Nat) : ∃ mp' set', moveStep inMemory mp n n [.move ⟨l, [.field f]⟩] = some mp' ∧
      mp'[n - 1]? = some set' ∧ l ∈ set' := by
  obtain ⟨mp', set', h1, h2, h3, -⟩ := C19_statement inMemory h [.move ⟨l, [.field f]⟩]
  exact ⟨mp', set', h1, h2, (h3 l).2 (.inr ⟨hm, [.field f], by simp, by simp⟩)⟩

/-- **C19 is false: variables in memory and calls, in general.** A variable that lives in memory is never marked by a statement; a
step that enters a function marks nothing at all. -/
theorem C19_unmarked (inMemory : Nat → Bool) {mp mp' : MovedPlaces} {n n' : Nat} {os : List Operand}
    (h : moveStep inMemory mp n n' os = some mp') {j l : Nat} {set set' : List Nat} (hs : mp[j]? = some set)
    (hs' : mp'[j]? = some set') (hl : l ∉ set) (hc : inMemory l = true ∨ n < n') : l ∉ set' := by
  unfold moveStep handleMoves at h
  split at h
  · cases h
    rw [pushFrame, List.getElem?_append_left (List.getElem?_eq_some_iff.1 hs).1, hs] at hs'
    cases hs'
    exact hl
  · rename_i hn
    have hm := hc.resolve_right hn
    split at h
    · cases h
      have := (List.getElem?_eq_some_iff.1 hs').1
      unfold popFrame at this hs'
      rw [List.length_dropLast] at this
      rw [List.getElem?_dropLast, if_pos this, hs] at hs'
      cases hs'
      exact hl
    · by_cases hj : n - 1 < mp.length
      · obtain ⟨mp'', set'', h1, h2, h3, h4, h5⟩ := addMoves_sets ((collectMoves os).map (evalPlace inMemory))
          (List.getElem?_eq_getElem hj)
        rw [h] at h1
        cases h1
        by_cases e : j = n - 1
        · subst e
          rw [h2] at hs'
          cases hs'
          rw [List.getElem?_eq_getElem hj] at hs
          cases hs
          rw [h3]
          rintro (q | q)
          · exact hl q
          · obtain ⟨p, -, e⟩ := List.mem_map.1 q
            unfold evalPlace at e
            split at e
            · exact Moved.noConfusion e
            · rename_i hq
              cases e
              exact hq (by simp [hm])
        · rw [h5 j e, hs] at hs'
          cases hs'
          exact hl
      · have key : ∀ ms : List Moved, ∀ mp', addMoves mp (n - 1) ms = some mp' → mp' = mp := by
          intro ms
          induction ms with
          | nil => intro mp' h; cases h; rfl
          | cons m ms ih =>
            intro mp' h
            cases m with
            | memory => exact ih mp' h
            | direct x =>
              simp only [addMoves, addPlace, List.getElem?_eq_none (Nat.le_of_not_lt hj)] at h
              exact absurd h (by simp)
        rw [key _ _ h, hs] at hs'
        cases hs'
        exact hl

/-- A field of variable 1 and all of variable 2 are moved, variable 3 is behind a pointer, variable 4 is copied, 5 is in memory. -/
example : moveStep (fun v => v == 5) [[9], []] 1 1
    [.move ⟨1, [.field 0]⟩, .move ⟨2, []⟩, .move ⟨3, [.deref]⟩, .copy ⟨4, []⟩, .const, .move ⟨5, []⟩] = some [[2, 1, 9], []] := by
  decide

end Verif.Trace
