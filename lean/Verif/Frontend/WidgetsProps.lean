import Verif.Frontend.Widgets
/-!
# C94: a new answer replaces what is shown
-/
namespace Verif.Frontend.Widgets

variable {W C T B : Type}

/-- The widget occurs in an answer of the history. -/
def Given (es : List (Event W)) (w : W) : Prop := ∃ new, Event.set new ∈ es ∧ ∃ p, (p, w) ∈ new

theorem run_append (eq : W → W → Bool) (draw : W → C) (es : List (Event W)) (e : Event W) :
    run eq draw (es ++ [e]) = update eq draw (run eq draw es) e := by
  simp [run]

/-- Induction over a history from its end. -/
theorem history_induction {P : List (Event W) → Prop} (h0 : P []) (h1 : ∀ es e, P es → P (es ++ [e])) : ∀ es, P es := by
  intro es
  have : ∀ n (es : List (Event W)), es.length = n → P es := by
    intro n
    induction n with
    | zero => intro es h; rw [List.length_eq_zero_iff.1 h]; exact h0
    | succ n ih =>
      intro es h
      have hne : es ≠ [] := by rintro rfl; simp at h
      rw [← List.dropLast_concat_getLast hne]
      exact h1 _ _ (ih _ (by simp [h]))
  exact this _ es rfl

/-- **C94.** After an answer there are widgets exactly for this answer, at its positions. -/
theorem C94_places (eq : W → W → Bool) (draw : W → C) (es : List (Event W)) (new : List (Nat × W)) :
    (run eq draw (es ++ [.set new])).map (fun i => (i.pos, i.widget)) = new := by
  rw [run_append]
  simp only [update, List.map_map]
  exact List.map_id new

/-- Everything shown was drawn for a widget of the history, and the widget in its place is equal to that one, step by
step. -/
theorem dom_from (eq : W → W → Bool) (hr : ∀ a, eq a a = true) (htr : ∀ a b c, eq a b = true → eq b c = true → eq a c = true)
    (draw : W → C) : ∀ es, ∀ i ∈ run eq draw es, Given es i.widget ∧ ∃ w, Given es w ∧ eq w i.widget = true ∧ i.dom = draw w := by
  apply history_induction
  · intro i hi; simp [run] at hi
  · intro es e ih i hi
    have mono : ∀ w, Given es w → Given (es ++ [e]) w := by
      rintro w ⟨new, h1, h2⟩; exact ⟨new, List.mem_append_left _ h1, h2⟩
    rw [run_append] at hi
    cases e with
    | edit map =>
      simp only [update, List.mem_filterMap, Option.map_eq_some_iff] at hi
      obtain ⟨j, hj, p, -, rfl⟩ := hi
      obtain ⟨h1, w, h2, h3, h4⟩ := ih j hj
      exact ⟨mono _ h1, w, mono _ h2, h3, h4⟩
    | set new =>
      simp only [update, List.mem_map] at hi
      obtain ⟨n, hn, rfl⟩ := hi
      have hg : Given (es ++ [.set new]) n.2 := ⟨new, by simp, n.1, hn⟩
      refine ⟨hg, ?_⟩
      dsimp only
      unfold element
      split
      · rename_i j hj
        have hp := List.find?_some hj
        have hm := List.mem_of_find?_eq_some hj
        simp only [Bool.and_eq_true] at hp
        obtain ⟨-, w, h2, h3, h4⟩ := ih j hm
        exact ⟨w, mono _ h2, htr _ _ _ h3 hp.2, h4⟩
      · exact ⟨n.2, hg, hr _, rfl⟩

/-- **C94 (partial).** A step table shown was computed for the line of the widget, in this or an earlier answer. It is the
table of the latest answer if the answers agree about this line. -/
theorem C94_steps_partial (es : List (Event (StepW T))) (new : List (Nat × StepW T)) (i : Item (StepW T) T)
    (hi : i ∈ runSteps (es ++ [.set new]))
    (hs : ∀ w, Given es w → w.line = i.widget.line → w.tables = i.widget.tables)  :
    (i.pos, i.widget) ∈ new ∧ i.dom = i.widget.tables := by
  refine ⟨?_, ?_⟩
  · rw [← C94_places StepW.eq StepW.tables es new]
    exact List.mem_map.2 ⟨i, hi, rfl⟩
  · unfold runSteps at hi
    rw [run_append] at hi
    simp only [update, List.mem_map] at hi
    obtain ⟨n, hn, rfl⟩ := hi
    dsimp only at hs ⊢
    unfold element
    split
    · rename_i j hj
      have hp := List.find?_some hj
      have hm := List.mem_of_find?_eq_some hj
      simp only [Bool.and_eq_true, StepW.eq, beq_iff_eq] at hp
      obtain ⟨-, w, h2, h3, h4⟩ := dom_from (StepW.eq (T := T)) (by simp [StepW.eq])
        (by intro a b c h1 h2; simp only [StepW.eq, beq_iff_eq] at *; omega) StepW.tables es j hm
      simp only [StepW.eq, beq_iff_eq] at h3
      rw [h4]
      exact hs w h2 (h3.trans hp.2)
    · rfl

/-- **C94.** In particular the first answer, and the steps of lines that had none before, are shown as computed. -/
theorem C94_new_line (es : List (Event (StepW T))) (new : List (Nat × StepW T)) (i : Item (StepW T) T)
    (hi : i ∈ runSteps (es ++ [.set new])) (hs : ∀ w, Given es w → w.line ≠ i.widget.line) :
    i.dom = i.widget.tables :=
  (C94_steps_partial es new i hi (fun w hw h => absurd h (hs w hw))).2

/-- **C94.** The boundaries shown are always those of the latest answer: each answer comes with its own location
objects. -/
theorem C94_boundaries (es : List (Event (BoundW B))) (new : List (Nat × BoundW B)) (i : Item (BoundW B) B)
    (hid : ∀ w w', Given (es ++ [.set new]) w → Given (es ++ [.set new]) w' → w.location = w'.location → w.boundary = w'.boundary)
    (hi : i ∈ runBounds (es ++ [.set new])) : (i.pos, i.widget) ∈ new ∧ i.dom = i.widget.boundary := by
  refine ⟨?_, ?_⟩
  · rw [← C94_places BoundW.eq BoundW.boundary es new]
    exact List.mem_map.2 ⟨i, hi, rfl⟩
  · obtain ⟨h1, w, h2, h3, h4⟩ := dom_from (BoundW.eq (B := B)) (by simp [BoundW.eq])
      (by intro a b c h1 h2; simp only [BoundW.eq, beq_iff_eq] at *; omega) BoundW.boundary _ i hi
    rw [h4]
    exact hid w _ h2 h1 (by simpa [BoundW.eq] using h3)

/-- **C94** (the code does otherwise): if a line has a step table and the next answer has a table for the same line at
the same position, the old table stays, whatever the new one is. -/
theorem C94_stale (es : List (Event (StepW T))) (new : List (Nat × StepW T)) (i : Item (StepW T) T) (t : T)
    (hone : ∀ j ∈ runSteps es, j.pos = i.pos → j = i) (hi : i ∈ runSteps es) (hn : (i.pos, ⟨i.widget.line, t⟩) ∈ new) :
    ⟨i.pos, ⟨i.widget.line, t⟩, i.dom⟩ ∈ runSteps (es ++ [.set new]) := by
  have hr : runSteps (es ++ [.set new]) = update StepW.eq StepW.tables (runSteps es) (.set new) := run_append ..
  rw [hr]
  simp only [update, List.mem_map]
  refine ⟨_, hn, ?_⟩
  simp only [Item.mk.injEq, true_and]
  unfold element
  cases hf : (runSteps es).find? (fun j => j.pos == i.pos && StepW.eq j.widget ⟨i.widget.line, t⟩) with
  | none =>
    have := List.find?_eq_none.1 hf i hi
    simp [StepW.eq] at this
  | some j =>
    have hp := List.find?_some hf
    simp only [Bool.and_eq_true, beq_iff_eq] at hp
    rw [hone j (List.mem_of_find?_eq_some hf) hp.1]

/-- **C94** (the code does otherwise): the first table of a line stays for any number of answers. -/
theorem C94_stale_forever (p line : Nat) (t : T) (ts : List T) :
    (runSteps ((t :: ts).map fun x => .set [(p, ⟨line, x⟩)])).map (·.dom) = [t] := by
  have : ∀ (ts : List T) (w : StepW T), w.line = line →
      ((ts.map fun x => Event.set [(p, (⟨line, x⟩ : StepW T))]).foldl (update StepW.eq StepW.tables) [⟨p, w, t⟩]).map
        (·.dom) = [t] := by
    intro ts
    induction ts with
    | nil => intro w _; rfl
    | cons x ts ih =>
      intro w hw
      simp only [List.map_cons, List.foldl_cons]
      have : update StepW.eq StepW.tables [⟨p, w, t⟩] (.set [(p, ⟨line, x⟩)]) = [⟨p, ⟨line, x⟩, t⟩] := by
        simp [update, element, StepW.eq, hw]
      rw [this]
      exact ih _ rfl
  exact this ts ⟨line, t⟩ rfl

/-- **C94.** An edit moves the widgets with the text, removes those in deleted pieces, and changes nothing else. -/
theorem C94_edit (eq : W → W → Bool) (draw : W → C) (es : List (Event W)) (map : Nat → Option Nat) (i : Item W C) :
    i ∈ run eq draw (es ++ [.edit map]) ↔ ∃ q, map q = some i.pos ∧ ⟨q, i.widget, i.dom⟩ ∈ run eq draw es := by
  rw [run_append]
  simp only [update, List.mem_filterMap, Option.map_eq_some_iff]
  constructor
  · rintro ⟨j, hj, p, hp, rfl⟩; exact ⟨j.pos, hp, hj⟩
  · rintro ⟨q, hq, hj⟩; exact ⟨_, hj, i.pos, hq, rfl⟩

/-- Three answers, an edit before the second that moves the widget of line 2: line 1 keeps its first table, line 2 gets
the second table since it is at another place, and keeps it. -/
example : (runSteps [.set [(10, ⟨1, 'a'⟩), (20, ⟨2, 'b'⟩)], .edit (fun p => if p < 15 then some p else some (p + 1)),
      .set [(10, ⟨1, 'c'⟩), (30, ⟨2, 'd'⟩)], .set [(10, ⟨1, 'e'⟩), (30, ⟨2, 'f'⟩)]]).map (·.dom) = ['a', 'd'] := by
  decide +kernel

/-- The same answers as boundaries, with fresh location objects. -/
example : (runBounds [.set [(10, ⟨1, 'a'⟩), (20, ⟨2, 'b'⟩)], .set [(10, ⟨3, 'c'⟩), (30, ⟨4, 'd'⟩)]]).map (·.dom) =
    ['c', 'd'] := by
  decide +kernel

end Verif.Frontend.Widgets
