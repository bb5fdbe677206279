import Verif.Trace.Spec
/-!
# C19, C20: moved variables and the recorded trace
-/
namespace Verif.Trace
open Spec

/-! ## C19 -/

/-- The recorder's sets are those of the activations on the stack. -/
structure Agrees (g : Ghost) (mp : MovedPlaces) : Prop where
  len : mp.length = g.stack.length
  fresh : ∀ a ∈ g.stack, a < g.next
  logged : ∀ x ∈ g.log, x.1 < g.next
  sets : ∀ (i : Nat) a set, g.stack[i]? = some a → mp[i]? = some set →
    ∀ l, l ∈ set ↔ EverMoved g a l
  distinct : g.stack.Nodup

theorem addMoves_spec {mp : MovedPlaces} {frame : Nat} (hf : frame < mp.length) (ms : List Moved) :
    ∃ mp', addMoves mp frame ms = some mp' ∧ mp'.length = mp.length ∧
      (∀ j : Nat, j ≠ frame → mp'[j]? = mp[j]?) ∧
      ∀ set set', mp[frame]? = some set → mp'[frame]? = some set' →
        ∀ l, l ∈ set' ↔ l ∈ movedVars ms ∨ l ∈ set := by
  induction ms generalizing mp with
  | nil =>
    refine ⟨mp, rfl, rfl, fun _ _ => rfl, fun set set' h1 h2 l => ?_⟩
    rw [h1] at h2
    simp only [Option.some.injEq] at h2
    subst h2
    simp [movedVars]
  | cons m ms ih =>
    cases m with
    | memory =>
      obtain ⟨mp', h1, h2, h3, h4⟩ := ih hf
      exact ⟨mp', by simpa [addMoves] using h1, h2, h3, fun set set' h5 h6 l => by
        rw [h4 set set' h5 h6 l]; simp [movedVars]⟩
    | direct l₀ =>
      have hadd : addPlace mp frame l₀ = some (mp.set frame (l₀ :: mp[frame])) := by
        unfold addPlace
        rw [List.getElem?_eq_getElem hf]
      obtain ⟨mp', h1, h2, h3, h4⟩ := ih (mp := mp.set frame (l₀ :: mp[frame])) (by simpa using hf)
      refine ⟨mp', by simp only [addMoves, hadd]; exact h1, by simpa using h2, ?_, ?_⟩
      · intro j hj
        rw [h3 j hj, List.getElem?_set_ne (Ne.symm hj)]
      · intro set set' h5 h6 l
        rw [h4 (l₀ :: mp[frame]) set' (by rw [List.getElem?_set_self hf]) h6 l]
        rw [List.getElem?_eq_getElem hf] at h5
        simp only [Option.some.injEq] at h5
        subst h5
        simp only [movedVars, List.filterMap_cons, List.mem_cons]
        constructor
        · rintro (h | rfl | h)
          · exact .inl (.inr h)
          · exact .inl (.inl rfl)
          · exact .inr h
        · rintro ((rfl | h) | h)
          · exact .inr (.inl rfl)
          · exact .inl h
          · exact .inr (.inr h)

theorem agrees_start : Agrees start MovedPlaces.new where
  len := rfl
  fresh := by simp [start]
  logged := by simp [start]
  sets := by
    intro i a set h1 h2 l
    cases i with
    | zero => simp [MovedPlaces.new] at h2; subst h2; simp [EverMoved, start]
    | succ i => simp [start] at h1
  distinct := by simp [start]

theorem agrees_step {g : Ghost} {mp : MovedPlaces} (h : Agrees g mp) (e : Event) (he : Enabled g e) :
    ∃ mp', handleMoves mp (heights g e).1 (heights g e).2 e.moves = some mp' ∧
      Agrees (ghostStep g e) mp' := by
  cases e with
  | enter ms =>
    refine ⟨pushFrame mp, ?_, ?_⟩
    · unfold handleMoves
      rw [if_pos (by simp [heights, ghostStep])]
    · refine ⟨by simp [pushFrame, ghostStep, h.len], ?_, ?_, ?_, ?_⟩
      · intro a ha
        simp only [ghostStep, List.mem_append, List.mem_singleton] at ha ⊢
        rcases ha with ha | rfl
        · have := h.fresh a ha; omega
        · omega
      · intro x hx
        have := h.logged x hx
        simp only [ghostStep]; omega
      · intro i a set h1 h2 l
        simp only [ghostStep, pushFrame] at h1 h2
        rcases Nat.lt_or_ge i g.stack.length with hi | hi
        · rw [List.getElem?_append_left hi] at h1
          rw [List.getElem?_append_left (by rw [h.len]; exact hi)] at h2
          exact h.sets i a set h1 h2 l
        · rw [List.getElem?_append_right hi] at h1
          rw [List.getElem?_append_right (by rw [h.len]; exact hi), h.len] at h2
          have hi0 : i - g.stack.length = 0 := by
            by_cases h0 : i - g.stack.length = 0
            · exact h0
            · rw [List.getElem?_eq_none (by simp; omega)] at h1; simp at h1
          rw [hi0] at h1 h2
          simp only [List.getElem?_cons_zero, Option.some.injEq] at h1 h2
          subst h1 h2
          simp only [List.not_mem_nil, false_iff]
          intro hm
          have := h.logged _ hm
          simp only at this
          omega
      · simp only [ghostStep]
        rw [List.nodup_append]
        refine ⟨h.distinct, by simp, ?_⟩
        intro a ha b hb
        simp only [List.mem_singleton] at hb
        subst hb
        rintro rfl
        exact absurd (h.fresh _ ha) (by omega)
  | leave ms =>
    simp only [Enabled] at he
    have hpos : 0 < g.stack.length := List.length_pos_iff.2 he
    refine ⟨popFrame mp, ?_, ?_⟩
    · unfold handleMoves
      simp only [heights, ghostStep, List.length_dropLast]
      rw [if_neg (by omega), if_pos (by omega)]
    · refine ⟨by simp [popFrame, ghostStep, h.len], ?_, h.logged, ?_, ?_⟩
      · intro a ha
        exact h.fresh a (List.dropLast_subset _ ha)
      · intro i a set h1 h2 l
        simp only [ghostStep, popFrame, List.getElem?_dropLast] at h1 h2
        split at h1
        · split at h2
          · exact h.sets i a set h1 h2 l
          · simp at h2
        · simp at h1
      · exact h.distinct.sublist (List.dropLast_sublist _)
  | run ms as =>
    simp only [Enabled] at he
    cases hl : g.stack.getLast? with
    | none =>
      have hnil : g.stack = [] := by simpa using hl
      have hms : movedVars ms = [] := by
        rcases he with he | he
        · exact absurd hnil he
        · exact he
      have : ∀ (mp : MovedPlaces) ms, movedVars ms = [] → addMoves mp 0 ms = some mp := by
        intro mp ms
        induction ms with
        | nil => simp [addMoves]
        | cons m ms ih =>
          cases m with
          | direct l => simp [movedVars]
          | memory => intro hm; simp only [addMoves]; exact ih (by simpa [movedVars] using hm)
      refine ⟨mp, ?_, ?_⟩
      · unfold handleMoves
        simp only [heights, ghostStep, hl]
        simpa [Event.moves, hnil] using this mp ms hms
      · simpa only [ghostStep, hl] using h
    | some a =>
      have hne : g.stack ≠ [] := by intro h0; simp [h0] at hl
      have hpos : 0 < g.stack.length := List.length_pos_iff.2 hne
      have ha : g.stack[g.stack.length - 1]? = some a := by
        rw [List.getLast?_eq_getElem?] at hl; exact hl
      have ham : a ∈ g.stack := List.mem_of_getElem? ha
      obtain ⟨mp', h1, h2, h3, h4⟩ := addMoves_spec (mp := mp) (frame := g.stack.length - 1)
        (by rw [h.len]; omega) ms
      have hg : ghostStep g (.run ms as) = { g with log := (as.map (fun l => (a, false, l)) ++ ((movedVars ms).reverse.map (fun l => (a, true, l)) ++ g.log)) } := by
        simp only [ghostStep, hl, List.append_assoc]
      refine ⟨mp', ?_, ?_⟩
      · unfold handleMoves
        simp only [heights, hg, Nat.lt_irrefl, if_false, Event.moves]
        exact h1
      · rw [hg]
        have hlog : ∀ b l, EverMoved { g with log := (as.map (fun l => (a, false, l)) ++ ((movedVars ms).reverse.map (fun l => (a, true, l)) ++ g.log)) } b l ↔
            (b = a ∧ l ∈ movedVars ms) ∨ EverMoved g b l := by
          intro b l
          simp only [EverMoved, List.mem_append, List.mem_map, List.mem_reverse, Prod.mk.injEq]
          constructor
          · rintro (⟨x, _, _, h', _⟩ | ⟨x, hx, rfl, -, rfl⟩ | h')
            · simp at h'
            · exact .inl ⟨rfl, hx⟩
            · exact .inr h'
          · rintro (⟨rfl, hx⟩ | h')
            · exact .inr (.inl ⟨l, hx, by simp⟩)
            · exact .inr (.inr h')
        refine ⟨by rw [h2, h.len], h.fresh, ?_, ?_, h.distinct⟩
        · intro x hx
          simp only [List.mem_append, List.mem_map] at hx
          rcases hx with ⟨_, _, rfl⟩ | ⟨_, _, rfl⟩ | hx
          · exact h.fresh a ham
          · exact h.fresh a ham
          · exact h.logged x hx
        · intro i b set hb hs l
          simp only at hb
          rw [hlog]
          by_cases hi : i = g.stack.length - 1
          · subst hi
            rw [ha] at hb
            simp only [Option.some.injEq] at hb
            subst hb
            have hlt : g.stack.length - 1 < mp.length := by rw [h.len]; omega
            rw [h4 mp[g.stack.length - 1] set (List.getElem?_eq_getElem hlt) hs l]
            rw [h.sets _ a _ ha (List.getElem?_eq_getElem hlt) l]
            simp
          · rw [h3 i hi] at hs
            rw [h.sets i b set hb hs l]
            have hba : b ≠ a := by
              rintro rfl
              exact hi ((List.getElem?_inj (List.getElem?_eq_some_iff.1 hb).1 h.distinct).1 (hb.trans ha.symm))
            simp [hba]

theorem drive_agrees {g mp es} (h : Agrees g mp) (hv : Valid g es) :
    ∃ g' mp', drive g mp es = some (g', mp') ∧ Agrees g' mp' := by
  induction es generalizing g mp with
  | nil => exact ⟨g, mp, rfl, h⟩
  | cons e es ih =>
    obtain ⟨mp', h1, h2⟩ := agrees_step h e hv.1
    obtain ⟨g'', mp'', h3, h4⟩ := ih h2 hv.2
    exact ⟨g'', mp'', by simp only [drive, h1]; exact h3, h4⟩

/-- **C19 (without re-assignment).** Along every history of calls, returns and instructions, the recorder
does not panic, has one set per frame, and the set of the frame at position `i` consists of exactly the
variables that the activation at that position moved out. In particular the moves of one activation are
never shown in another. Missing from the full property: a variable assigned again after the move stays
marked (false, `C19_reassigned`), and only variables without an address are seen (`C19_addressed`). -/
theorem C19_marks_partial (es : List Event) (hv : Valid start es) :
    ∃ g mp, drive start MovedPlaces.new es = some (g, mp) ∧ mp.length = g.stack.length ∧
      ∀ (i : Nat) a, g.stack[i]? = some a →
        ∃ set, placesAt mp i = some set ∧ ∀ l, l ∈ set ↔ EverMoved g a l := by
  obtain ⟨g, mp, h1, h2⟩ := drive_agrees agrees_start hv
  refine ⟨g, mp, h1, h2.len, fun i a ha => ?_⟩
  have hlt : i < mp.length := by rw [h2.len]; exact (List.getElem?_eq_some_iff.1 ha).1
  exact ⟨mp[i], List.getElem?_eq_getElem hlt, h2.sets i a _ ha (List.getElem?_eq_getElem hlt)⟩

/-- **C19 (full statement on histories without re-assignment).** If no variable is assigned again by the
activation after it moved it out, the marked variables are exactly those that are moved out. -/
theorem C19_no_reassign_partial (es : List Event) (hv : Valid start es) (g mp)
    (h : drive start MovedPlaces.new es = some (g, mp))
    (hno : ∀ a l, EverMoved g a l → MovedOut g a l)
    (i : Nat) (a : Nat) (ha : g.stack[i]? = some a) (set) (hs : placesAt mp i = some set) (l : Nat) :
    l ∈ set ↔ MovedOut g a l := by
  obtain ⟨g', mp', h1, -, h3⟩ := C19_marks_partial es hv
  rw [h] at h1
  simp only [Option.some.injEq, Prod.mk.injEq] at h1
  obtain ⟨rfl, rfl⟩ := h1
  obtain ⟨set', h4, h5⟩ := h3 i a ha
  rw [hs] at h4
  simp only [Option.some.injEq] at h4
  subst h4
  rw [h5 l]
  refine ⟨hno a l, fun hm => ?_⟩
  unfold MovedOut at hm
  rw [Option.map_eq_some_iff] at hm
  obtain ⟨x, hx, hx'⟩ := hm
  have h6 := List.mem_of_find?_eq_some hx
  have h7 := List.find?_some hx
  simp only [Bool.and_eq_true, beq_iff_eq] at h7
  obtain ⟨x1, x2, x3⟩ := x
  simp only at hx' h7
  obtain ⟨rfl, rfl⟩ := h7
  subst hx'
  exact h6

/-- **C19 is false: re-assignment.** `let b = a; a = ..;` leaves `a` (variable 1) marked as moved,
although it was assigned again. -/
theorem C19_reassigned :
    ∃ g mp, drive start MovedPlaces.new [.run [.direct 1] [2], .run [] [1]] = some (g, mp) ∧
      placesAt mp 0 = some [1] ∧ ¬ MovedOut g 0 1 := by
  refine ⟨_, _, rfl, rfl, ?_⟩
  unfold MovedOut
  decide

/-- **C19 is false: variables with an address.** A move out of a variable that has been borrowed, and
therefore lives in memory, marks nothing. -/
theorem C19_addressed :
    ∃ g mp, drive start MovedPlaces.new [.run [.memory] []] = some (g, mp) ∧ placesAt mp 0 = some [] :=
  ⟨_, _, rfl, rfl⟩

/-- **C19 is false: moves in calls.** Operands moved by a call that enters a function mark nothing. (The
compiler usually moves a variable to a temporary first, which is recorded.) -/
theorem C19_call_moves :
    ∃ g mp, drive start MovedPlaces.new [.enter [.direct 1], .leave []] = some (g, mp) ∧
      placesAt mp 0 = some [] :=
  ⟨_, _, rfl, rfl⟩

/-- Non-vacuity: two activations of a function, each moving variable 1, the second still running. -/
example : let es := [.enter [], .run [.direct 1] [2], .leave [], .enter [], .run [.direct 3] []]
    Valid start es ∧ ∃ g, drive start MovedPlaces.new es = some (g, [[], [3]]) ∧
      ∀ x ∈ g.log, x.2.1 = true ∨ x.2.2 = 2 := by
  refine ⟨by simp [Valid, Enabled, ghostStep, start], _, rfl, by decide⟩

/-! ## C20 -/

section
variable {σ E Inst Loc Vars Heap : Type} {m : Machine σ E Inst Loc Vars Heap}

theorem localFrames_eq (s : σ) : localFrames m s =
    (userFrames m s).map (fun x => (x.1, x.1 == (m.stack s).length - 1, x.2)) := by
  unfold localFrames userFrames
  rw [List.map_map]
  rfl

theorem localFrames_length (s : σ) : (localFrames m s).length = (userFrames m s).length := by
  rw [localFrames_eq, List.length_map]

theorem userFrames_index {s : σ} {k i : Nat} {f} (h : (userFrames m s)[k]? = some (i, f)) :
    (m.stack s)[i]? = some f := by
  have := List.mem_of_getElem? h
  unfold userFrames at this
  simp only [List.mem_map, List.mem_filter, Prod.mk.injEq] at this
  obtain ⟨x, ⟨h1, -⟩, rfl, rfl⟩ := this
  exact List.mem_zipIdx_iff_getElem?.1 h1

theorem buildFrames_ok {s : σ} {ov : Inst × Loc} {fs xs} :
    buildFrames m s ov fs = .ok xs ↔ xs.length = fs.length ∧
      ∀ (k : Nat) f x, fs[k]? = some f → xs[k]? = some x → buildFrame m s ov f = .ok x := by
  induction fs generalizing xs with
  | nil =>
    simp only [buildFrames, Except.ok.injEq]
    constructor
    · rintro rfl; simp
    · rintro ⟨h, -⟩; exact (List.length_eq_zero_iff.1 h).symm
  | cons f fs ih =>
    simp only [buildFrames]
    constructor
    · intro h
      split at h
      · simp at h
      · rename_i x hx
        split at h
        · simp at h
        · rename_i ys hys
          simp only [Except.ok.injEq] at h
          subst h
          obtain ⟨h1, h2⟩ := ih.1 hys
          refine ⟨by simp [h1], ?_⟩
          intro k f' x' hf hx'
          cases k with
          | zero => simp at hf hx'; subst hf hx'; exact hx
          | succ k => exact h2 k f' x' (by simpa using hf) (by simpa using hx')
    · rintro ⟨h1, h2⟩
      cases xs with
      | nil => simp at h1
      | cons x xs =>
        rw [h2 0 f x (by simp) (by simp)]
        have := ih.2 ⟨by simpa using h1, fun k f' x' hf hx' => h2 (k + 1) f' x' (by simpa using hf) (by simpa using hx')⟩
        simp only [this]

theorem buildFrame_error {s : σ} {ov : Inst × Loc} {f e} :
    buildFrame m s ov f = .error e ↔ m.vars s f.1 = .error e := by
  unfold buildFrame
  split
  · rename_i h; simp [h]
  · rename_i h
    rw [h]
    split <;> simp

theorem buildFrame_ok {s : σ} {ov : Inst × Loc} {f x} : buildFrame m s ov f = .ok x ↔
    x.inst = f.2.2.inst ∧ m.vars s f.1 = .ok x.vars ∧
      (f.2.1 = true → (x.locInst, x.loc) = ov) ∧
      (f.2.1 = false → x.locInst = f.2.2.inst ∧ x.loc = f.2.2.loc) := by
  unfold buildFrame
  cases x
  split
  · rename_i h; simp [h]
  · rename_i v h
    rw [h]
    cases f.2.1 with
    | true =>
      simp only [if_true, Except.ok.injEq, MFrame.mk.injEq, forall_const, Bool.true_eq_false,
        false_implies, and_true]
      constructor
      · rintro ⟨h1, h2, h3, h4⟩; exact ⟨h1.symm, h4, by rw [← h2, ← h3]⟩
      · rintro ⟨h1, h2, h3⟩; rw [← h3]; exact ⟨h1.symm, rfl, rfl, h2⟩
    | false =>
      simp only [Bool.false_eq_true, if_false, Except.ok.injEq, MFrame.mk.injEq, forall_const,
        false_implies, true_and]
      constructor
      · rintro ⟨h1, h2, h3, h4⟩; exact ⟨h1.symm, h4, h2.symm, h3.symm⟩
      · rintro ⟨h1, h2, h3, h4⟩; exact ⟨h1.symm, h3.symm, h4.symm, h2⟩

theorem buildFrames_error {s : σ} {ov : Inst × Loc} {fs e} (h : buildFrames m s ov fs = .error e) :
    ∃ before f after, fs = before ++ f :: after ∧ m.vars s f.1 = .error e ∧
      ∀ x ∈ before, ∃ v, m.vars s x.1 = .ok v := by
  induction fs with
  | nil => simp [buildFrames] at h
  | cons f fs ih =>
    simp only [buildFrames] at h
    split at h
    · rename_i e' he
      simp only [Except.error.injEq] at h
      subst h
      exact ⟨[], f, fs, rfl, buildFrame_error.1 he, by simp⟩
    · rename_i x hx
      split at h
      · rename_i e' he
        simp only [Except.error.injEq] at h
        subst h
        obtain ⟨b, f', a, rfl, h2, h3⟩ := ih he
        refine ⟨f :: b, f', a, rfl, h2, fun y hy => ?_⟩
        rcases List.mem_cons.1 hy with rfl | hy
        · exact ⟨_, (buildFrame_ok.1 hx).2.1⟩
        · exact h3 y hy
      · simp at h

theorem buildFrames_total {s : σ} {ov : Inst × Loc} {fs : List (Nat × Bool × Frame Inst Loc)}
    (h : ∀ f ∈ fs, ∃ v, m.vars s f.1 = .ok v) : ∃ xs, buildFrames m s ov fs = .ok xs := by
  cases hx : buildFrames m s ov fs with
  | ok xs => exact ⟨xs, rfl⟩
  | error e =>
    obtain ⟨b, f, a, rfl, h2, -⟩ := buildFrames_error hx
    obtain ⟨v, hv⟩ := h f (by simp)
    rw [h2] at hv; simp at hv

/-- The location chosen is the specified one. -/
theorem shownLoc_spec {s s' : σ} {loc? : Option (Inst × Loc)} (h : shownLoc m s s' = some loc?)
    (hne : userFrames m s' ≠ []) :
    ∃ loc, loc? = some loc ∧
      ∀ (k i : Nat) f, (userFrames m s')[k]? = some (i, f) → i + 1 = (m.stack s').length →
        topLoc m s s' f.inst = some loc := by
  have hpos : 0 < (userFrames m s').length := List.length_pos_iff.2 hne
  -- the topmost user frame is the last one
  have hlast : ∀ (k i : Nat) f, (userFrames m s')[k]? = some (i, f) → i + 1 = (m.stack s').length →
      (userFrames m s').getLast? = some (i, f) := by
    intro k i f hk hi
    have hsorted : (userFrames m s').Pairwise (fun x y => x.1 < y.1) := by
      unfold userFrames
      rw [List.pairwise_map]
      refine List.Pairwise.filter _ ?_
      rw [List.pairwise_iff_getElem]
      intro a b ha hb hab
      simp only [List.getElem_zipIdx]
      omega
    rw [List.getLast?_eq_getElem?]
    have hklt := (List.getElem?_eq_some_iff.1 hk).1
    by_cases hkl : k = (userFrames m s').length - 1
    · rw [← hkl]; exact hk
    · have hl : (userFrames m s').length - 1 < (userFrames m s').length := by omega
      rw [List.pairwise_iff_getElem] at hsorted
      have := hsorted k _ hklt hl (by omega)
      rw [(List.getElem?_eq_some_iff.1 hk).2] at this
      have hidx := userFrames_index (m := m) (s := s') (k := (userFrames m s').length - 1)
        (i := (userFrames m s')[(userFrames m s').length - 1].1)
        (f := (userFrames m s')[(userFrames m s').length - 1].2) (List.getElem?_eq_getElem hl)
      have := (List.getElem?_eq_some_iff.1 hidx).1
      omega
  unfold shownLoc at h
  simp only [localFrames_length] at h
  unfold topLoc
  simp only
  by_cases h1 : (userFrames m s).length < (userFrames m s').length
  · rw [if_pos h1] at h
    split at h
    · simp at h
    · rename_i g hg
      simp only [Option.some.injEq] at h
      subst h
      refine ⟨_, rfl, fun k i f hk hi => ?_⟩
      rw [if_pos h1]
      rw [localFrames_eq, List.getLast?_map, hlast k i f hk hi] at hg
      simp only [Option.map_some, Option.some.injEq] at hg
      subst hg
      rfl
  · rw [if_neg h1] at h
    by_cases h2 : (userFrames m s').length < (userFrames m s).length
    · rw [if_pos h2] at h
      have hlen : ¬ (localFrames m s).length < 2 := by rw [localFrames_length]; omega
      have hlt : (userFrames m s).length - 2 < (userFrames m s).length := by omega
      unfold callerLoc at h
      rw [if_neg hlen, localFrames_length, localFrames_eq, List.getElem?_map,
        List.getElem?_eq_getElem hlt] at h
      simp only [Option.map_some] at h
      split at h
      · simp at h
      · rename_i g hg
        simp only [Option.some.injEq] at h
        subst h
        refine ⟨_, rfl, fun k i f hk hi => ?_⟩
        rw [if_neg h1, if_pos h2, List.getElem?_eq_getElem hlt]
        rw [localFrames_eq, List.getLast?_map, hlast k i f hk hi] at hg
        simp only [Option.map_some, Option.some.injEq] at hg
        subst hg
        rfl
    · rw [if_neg h2] at h
      simp only [Option.some.injEq, currentLocalLoc] at h
      rw [localFrames_eq, List.getLast?_map] at h
      have hlt : 0 < (userFrames m s).length := by omega
      cases hl : (userFrames m s).getLast? with
      | none => rw [List.getLast?_eq_none_iff] at hl; simp [hl] at hlt
      | some g =>
        rw [hl] at h
        simp only [Option.map_some] at h
        subst h
        refine ⟨_, rfl, fun k i f hk hi => ?_⟩
        rw [if_neg h1, if_neg h2]
        rfl

/-- What is built after one machine step. -/
theorem build_spec {s s' : σ} {loc? : Option (Inst × Loc)}
    {r : Except E (Option (MStep Inst Loc Vars Heap))}
    (hr : (match loc? with | none => .ok none | some loc => buildStep m s' loc) = r)
    (h : shownLoc m s s' = some loc?) :
    (userFrames m s' = [] → r = .ok none) ∧
    (userFrames m s' ≠ [] → (∃ st, r = .ok (some st) ∧ ShowsFrames m s s' st.frames ∧ st.heap = m.heap s') ∨
      ∃ e, r = .error e ∧ ReadFails m s' e) := by
  constructor
  · intro hnil
    have hlf : localFrames m s' = [] := by rw [localFrames_eq, hnil]; rfl
    subst hr
    cases loc? with
    | none => rfl
    | some loc => simp only [buildStep, hlf, buildFrames]
  · intro hne
    obtain ⟨loc, rfl, hloc⟩ := shownLoc_spec h hne
    simp only [buildStep] at hr
    cases hb : buildFrames m s' loc (localFrames m s') with
    | error e =>
      rw [hb] at hr
      refine .inr ⟨e, hr.symm, ?_⟩
      obtain ⟨b, f, a, h1, h2, h3⟩ := buildFrames_error hb
      rw [localFrames_eq, List.map_eq_append_iff] at h1
      obtain ⟨b', a', h4, h5, h6⟩ := h1
      rw [List.map_eq_cons_iff] at h6
      obtain ⟨g, a'', h7, h8, h9⟩ := h6
      subst h5 h8
      refine ⟨b', g.1, g.2, a'', by rw [h4, h7], h2, fun x hx => ?_⟩
      exact h3 (x.1, _, x.2) (List.mem_map_of_mem hx)
    | ok xs =>
      rw [hb] at hr
      obtain ⟨h1, h2⟩ := buildFrames_ok.1 hb
      rw [localFrames_length] at h1
      have hne' : xs ≠ [] := by
        rintro rfl
        exact hne (List.length_eq_zero_iff.1 h1.symm)
      refine .inl ?_
      cases xs with
      | nil => exact absurd rfl hne'
      | cons x xs =>
        refine ⟨_, hr.symm, ⟨h1, ?_⟩, rfl⟩
        intro k i f y hk hy
        have hf : (localFrames m s')[k]? = some (i, i == (m.stack s').length - 1, f) := by
          rw [localFrames_eq, List.getElem?_map, hk]; rfl
        have hb' := buildFrame_ok.1 (h2 k _ y hf hy)
        have hlt := (List.getElem?_eq_some_iff.1 (userFrames_index hk)).1
        refine ⟨hb'.1, hb'.2.1, ?_, ?_⟩
        · intro hi
          exact hb'.2.2.2 (by simp; omega)
        · intro hi
          have := hb'.2.2.1 (by simp; omega)
          rw [this]
          exact hloc k i f hk hi

/-- **C20 (successful executions).** If the evaluation ends with success, then the machine ran to its end
without an error, and the recorded steps are, in order, one for each machine step after which there is a
frame of the user's crate; each shows exactly those frames, in stack order, with their variables and
heap, the lower frames at their current location and the top frame at the header, call site or executed
statement. -/
theorem C20_success (fuel : Nat) (s : σ) (steps) (h : eval m fuel s = some (steps, .finished)) :
    ∃ ps, Exec m.next s ps .finished ∧ Recorded m ps steps := by
  induction fuel generalizing s steps with
  | zero => simp [eval] at h
  | succ fuel ih =>
    simp only [eval] at h
    split at h
    · simp at h
    · rename_i s' more hnext
      split at h
      · simp at h
      · rename_i loc? hloc
        split at h
        · simp at h
        · rename_i st hst
          have hb := build_spec hst hloc
          have hrec : ∀ ps rest, Recorded m ps rest → Recorded m ((s, s') :: ps) (st.toList ++ rest) := by
            intro ps rest hr
            by_cases hnil : userFrames m s' = []
            · have := hb.1 hnil
              simp only [Except.ok.injEq] at this
              subst this
              exact .skip hnil hr
            · rcases hb.2 hnil with ⟨x, h1, h2, h3⟩ | ⟨e, h1, -⟩
              · simp only [Except.ok.injEq] at h1
                subst h1
                exact .keep hnil h2 h3 hr
              · simp at h1
          cases more with
          | true =>
            simp only [if_true] at h
            split at h
            · simp at h
            · rename_i rest end_ hev
              simp only [Option.some.injEq, Prod.mk.injEq] at h
              obtain ⟨rfl, rfl⟩ := h
              obtain ⟨ps, h1, h2⟩ := ih s' rest hev
              exact ⟨_, .step hnext h1, hrec ps rest h2⟩
          | false =>
            simp only [Bool.false_eq_true, if_false, Option.some.injEq, Prod.mk.injEq, and_true] at h
            subst h
            refine ⟨_, .done hnext, ?_⟩
            have := hrec [] [] .nil
            simpa using this

/-- A prefix of an execution. -/
inductive Steps (next : σ → Except E (σ × Bool)) : σ → List (σ × σ) → σ → Prop
  | refl {s} : Steps next s [] s
  | step {s s' ps t} : next s = .ok (s', true) → Steps next s' ps t → Steps next s ((s, s') :: ps) t

/-- **C20 (failing executions).** If the evaluation ends with an error, either the machine stopped with
that error, or the state after some machine step could not be read; in both cases the steps before are
recorded as for a successful execution. -/
theorem C20_failure (fuel : Nat) (s : σ) (steps) (e : E) (h : eval m fuel s = some (steps, .failed e)) :
    ∃ ps, Recorded m ps steps ∧ (Exec m.next s ps (.failed e) ∨
      ∃ t t' more, Steps m.next s ps t ∧ m.next t = .ok (t', more) ∧ userFrames m t' ≠ [] ∧
        ReadFails m t' e) := by
  induction fuel generalizing s steps with
  | zero => simp [eval] at h
  | succ fuel ih =>
    simp only [eval] at h
    split at h
    · rename_i e' hnext
      simp only [Option.some.injEq, Prod.mk.injEq, End.failed.injEq] at h
      obtain ⟨rfl, rfl⟩ := h
      exact ⟨[], .nil, .inl (.fail hnext)⟩
    · rename_i s' more hnext
      split at h
      · simp at h
      · rename_i loc? hloc
        split at h
        · rename_i e' he
          simp only [Option.some.injEq, Prod.mk.injEq, End.failed.injEq] at h
          obtain ⟨rfl, rfl⟩ := h
          have hb := build_spec he hloc
          by_cases hnil : userFrames m s' = []
          · have := hb.1 hnil; simp at this
          · rcases hb.2 hnil with ⟨x, h1, -⟩ | ⟨e₁, h1, h2⟩
            · simp at h1
            · simp only [Except.error.injEq] at h1
              subst h1
              exact ⟨[], .nil, .inr ⟨s, s', more, .refl, hnext, hnil, h2⟩⟩
        · rename_i st hst
          have hb := build_spec hst hloc
          have hrec : ∀ ps rest, Recorded m ps rest → Recorded m ((s, s') :: ps) (st.toList ++ rest) := by
            intro ps rest hr
            by_cases hnil : userFrames m s' = []
            · have := hb.1 hnil
              simp only [Except.ok.injEq] at this
              subst this
              exact .skip hnil hr
            · rcases hb.2 hnil with ⟨x, h1, h2, h3⟩ | ⟨e, h1, -⟩
              · simp only [Except.ok.injEq] at h1
                subst h1
                exact .keep hnil h2 h3 hr
              · simp at h1
          cases more with
          | true =>
            simp only [if_true] at h
            split at h
            · simp at h
            · rename_i rest end_ hev
              simp only [Option.some.injEq, Prod.mk.injEq] at h
              obtain ⟨rfl, rfl⟩ := h
              obtain ⟨ps, h1, h2⟩ := ih s' rest hev
              refine ⟨_, hrec ps rest h1, ?_⟩
              rcases h2 with h2 | ⟨t, t', more', h3, h4⟩
              · exact .inl (.step hnext h2)
              · exact .inr ⟨t, t', more', .step hnext h3, h4⟩
          | false => simp at h

/-- No machine step removes more than one user frame. -/
def PopsOne (m : Machine σ E Inst Loc Vars Heap) (ps : List (σ × σ)) : Prop :=
  ∀ p ∈ ps, (userFrames m p.1).length ≤ (userFrames m p.2).length + 1

theorem shownLoc_total {s s' : σ} (h : (userFrames m s).length ≤ (userFrames m s').length + 1) :
    ∃ loc?, shownLoc m s s' = some loc? := by
  unfold shownLoc
  simp only [localFrames_length]
  split
  · rename_i h1
    split
    · rename_i h2
      rw [List.getLast?_eq_none_iff, localFrames_eq, List.map_eq_nil_iff] at h2
      rw [h2] at h1; simp at h1
    · exact ⟨_, rfl⟩
  · split
    · split
      · rename_i hc
        split
        · rename_i h2
          rw [List.getLast?_eq_none_iff, localFrames_eq, List.map_eq_nil_iff] at h2
          rw [h2] at h
          unfold callerLoc at hc
          rw [if_pos (by rw [localFrames_length]; simp at h; omega)] at hc
          simp at hc
        · exact ⟨_, rfl⟩
      · exact ⟨_, rfl⟩
    · exact ⟨_, rfl⟩

/-- **C20 (completeness).** Every terminating execution in which each machine step leaves at most one
user function and every state with a user frame can be read is recorded, with the machine's outcome:
success iff it finished. -/
theorem C20_complete {s : σ} {ps} {end_ : End E} (hx : Exec m.next s ps end_) (hp : PopsOne m ps)
    (hread : ∀ p ∈ ps, ∀ x ∈ userFrames m p.2, ∃ v, m.vars p.2 x.1 = .ok v) :
    ∃ fuel steps, eval m fuel s = some (steps, end_) ∧ Recorded m ps steps := by
  have one : ∀ (s s' : σ), (userFrames m s).length ≤ (userFrames m s').length + 1 →
      (∀ x ∈ userFrames m s', ∃ v, m.vars s' x.1 = .ok v) →
      ∃ loc? st, shownLoc m s s' = some loc? ∧
        (match (generalizing := false) loc? with
          | none => (Except.ok none : Except E (Option (MStep Inst Loc Vars Heap)))
          | some loc => buildStep m s' loc) = Except.ok st ∧
        ∀ ps rest, Recorded m ps rest → Recorded m ((s, s') :: ps) (st.toList ++ rest) := by
    intro s s' h1 h2
    obtain ⟨loc?, hloc⟩ := shownLoc_total h1
    have hb := build_spec rfl hloc
    by_cases hnil : userFrames m s' = []
    · exact ⟨loc?, none, hloc, hb.1 hnil, fun ps rest hr => .skip hnil hr⟩
    · rcases hb.2 hnil with ⟨st, h3, h4, h5⟩ | ⟨e, -, b, i, f, a, h4, h5, -⟩
      · exact ⟨loc?, some st, hloc, h3, fun ps rest hr => .keep hnil h4 h5 hr⟩
      · obtain ⟨v, hv⟩ := h2 (i, f) (by rw [h4]; simp)
        rw [h5] at hv; simp at hv
  induction hx with
  | fail h => exact ⟨1, [], by simp [eval, h], .nil⟩
  | @done s s' h =>
    obtain ⟨loc?, st, h1, h2, h3⟩ := one s s' (hp (s, s') (by simp)) (hread (s, s') (by simp))
    refine ⟨1, st.toList, ?_, by simpa using h3 [] [] .nil⟩
    cases loc? <;> simp only [eval, h, h1] <;> dsimp only at h2 ⊢
    · cases h2; rfl
    · rw [h2]; rfl
  | @step s s' ps _ h hx ih =>
    obtain ⟨loc?, st, h1, h2, h3⟩ := one s s' (hp (s, s') (by simp)) (hread (s, s') (by simp))
    obtain ⟨fuel, steps, h4, h5⟩ := ih (fun p hp' => hp p (by simp [hp'])) (fun p hp' => hread p (by simp [hp']))
    refine ⟨fuel + 1, st.toList ++ steps, ?_, h3 _ _ h5⟩
    cases loc? <;> simp only [eval, h, h1, if_true, h4] <;> dsimp only at h2 ⊢
    · cases h2; rfl
    · rw [h2]

/-- **C20 (each step has a frame).** Every recorded step has at least one frame. -/
theorem C20_nonempty {ps} {steps} (h : Recorded m ps steps) : ∀ st ∈ steps, st.frames ≠ [] := by
  induction h with
  | nil => simp
  | skip _ _ ih => exact ih
  | keep h1 h2 _ _ ih =>
    intro st hst
    rcases List.mem_cons.1 hst with rfl | hst
    · intro h0
      have := h2.1
      rw [h0] at this
      exact h1 (List.length_eq_zero_iff.1 this.symm)
    · exact ih st hst

/-- **C20 (result).** The result shown is success iff the evaluation finished; undefined behaviour is
shown with the steps before it; any other failure gives no trace at all. -/
theorem C20_result (isUb : E → Bool) (steps) (end_ : End E) (r) :
    (report (Inst := Inst) (Loc := Loc) (Vars := Vars) (Heap := Heap) isUb (steps, end_) = some r) ↔
      r.1 = steps ∧ ((end_ = .finished ∧ r.2 = none) ∨ ∃ e, end_ = .failed e ∧ isUb e = true ∧ r.2 = some e) := by
  obtain ⟨rs, re⟩ := r
  cases end_ with
  | finished =>
    simp only [report, Option.some.injEq, Prod.mk.injEq, true_and, reduceCtorEq, false_and,
      exists_false, or_false]
    exact ⟨fun ⟨a, b⟩ => ⟨a.symm, b.symm⟩, fun ⟨a, b⟩ => ⟨a.symm, b.symm⟩⟩
  | failed e =>
    simp only [report]
    cases h : isUb e with
    | true =>
      simp only [if_true, Option.some.injEq, Prod.mk.injEq, reduceCtorEq, false_and, false_or,
        End.failed.injEq]
      constructor
      · rintro ⟨a, b⟩; exact ⟨a.symm, e, rfl, h, b.symm⟩
      · rintro ⟨a, e', rfl, -, b⟩; exact ⟨a.symm, b.symm⟩
    | false =>
      simp only [Bool.false_eq_true, if_false, reduceCtorEq, false_and, false_or, false_iff]
      rintro ⟨-, e', h1, h2, -⟩
      cases h1
      rw [h] at h2; cases h2
  | panicked => simp [report]
end

/-! ### Non-vacuity: a run of three machine steps -/

/-- `main` (instance 1) runs, calls `f` (instance 2), which returns, and the machine ends. Instance 0 is
the runtime. -/
def demoFrame (i loc : Nat) : Frame Nat Nat := { inst := i, isLocal := i != 0, loc }
def demoMachine : Machine Nat Unit Nat Nat Nat Unit :=
  { stack := fun s => match s with
      | 0 => [demoFrame 0 0, demoFrame 1 5]
      | 1 => [demoFrame 0 0, demoFrame 1 6]
      | 2 => [demoFrame 0 0, demoFrame 1 6, demoFrame 2 0]
      | 3 => [demoFrame 0 0, demoFrame 1 7]
      | _ => [demoFrame 0 1]
    next := fun s => .ok (s + 1, s < 3)
    header := fun i => 100 + i
    vars := fun s i => .ok (10 * s + i)
    heap := fun _ => () }

example : ∃ ps, Exec demoMachine.next 0 ps .finished ∧ PopsOne demoMachine ps ∧ ps.length = 4 := by
  refine ⟨[(0, 1), (1, 2), (2, 3), (3, 4)], .step rfl (.step rfl (.step rfl (.done rfl))), ?_, rfl⟩
  unfold PopsOne
  decide

/-- Statement 5 executed; `f` entered (shown at its header, `main` at the call); back in `main` at the
call site. -/
example : (eval demoMachine 4 0).map (fun r => (r.1.map (fun st => st.frames.map (fun f => (f.inst, f.loc))), r.2)) =
    some ([[(1, 5)], [(1, 6), (2, 102)], [(1, 6)]], .finished) := rfl

end Verif.Trace
