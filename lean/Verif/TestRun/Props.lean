import Verif.TestRun.Model
import Verif.TestSource.Props
/-!
# C123: what a passing test has checked
-/
namespace Verif.TestRun

open Verif.TestSource

/-! ## Specification -/

/-- The bodies that are looked at: those before the first fatal error. -/
def Before {α : Type} (bodies : List (Part α)) (i : Nat) : Prop := ∀ j, j ≤ i → bodies[j]? ≠ some .fatal

/-- The first body that has something at the range says this. -/
def First (bodies : List (Part (Mark → Look))) (m : Mark) (x : Look) : Prop :=
  ∃ i b, bodies[i]? = some (.got b) ∧ Before bodies i ∧ b m = x ∧ x ≠ .elsewhere ∧
    ∀ j b', j < i → bodies[j]? = some (.got b') → b' m = .elsewhere

/-- The compiler gives up at some body. -/
def GivesUp {α : Type} (bodies : List (Part α)) : Prop := .fatal ∈ bodies

/-! ## The check of annotations -/

theorem before_zero {α : Type} {x : Part α} {r : List (Part α)} (h : x ≠ .fatal) : Before (x :: r) 0 := by
  intro j hj hx
  obtain rfl : j = 0 := by omega
  simp only [List.getElem?_cons_zero, Option.some.injEq] at hx
  exact h hx

theorem before_succ {α : Type} {x : Part α} {r : List (Part α)} {i : Nat} (h : x ≠ .fatal) :
    Before (x :: r) (i + 1) ↔ Before r i := by
  constructor
  · intro hb j hj
    exact hb (j + 1) (by omega)
  · intro hb j hj
    match j with
    | 0 => exact before_zero h 0 (by omega)
    | j + 1 => exact hb j (by omega)

theorem first_here {b : Mark → Look} {r : List (Part (Mark → Look))} {m : Mark} (h : b m ≠ .elsewhere) {x : Look} :
    First (.got b :: r) m x ↔ b m = x := by
  constructor
  · rintro ⟨i, b', h1, _, h3, h4, h5⟩
    match i with
    | 0 => cases h1; exact h3
    | i + 1 => exact absurd (h5 0 b (by omega) rfl) h
  · rintro rfl
    exact ⟨0, b, rfl, before_zero (by simp), rfl, h, fun j _ hj => by omega⟩

theorem first_there {b : Mark → Look} {r : List (Part (Mark → Look))} {m : Mark} (h : b m = .elsewhere) {x : Look} :
    First (.got b :: r) m x ↔ First r m x := by
  constructor
  · rintro ⟨i, b', h1, h2, h3, h4, h5⟩
    match i with
    | 0 => cases h1; exact absurd (h3.symm.trans h) h4
    | i + 1 => exact ⟨i, b', h1, (before_succ (by simp)).1 h2, h3, h4, fun j b'' hj hb => h5 (j + 1) b'' (by omega) hb⟩
  · rintro ⟨i, b', h1, h2, h3, h4, h5⟩
    refine ⟨i + 1, b', h1, (before_succ (by simp)).2 h2, h3, h4, fun j b'' hj hb => ?_⟩
    match j with
    | 0 => cases hb; exact h
    | j + 1 => exact h5 j b'' (by omega) hb

theorem fine_iff {m : Mark} {x : Look} : x.fine m = true ↔ x = .elsewhere ∨ x = .found m.perms := by
  cases x <;> simp [Look.fine]

theorem refine_iff (bodies : List (Part (Mark → Look))) (expected : List Mark) :
    refine bodies expected ≠ .panic ↔
      (∀ i, Before bodies i → bodies[i]? ≠ some .panic) ∧
      ∀ m ∈ expected, (∀ x, First bodies m x → x = .found m.perms) ∧
        (¬ GivesUp bodies → ∃ x, First bodies m x) := by
  induction bodies generalizing expected with
  | nil =>
    unfold refine
    cases expected with
    | nil => simp
    | cons m r =>
      simp only [List.isEmpty_cons, Bool.false_eq_true, if_false, ne_eq, not_true_eq_false, false_iff]
      rintro ⟨_, h⟩
      obtain ⟨x, i, b, h1, _⟩ := (h m (by simp)).2 (by simp [GivesUp])
      simp at h1
  | cons part r ih =>
    cases part with
    | fatal =>
      simp only [refine, ne_eq, reduceCtorEq, not_false_eq_true, true_iff]
      refine ⟨fun i hb => absurd rfl (hb 0 (Nat.zero_le _)), fun m _ => ⟨?_, fun h => absurd (by simp [GivesUp]) h⟩⟩
      rintro x ⟨i, b, _, hb, _⟩
      exact absurd rfl (hb 0 (Nat.zero_le _))
    | panic =>
      simp only [refine, ne_eq, not_true_eq_false, false_iff]
      rintro ⟨h, _⟩
      exact h 0 (before_zero (by simp)) rfl
    | got b =>
      rw [refine]
      have hp : (∀ i, Before (Part.got b :: r) i → (Part.got b :: r)[i]? ≠ some .panic) ↔
          ∀ i, Before r i → r[i]? ≠ some .panic := by
        constructor
        · intro h i hi
          exact h (i + 1) ((before_succ (by simp)).2 hi)
        · intro h i hi
          match i with
          | 0 => simp
          | i + 1 => exact h i ((before_succ (by simp)).1 hi)
      have hg : GivesUp (Part.got b :: r) ↔ GivesUp r := by simp [GivesUp]
      rw [hp]
      split
      · rename_i hall
        rw [List.all_eq_true] at hall
        rw [ih]
        refine and_congr_right fun _ => ?_
        constructor
        · intro h m hm
          rcases fine_iff.1 (hall m hm) with hb | hb
          · have := h m (List.mem_filter.2 ⟨hm, by simp [hb, Look.here]⟩)
            rw [hg]
            exact ⟨fun x hx => this.1 x ((first_there hb).1 hx), fun hn => (this.2 hn).imp fun x hx => (first_there hb).2 hx⟩
          · have hne : b m ≠ .elsewhere := by rw [hb]; simp
            exact ⟨fun x hx => ((first_here hne).1 hx).symm.trans hb, fun _ => ⟨_, (first_here hne).2 rfl⟩⟩
        · intro h m hm
          obtain ⟨hm, hh⟩ := List.mem_filter.1 hm
          have hb : b m = .elsewhere := by
            cases hx : b m with
            | elsewhere => rfl
            | found p => simp [hx, Look.here] at hh
            | panic => simp [hx, Look.here] at hh
          have := h m hm
          rw [hg] at this
          exact ⟨fun x hx => this.1 x ((first_there hb).2 hx), fun hn => (this.2 hn).imp fun x hx => (first_there hb).1 hx⟩
      · rename_i hall
        simp only [ne_eq, not_true_eq_false, false_iff]
        rintro ⟨_, h⟩
        apply hall
        rw [List.all_eq_true]
        intro m hm
        rw [fine_iff]
        by_cases hb : b m = .elsewhere
        · exact .inl hb
        · exact .inr ((h m hm).1 _ ((first_here hb).2 rfl))

theorem returns_map {α : Type} (f : α → End) (x : Option α) :
    returns (x.map f) = true ↔ ∀ a, x = some a → f a ≠ .panic := by
  cases x with
  | none => simp [returns]
  | some a =>
    simp only [Option.map_some, Option.some.injEq, forall_eq']
    cases f a <;> simp [returns]

/-- Exactly when a test of annotated permissions passes. -/
theorem C123_refinements (ws : Char → Bool) (opn close : List Char) (c : Compiler (Mark → Look)) (file : Option (List Char)) :
    refinements ws opn close c file = true ↔
      ∃ src clean marks, file = some src ∧ splitTestSource ws opn close src = .ok (clean, marks) ∧
        ∀ bodies, c clean = some bodies →
          (∀ i, Before bodies i → bodies[i]? ≠ some .panic) ∧
          ∀ m ∈ marks, (∀ x, First bodies m x → x = .found m.perms) ∧ (¬ GivesUp bodies → ∃ x, First bodies m x) := by
  cases file with
  | none => simp [refinements]
  | some src =>
    rw [refinements]
    cases hs : splitTestSource ws opn close src with
    | error e => simp [hs]
    | ok r =>
      obtain ⟨clean, marks⟩ := r
      simp only [returns_map, refine_iff, Option.some.injEq]
      constructor
      · intro h
        exact ⟨src, clean, marks, rfl, hs, h⟩
      · rintro ⟨_, _, _, rfl, h1, h⟩
        rw [hs] at h1
        cases h1
        exact h

/-- If the program compiles as far as the analysis and no fatal error comes up, a passing test has compared every
annotation with what the analysis says. -/
theorem C123_checked_partial {ws : Char → Bool} {opn close : List Char} {c : Compiler (Mark → Look)} {src clean : List Char}
    {marks : List Mark} (hs : splitTestSource ws opn close src = .ok (clean, marks)) {bodies : List (Part (Mark → Look))}
    (hc : c clean = some bodies) (hg : ¬ GivesUp bodies) (h : refinements ws opn close c (some src) = true) :
    ∀ m ∈ marks, First bodies m (.found m.perms) := by
  obtain ⟨_, _, _, h1, h2, h3⟩ := (C123_refinements ws opn close c _).1 h
  cases h1
  rw [hs] at h2
  cases h2
  intro m hm
  obtain ⟨h4, h5⟩ := (h3 bodies hc).2 m hm
  obtain ⟨x, hx⟩ := h5 hg
  rw [h4 x hx] at hx
  exact hx

/-- If the compiler stops before the analysis, every annotation passes. -/
theorem C123_unchecked {ws : Char → Bool} {opn close : List Char} {c : Compiler (Mark → Look)} {src clean : List Char}
    {marks : List Mark} (hs : splitTestSource ws opn close src = .ok (clean, marks)) (hc : c clean = none) :
    refinements ws opn close c (some src) = true := by
  rw [refinements, hs]
  simp only [hc, Option.map_none]
  rfl

/-- A fatal error at the first body does the same. -/
theorem C123_fatal {ws : Char → Bool} {opn close : List Char} {c : Compiler (Mark → Look)} {src clean : List Char}
    {marks : List Mark} (hs : splitTestSource ws opn close src = .ok (clean, marks)) {r : List (Part (Mark → Look))}
    (hc : c clean = some (.fatal :: r)) : refinements ws opn close c (some src) = true := by
  rw [refinements, hs]
  simp only [hc, Option.map_some]
  rfl

/-! ## Snapshots -/

theorem snaps_iff {V : Type} [DecidableEq V] (store : List Char → Option V) (file : List Char)
    (bodies : List (Part (List Char × V))) :
    snaps store file bodies ≠ .panic ↔
      ∀ i, Before bodies i → bodies[i]? ≠ some .panic ∧
        ∀ tag v, bodies[i]? = some (.got (tag, v)) → store (tag ++ ['@'] ++ file) = some v := by
  induction bodies with
  | nil => simp [snaps]
  | cons part r ih =>
    cases part with
    | fatal =>
      simp only [snaps, ne_eq, reduceCtorEq, not_false_eq_true, true_iff]
      intro i hb
      exact absurd rfl (hb 0 (Nat.zero_le _))
    | panic =>
      simp only [snaps, ne_eq, not_true_eq_false, false_iff]
      intro h
      exact (h 0 (before_zero (by simp))).1 rfl
    | got x =>
      obtain ⟨tag, v⟩ := x
      rw [snaps]
      have hn : snapName tag file = tag ++ ['@'] ++ file := by simp [snapName]
      rw [hn]
      split
      · rename_i hst
        rw [ih]
        constructor
        · intro h i hi
          match i with
          | 0 =>
            refine ⟨by simp, fun tag' v' h' => ?_⟩
            simp only [List.getElem?_cons_zero, Option.some.injEq, Part.got.injEq, Prod.mk.injEq] at h'
            rw [← h'.1, ← h'.2]
            exact hst
          | i + 1 => exact h i ((before_succ (by simp)).1 hi)
        · intro h i hi
          exact h (i + 1) ((before_succ (by simp)).2 hi)
      · rename_i hst
        simp only [ne_eq, not_true_eq_false, false_iff]
        intro h
        exact hst ((h 0 (before_zero (by simp))).2 tag v rfl)

/-- Exactly when a test of boundaries passes: the program stops the compiler, or each body before the first fatal error
has been analysed without panic, and what was found is stored under its name and that of the file. -/
theorem C123_boundaries {V : Type} [DecidableEq V] (store : List Char → Option V) (c : Bool → Compiler (List Char × V))
    (file : List Char) (text : Option (List Char)) :
    boundaries store c file text = true ↔ ∃ src, text = some src ∧ ∀ bodies, c (flowsOf src) src = some bodies →
      ∀ i, Before bodies i → bodies[i]? ≠ some .panic ∧
        ∀ tag v, bodies[i]? = some (.got (tag, v)) → store (tag ++ ['@'] ++ file) = some v := by
  cases text with
  | none => simp [boundaries]
  | some src => simp only [boundaries, returns_map, snaps_iff, Option.some.injEq, exists_eq_left']

/-- Exactly when a test of steps passes. -/
theorem C123_steps {V : Type} [DecidableEq V] (store : List Char → Option V) (c : Compiler (List Char × V))
    (file : List Char) (text : Option (List Char)) :
    steps store c file text = true ↔ ∃ src, text = some src ∧ ∀ bodies, c src = some bodies →
      ∀ i, Before bodies i → bodies[i]? ≠ some .panic ∧
        ∀ tag v, bodies[i]? = some (.got (tag, v)) → store (tag ++ ['@'] ++ file) = some v := by
  cases text with
  | none => simp [steps]
  | some src => simp only [steps, returns_map, snaps_iff, Option.some.injEq, exists_eq_left']

/-- Exactly when a test of the interpreter passes. -/
theorem C123_interpreter {V : Type} [DecidableEq V] (store : List Char → Option V) (c : List Char → Option (Part V))
    (file : List Char) (text : Option (List Char)) :
    interpreter store c file text = true ↔ ∃ src, text = some src ∧
      (c src = none ∨ c src = some .fatal ∨ ∃ v, c src = some (.got v) ∧ store file = some v) := by
  cases text with
  | none => simp [interpreter]
  | some src =>
    rw [interpreter]
    cases h : c src with
    | none => simp [returns, h]
    | some x =>
      cases x with
      | fatal => simp [returns, h]
      | panic => simp [returns, h]
      | got v =>
        simp only [Option.map_some]
        by_cases hv : store file = some v
        · rw [if_pos hv]
          simp only [returns, true_iff]
          exact ⟨src, rfl, .inr (.inr ⟨v, h, hv⟩)⟩
        · rw [if_neg hv]
          simp only [returns, Bool.false_eq_true, false_iff]
          rintro ⟨_, h1, h2⟩
          cases h1
          rw [h] at h2
          rcases h2 with h2 | h2 | ⟨v', h2, h3⟩
          · cases h2
          · cases h2
          · cases h2
            exact hv h3

/-- Functions of the same name in one file share a snapshot: if what is found for them differs, the test fails,
whatever is stored. -/
theorem C123_same_name {V : Type} [DecidableEq V] (c : Compiler (List Char × V)) {file src tag : List Char} {v w : V}
    {bodies : List (Part (List Char × V))} (hc : c src = some bodies) {i j : Nat} (hi : Before bodies i) (hj : Before bodies j)
    (h1 : bodies[i]? = some (.got (tag, v))) (h2 : bodies[j]? = some (.got (tag, w))) (hne : v ≠ w)
    (store : List Char → Option V) : steps store c file (some src) = false := by
  rw [← Bool.not_eq_true]
  intro h
  obtain ⟨_, hs, h⟩ := (C123_steps store c file _).1 h
  cases hs
  have e1 := (h bodies hc i hi).2 tag v h1
  have e2 := (h bodies hc j hj).2 tag w h2
  rw [e1] at e2
  cases e2
  exact hne rfl

/-! ## Flows -/

theorem contains_iff (x : List Char) : ∀ s : List Char, containsText x s = true ↔ ∃ a b, s = a ++ (x ++ b)
  | [] => by
    rw [containsText, List.isPrefixOf_iff_prefix]
    constructor
    · rintro ⟨t, h⟩
      exact ⟨[], t, h.symm⟩
    · rintro ⟨a, b, h⟩
      have := List.append_eq_nil_iff.1 h.symm
      exact ⟨b, this.2⟩
  | c :: r => by
    rw [containsText, Bool.or_eq_true, List.isPrefixOf_iff_prefix, contains_iff x r]
    constructor
    · rintro (⟨t, h⟩ | ⟨a, b, h⟩)
      · exact ⟨[], t, h.symm⟩
      · exact ⟨c :: a, b, by rw [h]; rfl⟩
    · rintro ⟨a, b, h⟩
      cases a with
      | nil => exact .inl ⟨b, h.symm⟩
      | cons d a =>
        simp only [List.cons_append, List.cons.injEq] at h
        exact .inr ⟨a, b, h.2⟩

/-- Flows are shown in a test of boundaries iff some line begins with `////!` and mentions `show-flows`. -/
theorem C123_flows (src : List Char) : flowsOf src = true ↔ ∃ l ∈ Annotations.lines src,
    (∃ t, l = ['/', '/', '/', '/', '!'] ++ t) ∧
      ∃ a b, l = a ++ (['s', 'h', 'o', 'w', '-', 'f', 'l', 'o', 'w', 's'] ++ b) := by
  unfold flowsOf
  rw [List.any_eq_true]
  refine exists_congr fun l => and_congr_right fun _ => ?_
  rw [Bool.and_eq_true, List.isPrefixOf_iff_prefix, contains_iff]
  exact and_congr_left fun _ => ⟨fun ⟨t, h⟩ => ⟨t, h.symm⟩, fun ⟨t, h⟩ => ⟨t, h.symm⟩⟩

/-! ## A directory -/

/-- The tests that are run. -/
def Selected (only : Option (List Char)) (name : List Char) : Prop := ∀ x, only = some x → ∃ t, name = x ++ t

theorem selected_iff (only : Option (List Char)) (name : List Char) :
    selected only name = true ↔ Selected only name := by
  unfold selected
  cases only with
  | none => simp [Selected]
  | some x =>
    simp only [List.isPrefixOf_iff_prefix, Selected, Option.some.injEq, forall_eq']
    exact ⟨fun ⟨t, h⟩ => ⟨t, h.symm⟩, fun ⟨t, h⟩ => ⟨t, h.symm⟩⟩

theorem scan_iff (only : Option (List Char)) (test : List Char → Bool) : ∀ es : List Entry,
    scan only test es = some false ↔ ∀ e ∈ es, ∃ name, e = .file name ∧ (Selected only name → test name = true)
  | [] => by simp [scan]
  | .unreadable :: r => by
    simp only [scan, reduceCtorEq, false_iff]
    intro h
    obtain ⟨_, h, _⟩ := h _ (List.mem_cons_self ..)
    cases h
  | .notUtf8 :: r => by
    simp only [scan, reduceCtorEq, false_iff]
    intro h
    obtain ⟨_, h, _⟩ := h _ (List.mem_cons_self ..)
    cases h
  | .file name :: r => by
    have ih := scan_iff only test r
    rw [scan, List.forall_mem_cons]
    split
    · rename_i hs
      have hs := (selected_iff only name).1 hs
      constructor
      · intro h
        cases hr : scan only test r with
        | none => rw [hr] at h; simp at h
        | some b =>
          rw [hr] at h
          simp only [Option.map_some, Option.some.injEq, Bool.or_eq_false_iff, Bool.not_eq_false'] at h
          rw [h.2] at hr
          exact ⟨⟨name, rfl, fun _ => h.1⟩, ih.1 hr⟩
      · rintro ⟨⟨_, h1, h2⟩, h3⟩
        cases h1
        rw [ih.2 h3, Option.map_some, h2 hs]
        rfl
    · rename_i hs
      have hs : ¬ Selected only name := fun h => hs ((selected_iff only name).2 h)
      rw [ih]
      exact ⟨fun h => ⟨⟨name, rfl, fun h' => absurd h' hs⟩, h⟩, fun h => h.2⟩

/-- A directory passes iff it can be read with all its names and each selected test passes; one failure does not keep the
others from being run. -/
theorem C123_directory (only : Option (List Char)) (test : List Char → Bool) (dir : Option (List Entry)) :
    runInDir only test dir = true ↔ ∃ es, dir = some es ∧
      ∀ e ∈ es, ∃ name, e = .file name ∧ (Selected only name → test name = true) := by
  cases dir with
  | none => simp [runInDir]
  | some es =>
    rw [runInDir]
    simp only [Option.some.injEq, exists_eq_left', ← scan_iff only test es]
    cases scan only test es with
    | none => simp
    | some b => cases b <;> simp

/-- If `ONLY` selects nothing, the directory passes. -/
theorem C123_nothing_selected {only : List Char} {names : List (List Char)} (h : ∀ n ∈ names, ¬ ∃ t, n = only ++ t)
    (test : List Char → Bool) : runInDir (some only) test (some (names.map .file)) = true := by
  rw [C123_directory]
  refine ⟨_, rfl, fun e he => ?_⟩
  obtain ⟨n, hn, rfl⟩ := List.mem_map.1 he
  exact ⟨n, rfl, fun hs => absurd (hs only rfl) (h n hn)⟩

/-! ## Examples -/

/-- `fn f( {` followed by an annotation: the compiler cannot parse it. -/
def broken : List Char := ['f', '(', '{', '`', '[', 'x', ' ', 'R', ']', '`']

/-- **The test of a program that does not compile passes**, whatever its annotations say. -/
theorem C123_broken_passes : ∃ (c : Compiler (Mark → Look)) (clean : List Char) (m : Mark),
    splitTestSource space o2 c2 broken = .ok (clean, [m]) ∧ c clean = none ∧
    refinements space o2 c2 c (some broken) = true := by
  refine ⟨fun _ => none, ['f', '(', '{', 'x'], ⟨3, 4, ['x'], ⟨true, false, false⟩⟩, by decide +kernel, rfl, by decide +kernel⟩

/-- A test that passes and one that fails. -/
def sees (p : Perms) : Compiler (Mark → Look) := fun _ => some [.got fun _ => .elsewhere, .got fun _ => .found p]

example : refinements space o2 c2 (sees ⟨true, false, false⟩) (some broken) = true ∧
    refinements space o2 c2 (sees ⟨true, true, false⟩) (some broken) = false ∧
    ¬ GivesUp [Part.got (fun _ : Mark => Look.elsewhere), .got fun _ => .found ⟨true, false, false⟩] :=
  ⟨by decide +kernel, by decide +kernel, by simp [GivesUp]⟩

example : runInDir none (fun n => n == ['a']) (some [.file ['a'], .file ['b']]) = false ∧
    runInDir (some ['a']) (fun n => n == ['a']) (some [.file ['a'], .file ['b']]) = true ∧
    runInDir (some ['a']) (fun n => n == ['a']) (some [.file ['a'], .notUtf8]) = false := by decide

example : flowsOf (cfgHash ++ [' '] ++ showFlows ++ ['\n', 'f']) = true ∧ flowsOf (showFlows ++ ['\n', 'f']) = false := by
  decide +kernel

/-- Two functions `new` in one file. -/
example (store : List Char → Option Nat) : steps store (fun _ => some [.got (['n'], 1), .got (['n'], 2)]) ['a'] (some []) = false :=
  C123_same_name _ rfl (i := 0) (j := 1) (v := 1) (w := 2) (tag := ['n']) (by intro j hj; obtain rfl : j = 0 := (by omega); simp)
    (by
      intro j hj
      match j with
      | 0 => simp
      | 1 => simp
      | j + 2 => omega) rfl rfl (by decide) store

end Verif.TestRun
