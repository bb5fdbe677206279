import Verif.Group.Spec
/-!
# Properties C13, C14: grouping of steps
-/
namespace Verif.Group
open Spec

variable {L L₁ L₂ L₃ P H R K α β : Type}

/-! ## Lemmas -/

theorem mapFrames_some (f : L₁ → Option L₂) (frs : List (Frame L₁ P)) (out : List (Frame L₂ P)) :
    mapFrames f frs = some out ↔
      List.Forall₂ (fun fr fr' => f fr.location = some fr'.location ∧ fr.payload = fr'.payload) frs out := by
  induction frs generalizing out with
  | nil => simp [mapFrames]; constructor
           · rintro rfl; exact .nil
           · intro h; cases h; rfl
  | cons fr frs ih =>
    unfold mapFrames
    cases hf : f fr.location with
    | none => simp; intro h; cases h with | cons h1 _ => rw [hf] at h1; simp at h1
    | some l =>
      dsimp only
      cases hm : mapFrames f frs with
      | none =>
        simp; intro h
        cases h with | cons h1 h2 => rw [(ih _).2 h2] at hm; simp at hm
      | some rest =>
        simp only [Option.some.injEq]
        constructor
        · rintro rfl
          exact .cons ⟨hf, rfl⟩ ((ih rest).1 hm)
        · intro h
          cases h with
          | cons h1 h2 =>
            rename_i fr' out'
            have := (ih _).2 h2
            rw [hm] at this
            simp only [Option.some.injEq] at this
            subst this
            rw [hf] at h1
            simp only [Option.some.injEq] at h1
            cases fr'
            simp_all

theorem mapFrames_none (f : L₁ → Option L₂) (frs : List (Frame L₁ P)) :
    mapFrames f frs = none ↔ ∃ fr ∈ frs, f fr.location = none := by
  induction frs with
  | nil => simp [mapFrames]
  | cons fr frs ih =>
    unfold mapFrames
    cases hf : f fr.location with
    | none => simp [hf]
    | some l =>
      dsimp only
      cases hm : mapFrames f frs with
      | none => simp [hf]; exact (ih.1 hm)
      | some rest => simp [hf]; intro x hx hn; have := ih.2 ⟨x, hx, hn⟩; rw [hm] at this; simp at this

theorem mapStep_some (f : L₁ → Option L₂) (s : Step L₁ P H) (s' : Step L₂ P H) :
    mapStep f s = some s' ↔ MapsTo f s s' := by
  unfold mapStep MapsTo
  rw [← mapFrames_some]
  cases hm : mapFrames f s.frames with
  | none => simp
  | some frs => cases s'; simp

theorem mapStep_none (f : L₁ → Option L₂) (s : Step L₁ P H) :
    mapStep f s = none ↔ ∃ fr ∈ s.frames, f fr.location = none := by
  unfold mapStep
  rw [← mapFrames_none]
  cases mapFrames f s.frames <;> simp

theorem mapped_filterMap (f : L₁ → Option L₂) (ss : List (Step L₁ P H)) :
    Mapped f ss (ss.filterMap (mapStep f)) := by
  induction ss with
  | nil => exact .nil
  | cons s ss ih =>
    cases h : mapStep f s with
    | none => rw [List.filterMap_cons_none h]; exact .drop ((mapStep_none f s).1 h) ih
    | some s' => rw [List.filterMap_cons_some h]; exact .keep ((mapStep_some f s s').1 h) ih

theorem topLoc_some (s : Step L P H) (l : L) : topLoc s = some l ↔ Top s l := by
  unfold topLoc Top
  simp only [Option.map_eq_some_iff, List.getLast?_eq_some_iff]
  constructor
  · rintro ⟨fr, ⟨init, h⟩, rfl⟩; exact ⟨init, fr, h, rfl⟩
  · rintro ⟨init, fr, h, rfl⟩; exact ⟨fr, ⟨init, h⟩, rfl⟩

theorem mapped_nonempty {f : L₁ → Option L₂} {ss : List (Step L₁ P H)} {out : List (Step L₂ P H)}
    (h : Mapped f ss out) (hne : ∀ s ∈ ss, s.frames ≠ []) : ∀ s ∈ out, s.frames ≠ [] := by
  induction h with
  | nil => simp
  | keep h1 _ ih =>
    intro s hs
    simp only [List.mem_cons] at hs
    rcases hs with rfl | hs
    · intro h0
      have h2 := h1.1
      rw [h0] at h2
      generalize hfr : Step.frames _ = frs at h2
      cases h2
      exact hne _ (by simp) hfr
    · exact ih (fun s hs => hne s (by simp [hs])) s hs
  | drop _ _ ih => exact ih (fun s hs => hne s (by simp [hs]))

theorem topLoc_isSome {s : Step L P H} (h : s.frames ≠ []) : ∃ l, topLoc s = some l := by
  unfold topLoc
  cases hl : s.frames.getLast? with
  | none => simp at hl; exact absurd hl h
  | some fr => exact ⟨_, rfl⟩

/-! ### Runs -/

theorem groupFrom_runs [DecidableEq L] (l : L) (g : List (Step L P H)) (xs : List (Step L P H))
    (hg : Run l g.reverse) (hne : ∀ s ∈ xs, s.frames ≠ []) :
    ∃ runs, MaximalRuns (g.reverse ++ xs) runs ∧ groupFrom topLoc (some l) g xs = runs.map (·.2) ∧
      ∃ g' rest, runs = (l, g') :: rest := by
  induction xs generalizing l g with
  | nil => exact ⟨[(l, g.reverse)], by simpa using .last hg, rfl, _, _, rfl⟩
  | cons x xs ih =>
    obtain ⟨lx, hx⟩ := topLoc_isSome (hne x (by simp))
    unfold groupFrom
    by_cases h : topLoc x = some l
    · rw [if_pos h]
      have hg' : Run l (x :: g).reverse := by
        refine ⟨by simp, ?_⟩
        intro s hs
        simp only [List.mem_reverse, List.mem_cons] at hs
        rcases hs with rfl | hs
        · exact (topLoc_some _ _).1 h
        · exact hg.2 s (by simpa using hs)
      obtain ⟨runs, h1, h2, h3⟩ := ih l (x :: g) hg' (fun s hs => hne s (by simp [hs]))
      exact ⟨runs, by simpa using h1, h2, h3⟩
    · rw [if_neg h, hx]
      have hr : Run lx [x].reverse := by
        refine ⟨by simp, ?_⟩
        intro s hs
        simp only [List.reverse_cons, List.reverse_nil, List.nil_append, List.mem_singleton] at hs
        subst hs
        exact (topLoc_some _ _).1 hx
      obtain ⟨runs, h1, h2, g', rest, rfl⟩ := ih lx [x] hr (fun s hs => hne s (by simp [hs]))
      refine ⟨(l, g.reverse) :: (lx, g') :: rest, ?_, by rw [h2]; rfl, _, _, rfl⟩
      refine .cons hg ?_ (by simpa using h1)
      rintro rfl
      exact h hx

theorem groupBy_runs [DecidableEq L] (xs : List (Step L P H)) (hne : ∀ s ∈ xs, s.frames ≠ []) :
    ∃ runs, MaximalRuns xs runs ∧ groupBy topLoc xs = runs.map (·.2) := by
  cases xs with
  | nil => exact ⟨[], .nil, rfl⟩
  | cons x xs =>
    obtain ⟨lx, hx⟩ := topLoc_isSome (hne x (by simp))
    have hr : Run lx [x].reverse := by
      refine ⟨by simp, ?_⟩
      intro s hs
      simp only [List.reverse_cons, List.reverse_nil, List.nil_append, List.mem_singleton] at hs
      subst hs
      exact (topLoc_some _ _).1 hx
    obtain ⟨runs, h1, h2, -⟩ := groupFrom_runs lx [x] xs hr (fun s hs => hne s (by simp [hs]))
    exact ⟨runs, by simpa using h1, by simp only [groupBy]; rw [hx]; exact h2⟩

theorem Spec.Top.unique {s : Step L P H} {l l' : L} (h : Top s l) (h' : Top s l') : l = l' := by
  have := (topLoc_some s l).2 h
  rw [(topLoc_some s l').2 h'] at this
  simpa using this.symm

theorem runs_head {xs : List (Step L P H)} {l : L} {g rest} (h : MaximalRuns xs ((l, g) :: rest)) :
    Run l g := by
  cases h <;> assumption

/-- In the division of `xs` the first group is the longest prefix with that location. -/
theorem runs_unique {xs : List (Step L P H)} {r r'} (h : MaximalRuns xs r) (h' : MaximalRuns xs r') :
    r = r' := by
  -- helper: two runs that start the same list, each followed by a different location
  have key : ∀ {a b : List (Step L P H)} {l l' : L} {xs ys : List (Step L P H)},
      Run l a → Run l' b → a ++ xs = b ++ ys →
      (xs = [] ∨ ∃ s t k, xs = s :: t ∧ Top s k ∧ l ≠ k) →
      (ys = [] ∨ ∃ s t k, ys = s :: t ∧ Top s k ∧ l' ≠ k) → l = l' ∧ a = b ∧ xs = ys := by
    intro a b l l' xs ys ha hb he hx hy
    have hl : l = l' := by
      obtain ⟨hane, haT⟩ := ha
      obtain ⟨hbne, hbT⟩ := hb
      cases a with
      | nil => exact absurd rfl hane
      | cons a0 as =>
        cases b with
        | nil => exact absurd rfl hbne
        | cons b0 bs =>
          simp only [List.cons_append, List.cons.injEq] at he
          have h1 := haT a0 (by simp)
          have h2 := hbT b0 (by simp)
          rw [← he.1] at h2
          exact h1.unique h2
    subst hl
    rcases List.append_eq_append_iff.1 he with ⟨c, rfl, rfl⟩ | ⟨c, rfl, rfl⟩
    · cases c with
      | nil => simp
      | cons c cs =>
        rcases hx with hx | ⟨s, t, k, hx, hk, hne⟩
        · simp at hx
        · simp only [List.cons_append, List.cons.injEq] at hx
          have := hb.2 c (by simp)
          rw [hx.1] at this
          exact absurd (this.unique hk) hne
    · cases c with
      | nil => simp
      | cons c cs =>
        rcases hy with hy | ⟨s, t, k, hy, hk, hne⟩
        · simp at hy
        · simp only [List.cons_append, List.cons.injEq] at hy
          have := ha.2 c (by simp)
          rw [hy.1] at this
          exact absurd (this.unique hk) hne
  have startsWith : ∀ {xs : List (Step L P H)} {l l' : L} {g rest}, l ≠ l' →
      MaximalRuns xs ((l', g) :: rest) → ∃ s t k, xs = s :: t ∧ Top s k ∧ l ≠ k := by
    intro xs l l' g rest hne hm
    have hr := runs_head hm
    have hx : ∃ ys, xs = g ++ ys := by
      cases hm with
      | last _ => exact ⟨[], by simp⟩
      | cons _ _ _ => exact ⟨_, rfl⟩
    obtain ⟨ys, rfl⟩ := hx
    cases g with
    | nil => exact absurd rfl hr.1
    | cons s t => exact ⟨s, t ++ ys, l', rfl, hr.2 s (by simp), hne⟩
  induction h generalizing r' with
  | nil =>
    generalize hxs : ([] : List (Step L P H)) = xs at h'
    cases h' with
    | nil => rfl
    | last hr => exact absurd hxs.symm hr.1
    | cons hr _ _ => simp at hxs; exact absurd hxs.1 hr.1
  | @last l g hr =>
    generalize hxs : g = xs at h'
    cases h' with
    | nil => exact absurd hxs hr.1
    | @last l2 g2 hr2 =>
      obtain ⟨rfl, h2, -⟩ := key hr hr2 (xs := []) (ys := []) (by simpa using hxs) (.inl rfl) (.inl rfl)
      rfl
    | cons hr2 hne2 hm2 =>
      obtain ⟨-, -, h3⟩ := key hr hr2 (xs := []) (by simpa using hxs) (.inl rfl)
        (.inr (startsWith hne2 hm2))
      obtain ⟨s, t, k, h4, -, -⟩ := startsWith hne2 hm2
      rw [h4] at h3; simp at h3
  | @cons l g l1 g1 ys rest hr hne hm ih =>
    generalize hxs : g ++ ys = xs at h'
    cases h' with
    | nil => simp at hxs; exact absurd hxs.1 hr.1
    | last hr2 =>
      obtain ⟨-, -, h3⟩ := key hr hr2 (ys := []) (by simpa using hxs)
        (.inr (startsWith hne hm)) (.inl rfl)
      obtain ⟨s, t, k, h4, -, -⟩ := startsWith hne hm
      rw [h4] at h3; simp at h3
    | cons hr2 hne2 hm2 =>
      obtain ⟨rfl, rfl, rfl⟩ := key hr hr2 hxs (.inr (startsWith hne hm)) (.inr (startsWith hne2 hm2))
      rw [ih hm2]

theorem runs_nonempty {xs : List (Step L P H)} {r} (h : MaximalRuns xs r) : ∀ p ∈ r, Run p.1 p.2 := by
  induction h with
  | nil => simp
  | last hr => simpa using hr
  | cons hr _ _ ih =>
    intro p hp
    simp only [List.mem_cons] at hp
    rcases hp with rfl | hp
    · exact hr
    · exact ih p (by simpa using hp)

/-! ## C13 -/

/-- The last steps of the runs. -/
def lasts (runs : List (L × List (Step L P H))) : List (Step L P H) :=
  runs.filterMap fun p => p.2.getLast?

/-- **C13.** For every trace whose steps have frames, and every partial mapping, grouping succeeds;
there is exactly one division of the mapped steps into maximal runs, and the output consists of the
last step of each run, in order. -/
theorem C13_runs [DecidableEq L₂] (t : Trace L₁ P H R) (f : L₁ → Option L₂)
    (hne : ∀ s ∈ t.steps, s.frames ≠ []) :
    ∃ mapped runs out, Mapped f t.steps mapped ∧ MaximalRuns mapped runs ∧
      (∀ runs', MaximalRuns mapped runs' → runs' = runs) ∧
      groupSteps t f = some out ∧
      List.Forall₂ (fun p s => ∃ pre, p.2 = pre ++ [s]) runs out.steps := by
  have hm := mapped_filterMap f t.steps
  have hne' := mapped_nonempty hm hne
  obtain ⟨runs, hr, hg⟩ := groupBy_runs _ hne'
  have hany : (t.steps.filterMap (mapStep f)).any (fun s => (topLoc s).isNone) = false := by
    rw [List.any_eq_false]
    intro s hs
    obtain ⟨l, hl⟩ := topLoc_isSome (hne' s hs)
    simp [hl]
  refine ⟨_, runs, { steps := (runs.map (·.2)).filterMap List.getLast?, result := t.result },
    hm, hr, fun r' h' => runs_unique h' hr, ?_, ?_⟩
  · simp only [groupSteps, hany]
    simp only [Bool.false_eq_true, if_false, hg]
  · have := runs_nonempty hr
    clear hr hg
    induction runs with
    | nil => exact .nil
    | cons p ps ih =>
      have hp := (this p (by simp)).1
      obtain ⟨pre, s, hps⟩ : ∃ pre s, p.2 = pre ++ [s] :=
        ⟨_, _, (List.dropLast_concat_getLast hp).symm⟩
      have hl : p.2.getLast? = some s := by rw [hps]; simp
      simp only [List.map_cons]
      rw [List.filterMap_cons_some hl]
      exact .cons ⟨pre, hps⟩ (ih (fun q hq => this q (by simp [hq])))

/-- A compact characterisation used in the other proofs: drop a step followed by one with the same
key. -/
def lastOfRuns [DecidableEq K] (key : α → K) : List α → List α
  | [] => []
  | [a] => [a]
  | a :: b :: t => if key b = key a then lastOfRuns key (b :: t) else a :: lastOfRuns key (b :: t)

theorem groupFrom_lasts [DecidableEq K] (key : α → K) (a : α) (g xs : List α) :
    (groupFrom key (key a) (a :: g) xs).filterMap List.getLast? = lastOfRuns key (a :: xs) := by
  induction xs generalizing a g with
  | nil => simp [groupFrom, lastOfRuns]
  | cons x xs ih =>
    simp only [groupFrom, lastOfRuns]
    by_cases h : key x = key a
    · rw [if_pos h, if_pos h, ← h, ih]
    · rw [if_neg h, if_neg h, List.filterMap_cons_some (b := a) (by simp), ih]

theorem groupBy_lasts [DecidableEq K] (key : α → K) (xs : List α) :
    (groupBy key xs).filterMap List.getLast? = lastOfRuns key xs := by
  cases xs with
  | nil => rfl
  | cons x xs => exact groupFrom_lasts key x [] xs

theorem groupSteps_eq [DecidableEq L₂] (t : Trace L₁ P H R) (f : L₁ → Option L₂)
    (out : Trace L₂ P H R) (h : groupSteps t f = some out) :
    out.steps = lastOfRuns topLoc (t.steps.filterMap (mapStep f)) ∧ out.result = t.result ∧
    (∀ s ∈ t.steps.filterMap (mapStep f), s.frames ≠ []) := by
  simp only [groupSteps] at h
  split at h
  · simp at h
  · rename_i hany
    simp only [Option.some.injEq] at h
    subst h
    refine ⟨groupBy_lasts _ _, rfl, ?_⟩
    intro s hs h0
    apply hany
    rw [List.any_eq_true]
    exact ⟨s, hs, by simp [topLoc, h0]⟩

theorem lastOfRuns_head [DecidableEq K] (key : α → K) (a : α) (t : List α) :
    ∃ b u, lastOfRuns key (a :: t) = b :: u ∧ key b = key a := by
  induction t generalizing a with
  | nil => exact ⟨a, [], rfl, rfl⟩
  | cons x xs ih =>
    simp only [lastOfRuns]
    by_cases h : key x = key a
    · obtain ⟨b, u, h1, h2⟩ := ih x
      exact ⟨b, u, by rw [if_pos h, h1], by rw [h2, h]⟩
    · exact ⟨a, _, by rw [if_neg h], rfl⟩

theorem lastOfRuns_chain [DecidableEq K] (key : α → K) (xs : List α) :
    ∀ i a b, (lastOfRuns key xs)[i]? = some a → (lastOfRuns key xs)[i+1]? = some b → key a ≠ key b := by
  induction xs with
  | nil => simp [lastOfRuns]
  | cons x xs ih =>
    cases xs with
    | nil => intro i a b h1 h2; simp [lastOfRuns] at h2
    | cons y ys =>
      simp only [lastOfRuns]
      by_cases h : key y = key x
      · rw [if_pos h]; exact ih
      · rw [if_neg h]
        intro i a b h1 h2
        cases i with
        | zero =>
          obtain ⟨c, u, h3, h4⟩ := lastOfRuns_head key y ys
          rw [h3] at h2
          simp at h1 h2
          subst h1 h2
          rw [h4]; exact fun e => h e.symm
        | succ i => exact ih i a b (by simpa using h1) (by simpa using h2)

/-- **C13.** Consecutive displayed steps have different top locations. -/
theorem C13_consecutive_differ [DecidableEq L₂] (t : Trace L₁ P H R) (f : L₁ → Option L₂)
    (out : Trace L₂ P H R) (h : groupSteps t f = some out) (i : Nat) (s s' : Step L₂ P H)
    (h1 : out.steps[i]? = some s) (h2 : out.steps[i + 1]? = some s') (l : L₂) :
    ¬ (Top s l ∧ Top s' l) := by
  obtain ⟨hs, -, -⟩ := groupSteps_eq t f out h
  rw [hs] at h1 h2
  rintro ⟨h3, h4⟩
  exact lastOfRuns_chain topLoc _ i s s' h1 h2
    (by rw [(topLoc_some s l).2 h3, (topLoc_some s' l).2 h4])

/-- **C13.** Grouping fails (the program panics) only on a trace containing a step without frames. -/
theorem C13_total [DecidableEq L₂] (t : Trace L₁ P H R) (f : L₁ → Option L₂) :
    groupSteps t f = none ↔ ∃ s ∈ t.steps, s.frames = [] := by
  simp only [groupSteps]
  split
  · rename_i h
    simp only [true_iff]
    rw [List.any_eq_true] at h
    obtain ⟨s', hs', hn⟩ := h
    rw [List.mem_filterMap] at hs'
    obtain ⟨s, hs, hm⟩ := hs'
    refine ⟨s, hs, ?_⟩
    have h0 : s'.frames = [] := by
      by_cases h0 : s'.frames = []
      · exact h0
      · obtain ⟨l, hl⟩ := topLoc_isSome h0
        simp [hl] at hn
    have := ((mapStep_some f s s').1 hm).1
    rw [h0] at this
    generalize s.frames = frs at this ⊢
    cases this
    rfl
  · rename_i h
    simp only [reduceCtorEq, false_iff]
    rintro ⟨s, hs, h0⟩
    apply h
    rw [List.any_eq_true]
    refine ⟨{ frames := [], heap := s.heap }, ?_, by simp [topLoc]⟩
    rw [List.mem_filterMap]
    exact ⟨s, hs, by simp [mapStep, h0, mapFrames]⟩

/-! ## C14 -/

/-- **C14.** The outcome of the execution is kept. -/
theorem C14_result [DecidableEq L₂] (t : Trace L₁ P H R) (f : L₁ → Option L₂)
    (out : Trace L₂ P H R) (h : groupSteps t f = some out) : out.result = t.result :=
  (groupSteps_eq t f out h).2.1

theorem lastOfRuns_getLast? [DecidableEq K] (key : α → K) (xs : List α) :
    (lastOfRuns key xs).getLast? = xs.getLast? := by
  induction xs with
  | nil => rfl
  | cons x xs ih =>
    cases xs with
    | nil => rfl
    | cons y ys =>
      simp only [lastOfRuns]
      by_cases h : key y = key x
      · rw [if_pos h, ih]; simp
      · rw [if_neg h]
        obtain ⟨b, u, h1, -⟩ := lastOfRuns_head key y ys
        rw [h1] at ih ⊢
        simp only [List.getLast?_cons_cons] at ih ⊢
        rw [ih]

/-- **C14.** If the last step of the execution can be mapped, the last displayed step is exactly that
step, with its frames (locations mapped, contents unchanged) and its heap. -/
theorem C14_last [DecidableEq L₂] (t : Trace L₁ P H R) (f : L₁ → Option L₂) (out : Trace L₂ P H R)
    (h : groupSteps t f = some out) (pre : List (Step L₁ P H)) (s : Step L₁ P H) (s' : Step L₂ P H)
    (ht : t.steps = pre ++ [s]) (hs : MapsTo f s s') :
    ∃ pre', out.steps = pre' ++ [s'] := by
  obtain ⟨h1, -, -⟩ := groupSteps_eq t f out h
  have : (t.steps.filterMap (mapStep f)).getLast? = some s' := by
    rw [ht, List.filterMap_append]
    simp [(mapStep_some f s s').2 hs]
  rw [← lastOfRuns_getLast? topLoc, ← h1] at this
  obtain ⟨ys, hys⟩ := List.getLast?_eq_some_iff.1 this
  exact ⟨ys, hys⟩

theorem lastOfRuns_of_chain [DecidableEq K] (key : α → K) (xs : List α)
    (h : ∀ i a b, xs[i]? = some a → xs[i+1]? = some b → key a ≠ key b) : lastOfRuns key xs = xs := by
  induction xs with
  | nil => rfl
  | cons x xs ih =>
    cases xs with
    | nil => rfl
    | cons y ys =>
      simp only [lastOfRuns]
      have := h 0 x y (by simp) (by simp)
      rw [if_neg (fun e => this e.symm)]
      rw [ih]
      intro i a b h1 h2
      exact h (i+1) a b (by simpa using h1) (by simpa using h2)

theorem mapFrames_id (frs : List (Frame L P)) : mapFrames some frs = some frs := by
  induction frs with
  | nil => rfl
  | cons fr frs ih => simp [mapFrames, ih]

theorem mapStep_id (ss : List (Step L P H)) : ss.filterMap (mapStep some) = ss := by
  induction ss with
  | nil => rfl
  | cons s ss ih => rw [List.filterMap_cons_some (b := s) (by simp [mapStep, mapFrames_id]), ih]

/-- **C14.** Grouping a grouped trace again by the same locations changes nothing. -/
theorem C14_idempotent [DecidableEq L₂] (t : Trace L₁ P H R) (f : L₁ → Option L₂)
    (out : Trace L₂ P H R) (h : groupSteps t f = some out) : groupSteps out some = some out := by
  obtain ⟨h1, -, h2⟩ := groupSteps_eq t f out h
  have hmem : ∀ s ∈ out.steps, s.frames ≠ [] := by
    intro s hs
    apply h2
    rw [h1] at hs
    clear h1 h2 h
    generalize t.steps.filterMap (mapStep f) = xs at hs
    induction xs with
    | nil => simp [lastOfRuns] at hs
    | cons x xs ih =>
      cases xs with
      | nil => simpa [lastOfRuns] using hs
      | cons y ys =>
        simp only [lastOfRuns] at hs
        split at hs
        · exact List.mem_cons_of_mem _ (ih hs)
        · simp only [List.mem_cons] at hs
          rcases hs with rfl | hs
          · simp
          · exact List.mem_cons_of_mem _ (ih hs)
  cases hg : groupSteps out some with
  | none =>
    obtain ⟨s, hs, h0⟩ := (C13_total out some).1 hg
    exact absurd h0 (hmem s hs)
  | some out' =>
    obtain ⟨h3, h4, -⟩ := groupSteps_eq out some out' hg
    rw [mapStep_id] at h3
    have h5 : lastOfRuns topLoc out.steps = out.steps := by
      rw [h1]
      exact lastOfRuns_of_chain _ _ (lastOfRuns_chain _ _)
    cases out; cases out'
    simp_all

theorem mapFrames_comp (f : L₁ → Option L₂) (g : L₂ → L₃) (frs : List (Frame L₁ P)) :
    mapFrames (fun l => (f l).map g) frs =
      (mapFrames f frs).bind (mapFrames (fun l => some (g l))) := by
  induction frs with
  | nil => rfl
  | cons fr frs ih =>
    simp only [mapFrames]
    cases hf : f fr.location with
    | none => simp
    | some l =>
      simp only [Option.map_some, ih]
      cases hm : mapFrames f frs with
      | none => simp
      | some rest =>
        simp only [Option.bind_some, mapFrames]

/-- Mapping by a total function. -/
def mapTotal (g : L₂ → L₃) (s : Step L₂ P H) : Step L₃ P H :=
  { frames := s.frames.map fun fr => { location := g fr.location, payload := fr.payload },
    heap := s.heap }

theorem mapStep_total (g : L₂ → L₃) (s : Step L₂ P H) :
    mapStep (fun l => some (g l)) s = some (mapTotal g s) := by
  have : ∀ frs : List (Frame L₂ P), mapFrames (fun l => some (g l)) frs =
      some (frs.map fun fr => { location := g fr.location, payload := fr.payload }) := by
    intro frs
    induction frs with
    | nil => rfl
    | cons fr frs ih => simp [mapFrames, ih]
  simp [mapStep, this, mapTotal]

theorem filterMap_comp (f : L₁ → Option L₂) (g : L₂ → L₃) (ss : List (Step L₁ P H)) :
    ss.filterMap (mapStep fun l => (f l).map g) = (ss.filterMap (mapStep f)).map (mapTotal g) := by
  have hs : ∀ s : Step L₁ P H, mapStep (fun l => (f l).map g) s = (mapStep f s).map (mapTotal g) := by
    intro s
    have h2 : mapStep (fun l => (f l).map g) s = (mapStep f s).bind (mapStep fun l => some (g l)) := by
      simp only [mapStep, mapFrames_comp]
      cases hm : mapFrames f s.frames with
      | none => simp
      | some frs => simp [mapStep]
    rw [h2]
    cases mapStep f s with
    | none => rfl
    | some s' => simp [mapStep_total]
  induction ss with
  | nil => rfl
  | cons s ss ih =>
    cases h : mapStep f s with
    | none =>
      rw [List.filterMap_cons_none h, List.filterMap_cons_none (by rw [hs, h]; rfl), ih]
    | some s' =>
      rw [List.filterMap_cons_some h, List.filterMap_cons_some (b := mapTotal g s') (by rw [hs, h]; rfl),
        ih]
      rfl

theorem topLoc_mapTotal (g : L₂ → L₃) (s : Step L₂ P H) :
    topLoc (mapTotal g s) = (topLoc s).map g := by
  simp [topLoc, mapTotal, List.getLast?_map]
  cases s.frames.getLast? <;> simp

theorem lastOfRuns_map [DecidableEq K] {K'} [DecidableEq K'] (key : α → K) (key' : β → K') (g : α → β)
    (hk : ∀ a b, key a = key b → key' (g a) = key' (g b)) (xs : List α) :
    lastOfRuns key' ((lastOfRuns key xs).map g) = lastOfRuns key' (xs.map g) := by
  induction xs with
  | nil => rfl
  | cons x xs ih =>
    cases xs with
    | nil => rfl
    | cons y ys =>
      simp only [lastOfRuns]
      by_cases h : key y = key x
      · rw [if_pos h, ih]
        simp only [List.map_cons, lastOfRuns]
        rw [if_pos (hk _ _ h)]
      · rw [if_neg h]
        obtain ⟨b, u, h1, h2⟩ := lastOfRuns_head key y ys
        rw [h1] at ih ⊢
        simp only [List.map_cons, lastOfRuns] at ih ⊢
        rw [ih]
        rw [hk b y h2]

/-- **C14.** Grouping in two stages, when the second mapping is total, shows the same steps as
grouping once by the composed mapping. -/
theorem C14_two_stage [DecidableEq L₂] [DecidableEq L₃] (t : Trace L₁ P H R) (f : L₁ → Option L₂)
    (g : L₂ → L₃) (out : Trace L₂ P H R) (out2 out1 : Trace L₃ P H R)
    (h1 : groupSteps t f = some out) (h2 : groupSteps out (fun l => some (g l)) = some out2)
    (h3 : groupSteps t (fun l => (f l).map g) = some out1) : out2 = out1 := by
  obtain ⟨a1, b1, -⟩ := groupSteps_eq _ _ _ h1
  obtain ⟨a2, b2, -⟩ := groupSteps_eq _ _ _ h2
  obtain ⟨a3, b3, -⟩ := groupSteps_eq _ _ _ h3
  have hid : ∀ ss : List (Step L₂ P H), ss.filterMap (mapStep fun l => some (g l)) = ss.map (mapTotal g) := by
    intro ss
    induction ss with
    | nil => rfl
    | cons s ss ih => rw [List.filterMap_cons_some (mapStep_total g s), ih]; rfl
  rw [hid, a1] at a2
  rw [filterMap_comp] at a3
  rw [lastOfRuns_map topLoc topLoc (mapTotal g)] at a2
  · cases out1; cases out2; simp_all
  · intro a b hab; rw [topLoc_mapTotal, topLoc_mapTotal, hab]

/-- **C14, limit.** With a partial second mapping, as in `interpret` (mod.rs:26-71, `as_local`), the
two-stage grouping can lose a state that one grouping would show: a run keeps its last step, and that
step may be the only one of the run with an unmappable caller. -/
theorem C14_two_stage_limit :
    ∃ (t : Trace Nat Nat Unit Unit) (f : Nat → Option Nat) (g : Nat → Option Nat)
      (out : Trace Nat Nat Unit Unit) (out2 out1 : Trace Nat Nat Unit Unit),
      groupSteps t f = some out ∧ groupSteps out g = some out2 ∧
      groupSteps t (fun l => (f l).bind g) = some out1 ∧ out2.steps = [] ∧ out1.steps ≠ [] :=
  ⟨{ steps := [⟨[⟨0, 0⟩, ⟨1, 0⟩], ()⟩, ⟨[⟨9, 0⟩, ⟨1, 1⟩], ()⟩], result := () }, some,
    fun l => if l = 9 then none else some l,
    { steps := [⟨[⟨9, 0⟩, ⟨1, 1⟩], ()⟩], result := () },
    { steps := [], result := () },
    { steps := [⟨[⟨0, 0⟩, ⟨1, 0⟩], ()⟩], result := () }, by decide, by decide, by decide, rfl, by decide⟩

/-! ## Non-vacuity -/

/-- A trace with two runs and an unmappable step. -/
def demo : Trace Nat String Nat Bool where
  steps := [⟨[⟨10, "main"⟩], 0⟩, ⟨[⟨11, "main"⟩], 1⟩, ⟨[⟨11, "main"⟩, ⟨99, "f"⟩], 2⟩,
    ⟨[⟨11, "main"⟩], 3⟩, ⟨[⟨20, "main"⟩], 4⟩]
  result := true

example : groupSteps demo (fun l => if l = 99 then none else some (l / 10)) =
    some { steps := [⟨[⟨1, "main"⟩], 3⟩, ⟨[⟨2, "main"⟩], 4⟩], result := true } := by decide +kernel

example : ∀ s ∈ demo.steps, s.frames ≠ [] := by decide

end Verif.Group
