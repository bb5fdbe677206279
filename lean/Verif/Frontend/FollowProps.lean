import Verif.Frontend.Follow
/-!
# C135: arrows stay with their diagram
-/
namespace Verif.Frontend.Follow

/-! ## Specification -/

/-- The diagrams that were drawn. -/
def drawings : List Event → List (List Nat)
  | [] => []
  | .draw ns :: es => ns :: drawings es
  | .again :: es => drawings es

/-- An arrow of a diagram: its step has so many. -/
def ArrowOf (r : Nat) (ns : List Nat) (a : Place × Nat) : Prop := ∃ i n, ns[i]? = some n ∧ a.1 = (r, i) ∧ a.2 < n

/-! ## The timer -/

variable {β : Type} (corner : Nat → Int × Int) (inner : Nat → β)

theorem pair_ne {x y : Int × Int} : (x.1 ≠ y.1 ∨ x.2 ≠ y.2) ↔ x ≠ y := by
  obtain ⟨a, b⟩ := x
  obtain ⟨c, d⟩ := y
  simp only [ne_eq, Prod.mk.injEq]
  omega

theorem ticks_last (k : Nat) : (ticks corner inner k).last = corner (period * k) := by
  cases k <;> rfl

/-- A corner that the style sheet can be told. -/
def Sayable (x : Int × Int) : Prop := 0 ≤ x.1 ∧ 0 ≤ x.2

theorem setShift_pos {o : Option (Int × Int)} {x : Int × Int} (h : Sayable x) : setShift o x = some x := by
  unfold Sayable at h
  rw [setShift, if_neg (by omega)]

theorem setShift_neg {o : Option (Int × Int)} {x : Int × Int} (h : ¬ Sayable x) : setShift o x = o := by
  unfold Sayable at h
  rw [setShift, if_pos (by omega)]

theorem ticks_now (k : Nat) (h : Sayable (corner (period * k))) :
    (ticks corner inner k).shift = some (corner (period * k)) := by
  induction k with
  | zero => exact setShift_pos h
  | succ k ih =>
    simp only [ticks, tick, ticks_last]
    split
    · exact setShift_pos h
    · rename_i hn
      rw [pair_ne, Classical.not_not] at hn
      rw [ih (hn ▸ h), hn]

theorem ticks_before (k : Nat) (h : ¬ Sayable (corner (period * (k + 1)))) :
    (ticks corner inner (k + 1)).shift = (ticks corner inner k).shift := by
  simp only [ticks, tick, ticks_last]
  split
  · exact setShift_neg h
  · rfl

/-- The arrows are shifted to where the corner of the diagram was at the last multiple of 300 milliseconds at which its
coordinates were not negative; they are not shifted at all if there is none. -/
theorem C135_follows (t : Nat) :
    ((shownAt corner inner t).shift = none ∧ ∀ j, j ≤ t / 300 → ¬ Sayable (corner (300 * j))) ∨
    ∃ k, k ≤ t / 300 ∧ Sayable (corner (300 * k)) ∧ (shownAt corner inner t).shift = some (corner (300 * k)) ∧
      ∀ j, k < j → j ≤ t / 300 → ¬ Sayable (corner (300 * j)) := by
  show ((ticks corner inner (t / 300)).shift = none ∧ _) ∨ ∃ k, k ≤ t / 300 ∧ _ ∧ (ticks corner inner (t / 300)).shift = _ ∧ _
  generalize t / 300 = m
  induction m with
  | zero =>
    by_cases h : Sayable (corner (300 * 0))
    · exact .inr ⟨0, Nat.le_refl _, h, setShift_pos h, fun j h1 h2 => absurd h1 (by omega)⟩
    · refine .inl ⟨setShift_neg h, fun j hj => ?_⟩
      obtain rfl : j = 0 := by omega
      exact h
  | succ m ih =>
    by_cases h : Sayable (corner (300 * (m + 1)))
    · exact .inr ⟨m + 1, Nat.le_refl _, h, ticks_now corner inner (m + 1) h, fun j h1 h2 => absurd h1 (by omega)⟩
    · rw [ticks_before corner inner m h]
      rcases ih with ⟨h1, h2⟩ | ⟨k, h1, h2, h3, h4⟩
      · refine .inl ⟨h1, fun j hj => ?_⟩
        by_cases e : j = m + 1
        · exact e ▸ h
        · exact h2 j (by omega)
      · refine .inr ⟨k, by omega, h2, h3, fun j hj1 hj2 => ?_⟩
        by_cases e : j = m + 1
        · exact e ▸ h
        · exact h4 j hj1 (by omega)

/-- If the diagram has not moved for 300 milliseconds and its coordinates are not negative, the arrows are with it. -/
theorem C135_in_time_partial {t : Nat} {x : Int × Int} (h : ∀ u, t - 300 < u → u ≤ t → corner u = x) (ht : 300 ≤ t)
    (hx : 0 ≤ x.1 ∧ 0 ≤ x.2) : (shownAt corner inner t).shift = some x := by
  have e1 := Nat.div_add_mod t 300
  have e2 := Nat.mod_lt t (show 300 > 0 by omega)
  have e : corner (300 * (t / 300)) = x := h _ (by omega) (by omega)
  show (ticks corner inner (t / 300)).shift = _
  rw [ticks_now corner inner _ (show Sayable (corner (300 * (t / 300))) from e ▸ hx)]
  exact congrArg some e

/-- The code does otherwise: arrows do not follow a diagram to where a coordinate is negative, however long it stays. -/
theorem C135_negative {x y : Int × Int} (hx : 0 ≤ x.1 ∧ 0 ≤ x.2) (hy : y.1 < 0 ∨ y.2 < 0) (t : Nat) :
    (shownAt (fun u => if u = 0 then x else y) inner t).shift = some x := by
  rcases C135_follows (fun u => if u = 0 then x else y) inner t with ⟨_, h⟩ | ⟨k, _, h2, h3, _⟩
  · exact absurd hx (h 0 (by omega))
  · by_cases hk : 300 * k = 0
    · rw [h3, if_pos hk]
    · rw [if_neg hk] at h2
      unfold Sayable at h2
      omega

/-- The lines are where their elements were at the last multiple of 300 milliseconds at which the corner had moved since the one
before. -/
theorem C135_drawn (t : Nat) : ∃ k, k ≤ t / 300 ∧ (shownAt corner inner t).drawn = inner (300 * k) ∧
    (k = 0 ∨ corner (300 * k) ≠ corner (300 * (k - 1))) ∧
    ∀ j, k < j → j ≤ t / 300 → corner (300 * j) = corner (300 * (j - 1)) := by
  show ∃ k, k ≤ t / 300 ∧ (ticks corner inner (t / 300)).drawn = _ ∧ _
  generalize t / 300 = m
  induction m with
  | zero => exact ⟨0, Nat.le_refl _, rfl, .inl rfl, fun j h1 h2 => absurd h1 (by omega)⟩
  | succ m ih =>
    obtain ⟨k, h1, h2, h3, h4⟩ := ih
    have hl := ticks_last corner inner m
    simp only [ticks, tick]
    rw [hl]
    by_cases h : corner (period * (m + 1)) ≠ corner (period * m)
    · rw [if_pos (pair_ne.2 h)]
      exact ⟨m + 1, Nat.le_refl _, rfl, .inr h, fun j h1 h2 => absurd h1 (by omega)⟩
    · rw [if_neg (fun q => h (pair_ne.1 q))]
      refine ⟨k, by omega, h2, h3, fun j hj1 hj2 => ?_⟩
      by_cases hj : j = m + 1
      · subst hj
        exact Classical.not_not.1 h
      · exact h4 j hj1 (by omega)

/-- The code does otherwise: what moves inside a diagram whose corner stays is never followed by the arrows. -/
theorem C135_inside (h : ∀ u, corner u = corner 0) (t : Nat) : (shownAt corner inner t).drawn = inner 0 := by
  obtain ⟨k, _, h2, h3, _⟩ := C135_drawn corner inner t
  rcases h3 with rfl | h3
  · exact h2
  · exact absurd (by rw [h, h (300 * (k - 1))]) h3

/-! ## What remains -/

theorem mem_effectArrows (r : Nat) : ∀ (ns : List Nat) (i : Nat) (a : Place × Nat), a ∈ effectArrows r ns i ↔
    ∃ j n, ns[j]? = some n ∧ a.1 = (r, i + j) ∧ a.2 < n
  | [], i, a => by simp [effectArrows]
  | m :: ns, i, a => by
    rw [effectArrows, List.mem_append, mem_effectArrows r ns (i + 1) a]
    constructor
    · rintro (h | ⟨j, n, h1, h2, h3⟩)
      · rw [List.mem_map] at h
        obtain ⟨j, hj, rfl⟩ := h
        exact ⟨0, m, rfl, rfl, List.mem_range.1 hj⟩
      · exact ⟨j + 1, n, h1, by rw [h2]; congr 1; omega, h3⟩
    · rintro ⟨j, n, h1, h2, h3⟩
      cases j with
      | zero =>
        cases h1
        refine .inl (List.mem_map.2 ⟨a.2, List.mem_range.2 h3, ?_⟩)
        obtain ⟨x, y⟩ := a
        simp only at h2
        rw [h2]
        rfl
      | succ j => exact .inr ⟨j, n, h1, by rw [h2]; congr 1; omega, h3⟩

theorem nodup_effectArrows (r : Nat) : ∀ (ns : List Nat) (i : Nat), (effectArrows r ns i).Nodup
  | [], i => by simp [effectArrows]
  | m :: ns, i => by
    rw [effectArrows, List.nodup_append]
    refine ⟨?_, nodup_effectArrows r ns (i + 1), ?_⟩
    · rw [List.nodup_iff_pairwise_ne, List.pairwise_map]
      exact List.nodup_range.imp (fun h e => h (by simpa using e))
    · intro a ha b hb e
      subst e
      rw [List.mem_map] at ha
      obtain ⟨j, _, rfl⟩ := ha
      obtain ⟨j', n, _, h2, _⟩ := (mem_effectArrows r ns (i + 1) _).1 hb
      simp only [Prod.mk.injEq, true_and] at h2
      omega

theorem length_effectTimers (r : Nat) : ∀ (ns : List Nat) (i : Nat), (effectTimers r ns i).length = ns.length
  | [], _ => rfl
  | _ :: ns, i => congrArg (· + 1) (length_effectTimers r ns (i + 1))

theorem run_effectTimers (r : Nat) : ∀ (ns : List Nat) (i : Nat), ∀ t ∈ effectTimers r ns i, t.1 = r
  | [], _, t, h => by simp [effectTimers] at h
  | _ :: ns, i, t, h => by
    rw [effectTimers, List.mem_cons] at h
    rcases h with rfl | h
    · rfl
    · exact run_effectTimers r ns (i + 1) t h

/-- The timers of a list of diagrams, the first of which has the number `r + 1`. -/
def allTimers : Nat → List (List Nat) → List Place
  | _, [] => []
  | r, ns :: ds => effectTimers (r + 1) ns 0 ++ allTimers (r + 1) ds

theorem allTimers_concat : ∀ (ds : List (List Nat)) (r : Nat) (ns : List Nat),
    allTimers r (ds ++ [ns]) = allTimers r ds ++ effectTimers (r + ds.length + 1) ns 0
  | [], r, ns => by simp [allTimers]
  | d :: ds, r, ns => by
    rw [List.cons_append, allTimers, allTimers, allTimers_concat ds (r + 1) ns, List.append_assoc, List.length_cons,
      show r + 1 + ds.length = r + (ds.length + 1) by omega]

theorem allTimers_run : ∀ (ds : List (List Nat)) (r : Nat), ∀ t ∈ allTimers r ds, r < t.1 ∧ t.1 ≤ r + ds.length
  | [], _, t, h => by simp [allTimers] at h
  | d :: ds, r, t, h => by
    rw [allTimers, List.mem_append] at h
    rw [List.length_cons]
    rcases h with h | h
    · rw [run_effectTimers _ _ _ t h]
      omega
    · have := allTimers_run ds (r + 1) t h
      omega

theorem drawings_concat (es : List Event) (e : Event) : drawings (es ++ [e]) = drawings es ++ drawings [e] := by
  induction es with
  | nil => rfl
  | cons x es ih => cases x <;> simp [drawings, ih]

/-- The state of the page. -/
theorem run_state (es : List Event) : (run es).runs = (drawings es).length ∧
    (run es).steps = ((drawings es).getLast?).getD [] ∧
    (run es).arrows = effectArrows (run es).runs (run es).steps 0 ∧
    (run es).timers = allTimers 0 (drawings es) := by
  suffices h : ∀ r : List Event, let es := r.reverse
      (run es).runs = (drawings es).length ∧ (run es).steps = ((drawings es).getLast?).getD [] ∧
        (run es).arrows = effectArrows (run es).runs (run es).steps 0 ∧ (run es).timers = allTimers 0 (drawings es) by
    have := h es.reverse
    simpa using this
  intro r
  induction r with
  | nil => exact ⟨rfl, rfl, rfl, rfl⟩
  | cons e r ih =>
    dsimp only at ih ⊢
    rw [List.reverse_cons]
    generalize hes : r.reverse = es at ih
    obtain ⟨h1, h2, h3, h4⟩ := ih
    have hrun : run (es ++ [e]) = (run es).step e := by simp [run, List.foldl_append]
    rw [hrun, drawings_concat]
    cases e with
    | draw ns =>
      simp only [Page.step, Page.effects, drawings, List.length_append, List.length_cons, List.length_nil, List.nil_append]
      refine ⟨by rw [h1], by simp, trivial, ?_⟩
      rw [allTimers_concat, h4, h1, Nat.zero_add]
    | again =>
      simp only [Page.step, drawings, List.append_nil]
      split
      · exact ⟨h1, h2, h3, h4⟩
      · rename_i hr
        refine ⟨h1, h2, ?_, ?_⟩
        · simp only [Page.undo, Page.effects]
          rw [List.filter_eq_nil_iff.2, List.nil_append]
          intro a ha
          rw [h3] at ha
          obtain ⟨j, n, _, e, _⟩ := (mem_effectArrows _ _ _ _).1 ha
          simp [e]
        · simp only [Page.undo, Page.effects]
          rcases List.eq_nil_or_concat (drawings es) with hd | ⟨ds, ns, hd⟩
          · rw [hd] at h1
            exact absurd h1 hr
          · rw [hd, List.concat_eq_append] at h1 h2 h4 ⊢
            have hst : (run es).steps = ns := by rw [h2]; simp
            have hrn : (run es).runs = 0 + ds.length + 1 := by rw [h1]; simp
            rw [allTimers_concat] at h4 ⊢
            rw [h4, hst, hrn, List.filter_append]
            congr 1
            rw [List.filter_eq_self.2, List.filter_eq_nil_iff.2, List.append_nil]
            · intro t ht
              simp [run_effectTimers _ _ _ t ht]
            · intro t ht
              have := allTimers_run ds 0 t ht
              simp only [ne_eq, decide_not, Bool.not_eq_eq_eq_not, Bool.not_true, decide_eq_false_iff_not]
              omega

/-- After any sequence of events the arrows on the page are those of the newest diagram, each once: nothing of an older diagram,
and nothing twice however often the diagram has been drawn again. -/
theorem C135_arrows (es : List Event) : (run es).arrows.Nodup ∧
    ∀ a, a ∈ (run es).arrows ↔ ∃ ns, (drawings es).getLast? = some ns ∧ ArrowOf (drawings es).length ns a := by
  obtain ⟨h1, h2, h3, _⟩ := run_state es
  rw [h3]
  refine ⟨nodup_effectArrows _ _ _, fun a => ?_⟩
  rw [mem_effectArrows, h1, h2]
  unfold ArrowOf
  simp only [Nat.zero_add]
  constructor
  · rintro ⟨j, n, h, e⟩
    cases hl : (drawings es).getLast? with
    | none => rw [hl] at h; simp at h
    | some ns =>
      rw [hl] at h
      exact ⟨ns, rfl, j, n, h, e⟩
  · rintro ⟨ns, hl, j, n, h, e⟩
    rw [hl]
    exact ⟨j, n, h, e⟩

theorem length_allTimers : ∀ (ds : List (List Nat)) (r : Nat), (allTimers r ds).length = (ds.map List.length).sum
  | [], _ => rfl
  | d :: ds, r => by
    rw [allTimers, List.length_append, length_effectTimers, length_allTimers ds (r + 1), List.map_cons, List.sum_cons]

theorem C135_timers_length (es : List Event) : (run es).timers.length = ((drawings es).map List.length).sum := by
  rw [(run_state es).2.2.2, length_allTimers]

theorem mem_effectTimers (r : Nat) : ∀ (ns : List Nat) (i : Nat) (t : Place), t ∈ effectTimers r ns i ↔
    t.1 = r ∧ i ≤ t.2 ∧ t.2 < i + ns.length
  | [], i, t => by
    simp only [effectTimers, List.not_mem_nil, List.length_nil, false_iff]
    omega
  | n :: ns, i, t => by
    rw [effectTimers, List.mem_cons, mem_effectTimers r ns (i + 1) t, List.length_cons]
    obtain ⟨a, b⟩ := t
    simp only [Prod.mk.injEq]
    omega

theorem mem_allTimers : ∀ (ds : List (List Nat)) (r : Nat) (t : Place), t ∈ allTimers r ds ↔
    ∃ j ns, ds[j]? = some ns ∧ t.1 = r + 1 + j ∧ t.2 < ns.length
  | [], r, t => by simp [allTimers]
  | d :: ds, r, t => by
    rw [allTimers, List.mem_append, mem_effectTimers, mem_allTimers ds (r + 1) t]
    constructor
    · rintro (⟨h1, _, h3⟩ | ⟨j, ns, h1, h2, h3⟩)
      · exact ⟨0, d, rfl, by omega, by omega⟩
      · exact ⟨j + 1, ns, h1, by omega, h3⟩
    · rintro ⟨j, ns, h1, h2, h3⟩
      cases j with
      | zero => cases h1; exact .inl ⟨by omega, by omega, by omega⟩
      | succ j => exact .inr ⟨j, ns, h1, by omega, h3⟩

/-- The code does otherwise than expected: the timers of all diagrams ever drawn are running, one for each of their steps. -/
theorem C135_timers (es : List Event) : (run es).timers.length = ((drawings es).map List.length).sum ∧
    ∀ t, t ∈ (run es).timers ↔ ∃ r ns, (drawings es)[r]? = some ns ∧ t.1 = r + 1 ∧ t.2 < ns.length := by
  refine ⟨C135_timers_length es, fun t => ?_⟩
  rw [(run_state es).2.2.2, mem_allTimers]
  constructor
  · rintro ⟨j, ns, h1, h2, h3⟩
    exact ⟨j, ns, h1, by omega, h3⟩
  · rintro ⟨j, ns, h1, h2, h3⟩
    exact ⟨j, ns, h1, by omega, h3⟩

/-- With one diagram, as in a book, there is one timer for each step on the page, however often it is drawn again. -/
theorem C135_once_partial (es : List Event) {ns : List Nat} (h : drawings es = [ns]) : (run es).timers.length = ns.length := by
  rw [(C135_timers es).1, h]
  simp

/-! ## Cases -/

#guard (run [.draw [2, 0], .again, .again, .draw [1], .again]).arrows = [((2, 0), 0)]
#guard (run [.draw [2, 0], .again, .again, .draw [1], .again]).timers = [(1, 0), (1, 1), (2, 0)]

/-- The page is scrolled at time 500 and something inside grows at time 100: at 600 everything is right again; if it is not
scrolled, the lines stay as they were. -/
example : (shownAt (fun t => if t < 500 then (0, 0) else (0, 7)) (fun t => if t < 100 then 1 else 2) 599).drawn = 1 ∧
    (shownAt (fun t => if t < 500 then (0, 0) else (0, 7)) (fun t => if t < 100 then 1 else 2) 599).shift = some (0, 0) ∧
    (shownAt (fun t => if t < 500 then (0, 0) else (0, 7)) (fun t => if t < 100 then 1 else 2) 600).drawn = 2 ∧
    (shownAt (fun t => if t < 500 then (0, 0) else (0, 7)) (fun t => if t < 100 then 1 else 2) 600).shift = some (0, 7) := by decide

example : (shownAt (fun _ => (0, 0)) (fun t => if t < 100 then 1 else 2) 100000).drawn = 1 :=
  C135_inside _ _ (fun _ => rfl) _

end Verif.Frontend.Follow
