import Verif.Animate.Props
/-! # C138: exactly when a stack of permissions is animated, for all renderings -/
namespace Verif.Animate

/-! ## Specification -/

/-- The events are in the order of their times. -/
def InOrder (es : List Event) : Prop := es.Pairwise fun a b => a.time ≤ b.time

/-- The animation of the last event `l` is cut short before `t` by an earlier event after which the stack was not rendered. -/
def CutShort (es : List Event) (l : Event) (t : Nat) : Prop :=
  ∃ e ∈ es, e.rendered = false ∧ l.time < e.time + 500 ∧ e.time + 500 ≤ t

/-! ## Proofs -/

theorem mem_advance {t : Nat} {s : Stack} {x : Nat × Nat} : x ∈ (advance t s).running ↔ x ∈ s.running ∧ t < x.2 := by
  unfold advance
  split
  · simp [List.mem_filter]
  · rename_i h
    refine ⟨fun hx => ⟨hx, Nat.lt_of_not_le fun hle => h ?_⟩, And.left⟩
    exact List.any_eq_true.2 ⟨x, hx, decide_eq_true hle⟩

theorem mem_clear {o : Option Nat} {r : List (Nat × Nat)} {x : Nat × Nat} : x ∈ clear o r ↔ x ∈ r ∧ o ≠ some x.1 := by
  cases o with
  | none => simp [clear]
  | some n =>
    rw [clear, List.mem_filter, decide_eq_true_eq, ne_eq, ne_eq, Option.some.injEq]
    exact and_congr_right fun _ => not_congr eq_comm

theorem mem_step {s : Stack} {l : Event} {x : Nat × Nat} : x ∈ (step s l).running ↔
    (x ∈ s.running ∧ l.time < x.2 ∧ s.seen ≠ some x.1) ∨ x = (s.next, l.time + 500) := by
  rw [(step_fields s l).2.1, List.mem_append, mem_clear, mem_advance, advance_seen, advance_next, List.mem_singleton, and_assoc]

/-- The timers after some events and a last one. -/
structure Inv (es : List Event) (l : Event) (s : Stack) : Prop where
  lt : ∀ x ∈ s.running, x.1 < s.next
  last : ∀ d, (∃ n, n + 1 = s.next ∧ (n, d) ∈ s.running) ↔ d = l.time + 500
  old : ∀ d, (∃ n, n + 1 ≠ s.next ∧ (n, d) ∈ s.running) ↔ ∃ e ∈ es, e.rendered = false ∧ d = e.time + 500 ∧ l.time < d
  seenOld : ∀ x ∈ s.running, s.seen = some x.1 → x.1 + 1 = s.next
  seenLast : l.rendered = true ↔ ∃ n, s.seen = some n ∧ n + 1 = s.next

/-- The parts that need no knowledge of the timers before. -/
theorem inv_step {es : List Event} {l : Event} {s : Stack} (hlt : ∀ x ∈ s.running, x.1 < s.next)
    (hs : ∀ n, s.seen = some n → n < s.next)
    (ho : ∀ d, (∃ n, (n, d) ∈ s.running ∧ l.time < d ∧ s.seen ≠ some n) ↔
      ∃ e ∈ es, e.rendered = false ∧ d = e.time + 500 ∧ l.time < d) : Inv es l (step s l) := by
  have hn : (step s l).next = s.next + 1 := by rw [(step_fields s l).2.2.1, advance_next]
  have hseen : (step s l).seen = if l.rendered then some s.next else s.seen := by
    rw [(step_fields s l).2.2.2, advance_next, advance_seen]
  refine ⟨?_, ?_, ?_, ?_, ?_⟩
  · intro x hx
    rw [hn]
    rcases mem_step.1 hx with h | h
    · exact Nat.lt_succ_of_lt (hlt x h.1)
    · rw [h]; exact Nat.lt_succ_self _
  · intro d
    constructor
    · rintro ⟨n, e, hx⟩
      rcases mem_step.1 hx with h | h
      · have := hlt _ h.1
        simp only at this
        omega
      · cases h; rfl
    · rintro rfl
      exact ⟨s.next, hn.symm, mem_step.2 (.inr rfl)⟩
  · intro d
    rw [← ho d]
    constructor
    · rintro ⟨n, e, hx⟩
      rcases mem_step.1 hx with h | h
      · exact ⟨n, h⟩
      · cases h; exact absurd hn.symm e
    · rintro ⟨n, h⟩
      have := hlt _ h.1
      simp only at this
      exact ⟨n, by omega, mem_step.2 (.inl h)⟩
  · intro x hx e
    rw [hseen] at e
    rcases mem_step.1 hx with h | h
    · split at e
      · have := hlt _ h.1
        have := Option.some.inj e
        omega
      · exact absurd e h.2.2
    · rw [h, hn]
  · rw [hseen, hn]
    cases l.rendered with
    | true => simp
    | false =>
      simp only [Bool.false_eq_true, if_false, false_iff]
      rintro ⟨n, e, h⟩
      have := hs n e
      omega

theorem inv_run : ∀ (es : List Event) (l : Event), InOrder (es ++ [l]) → Inv es l (run (es ++ [l])) := by
  intro es
  induction es using rev_ind with
  | nil =>
    intro l _
    exact inv_step (by simp [fresh]) (by simp [fresh]) (by simp [fresh])
  | append_singleton es e ih =>
    intro l ho
    obtain ⟨ho1, -, ho2⟩ := List.pairwise_append.1 ho
    have hi := ih e ho1
    have hel : e.time ≤ l.time := ho2 e (by simp) l (by simp)
    rw [run_concat]
    refine inv_step hi.lt (seen_lt _) fun d => ?_
    constructor
    · rintro ⟨n, hx, ht, hne⟩
      by_cases hn : n + 1 = (run (es ++ [e])).next
      · refine ⟨e, by simp, ?_, (hi.last d).1 ⟨n, hn, hx⟩, ht⟩
        rw [← Bool.not_eq_true, hi.seenLast]
        rintro ⟨m, hm, hm'⟩
        exact hne (by rw [hm]; congr 1; omega)
      · obtain ⟨a, ha, h⟩ := (hi.old d).1 ⟨n, hn, hx⟩
        exact ⟨a, by simp [ha], h.1, h.2.1, ht⟩
    · rintro ⟨a, ha, hr, hd, ht⟩
      rw [List.mem_append, List.mem_singleton] at ha
      rcases ha with ha | rfl
      · obtain ⟨n, hn, hx⟩ := (hi.old d).2 ⟨a, ha, hr, hd, by omega⟩
        exact ⟨n, hx, ht, fun q => hn (hi.seenOld _ hx q)⟩
      · obtain ⟨n, hn, hx⟩ := (hi.last d).2 hd
        refine ⟨n, hx, ht, fun q => ?_⟩
        rw [hi.seenLast.2 ⟨n, q, hn⟩] at hr
        exact absurd hr (by decide)

/-- **C138 (all renderings).** A stack is animated at a time exactly if the mouse entered or left it less than half a second ago and
no earlier event after which it was not rendered has cut this short. -/
theorem C138_exactly {es : List Event} {l : Event} (ho : InOrder (es ++ [l])) (t : Nat) :
    animatedAt (es ++ [l]) t = true ↔ t < l.time + 500 ∧ ¬ CutShort es l t := by
  have hi := inv_run es l ho
  have ha : (run (es ++ [l])).animating = true := by rw [run_concat]; exact (step_fields _ _).1
  have key : animatedAt (es ++ [l]) t = true ↔ ∀ x ∈ (run (es ++ [l])).running, t < x.2 := by
    unfold animatedAt
    constructor
    · intro h x hx
      refine Nat.lt_of_not_le fun hle => ?_
      rw [advance_due hx hle] at h
      exact absurd h (by decide)
    · intro h
      unfold advance
      rw [if_neg, ha]
      rw [List.any_eq_true]
      rintro ⟨x, hx, hle⟩
      have := h x hx
      have := of_decide_eq_true hle
      omega
  rw [key]
  constructor
  · intro h
    refine ⟨?_, ?_⟩
    · obtain ⟨n, -, hx⟩ := (hi.last _).2 rfl
      exact h _ hx
    · rintro ⟨e, he, hr, h1, h2⟩
      obtain ⟨n, -, hx⟩ := (hi.old _).2 ⟨e, he, hr, rfl, h1⟩
      have := h _ hx
      simp only at this
      omega
  · rintro ⟨h1, h2⟩ ⟨n, d⟩ hx
    by_cases hn : n + 1 = (run (es ++ [l])).next
    · rw [(hi.last d).1 ⟨n, hn, hx⟩]
      exact h1
    · obtain ⟨e, he, hr, hd, hl⟩ := (hi.old d).1 ⟨n, hn, hx⟩
      exact Nat.lt_of_not_le fun hle => h2 ⟨e, he, hr, by omega, by simp only at hle; omega⟩

/-- The second event is not followed by a rendering, but it is over when the third comes. -/
example : InOrder ([⟨0, true⟩, ⟨100, false⟩] ++ [⟨900, true⟩]) ∧ ¬ CutShort [⟨0, true⟩, ⟨100, false⟩] ⟨900, true⟩ 1399 ∧
    animatedAt ([⟨0, true⟩, ⟨100, false⟩] ++ [⟨900, true⟩]) 1399 = true ∧
    CutShort [⟨0, true⟩, ⟨600, false⟩] ⟨900, true⟩ 1100 :=
  ⟨by unfold InOrder; decide, by rintro ⟨e, he, -, h1, -⟩; revert h1; revert he; simp; rintro (rfl | rfl) <;> decide, by decide,
    ⟨⟨600, false⟩, by decide, rfl, by decide, by decide⟩⟩

end Verif.Animate
