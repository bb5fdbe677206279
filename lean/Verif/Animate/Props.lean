import Verif.Animate.Model
/-! # C138: the animation of a stack of permissions -/
namespace Verif.Animate

/-! ## Specification -/

/-- The mouse entered or left the stack less than half a second ago: `last` is the time of the last event. -/
def Recent (es : List Event) (t : Nat) : Prop := ∃ e, es.getLast? = some e ∧ t < e.time + 500

/-- The stack was rendered between any two events. -/
def Rendered (es : List Event) : Prop := ∀ e ∈ es.dropLast, e.rendered = true

/-! ## Proofs -/

theorem run_concat (es : List Event) (e : Event) : run (es ++ [e]) = step (run es) e := by simp [run]

/-- The fields after an event that `render` leaves alone. -/
theorem step_fields (s : Stack) (e : Event) : (step s e).animating = true ∧
    (step s e).running = clear (advance e.time s).seen (advance e.time s).running ++ [((advance e.time s).next, e.time + 500)] ∧
    (step s e).next = (advance e.time s).next + 1 ∧
    (step s e).seen = if e.rendered then some (advance e.time s).next else (advance e.time s).seen := by
  unfold step
  split <;> simp [trigger, render, duration]

theorem advance_next (t : Nat) (s : Stack) : (advance t s).next = s.next := by unfold advance; split <;> rfl

theorem advance_seen (t : Nat) (s : Stack) : (advance t s).seen = s.seen := by unfold advance; split <;> rfl

theorem advance_running {t : Nat} {s : Stack} {x : Nat × Nat} (h : x ∈ (advance t s).running) : x ∈ s.running := by
  unfold advance at h
  split at h
  · exact (List.mem_filter.1 h).1
  · exact h

theorem advance_keeps {t : Nat} {s : Stack} {x : Nat × Nat} (h : x ∈ s.running) (ht : t < x.2) : x ∈ (advance t s).running := by
  unfold advance
  split
  · exact List.mem_filter.2 ⟨h, decide_eq_true ht⟩
  · exact h

theorem advance_due {t : Nat} {s : Stack} {x : Nat × Nat} (h : x ∈ s.running) (ht : x.2 ≤ t) : (advance t s).animating = false := by
  unfold advance
  rw [if_pos (List.any_eq_true.2 ⟨x, h, decide_eq_true ht⟩)]

theorem eq_concat {es : List Event} {e : Event} (h : es.getLast? = some e) : es = es.dropLast ++ [e] :=
  (List.getLast?_eq_some_iff.1 h).elim fun ys hy => by rw [hy, List.dropLast_concat]

theorem rev_ind {P : List Event → Prop} (nil : P []) (append_singleton : ∀ es e, P es → P (es ++ [e])) (es : List Event) : P es := by
  rw [← List.reverse_reverse es]
  generalize es.reverse = l
  induction l with
  | nil => exact nil
  | cons e l ih => rw [List.reverse_cons]; exact append_singleton _ _ ih

/-- Without events nothing is animated. -/
theorem animatedAt_nil (t : Nat) : animatedAt [] t = false := rfl

/-- **C138 (it ends).** Whatever is rendered and when, a stack is animated only for half a second after the mouse entered or left it. -/
theorem C138_ends {es : List Event} {t : Nat} (h : animatedAt es t = true) : Recent es t := by
  cases hl : es.getLast? with
  | none =>
    rw [List.getLast?_eq_none_iff] at hl
    subst hl
    exact absurd h (by rw [animatedAt_nil]; decide)
  | some e =>
    refine ⟨e, hl, Nat.lt_of_not_le fun hle => ?_⟩
    rw [eq_concat hl, animatedAt, run_concat] at h
    have hm : ((advance e.time (run es.dropLast)).next, e.time + 500) ∈ (step (run es.dropLast) e).running := by
      rw [(step_fields _ _).2.1]
      simp
    rw [advance_due hm hle] at h
    exact absurd h (by decide)

/-- All timers that run are the one that is seen. -/
theorem running_seen : ∀ {es : List Event}, (∀ e ∈ es, e.rendered = true) → ∀ x ∈ (run es).running, (run es).seen = some x.1 := by
  intro es
  induction es using rev_ind with
  | nil => intro _ x hx; exact absurd hx (by simp [run, fresh])
  | append_singleton es e ih =>
    intro h x hx
    have ih := ih fun a ha => h a (List.mem_append.2 (.inl ha))
    have he := h e (by simp)
    rw [run_concat] at hx ⊢
    obtain ⟨-, h2, -, h4⟩ := step_fields (run es) e
    rw [h4, if_pos he]
    rw [h2, List.mem_append, List.mem_singleton] at hx
    rcases hx with hx | hx
    · exfalso
      cases hs : (advance e.time (run es)).seen with
      | none =>
        rw [hs] at hx
        have := ih x (advance_running hx)
        rw [advance_seen] at hs
        rw [hs] at this
        exact absurd this (by simp)
      | some n =>
        rw [hs, clear, List.mem_filter, decide_eq_true_eq] at hx
        have := ih x (advance_running hx.1)
        rw [advance_seen] at hs
        rw [hs] at this
        exact hx.2 (Option.some.inj this).symm
    · rw [hx]

/-- **C138 (rendered in between).** If the stack is rendered between any two events, it is animated exactly for half a second after the last. -/
theorem C138_rendered {es : List Event} (hr : Rendered es) (t : Nat) : animatedAt es t = true ↔ Recent es t := by
  refine ⟨C138_ends, ?_⟩
  rintro ⟨e, hl, ht⟩
  have hs := running_seen (es := es.dropLast) hr
  rw [eq_concat hl, animatedAt, run_concat]
  obtain ⟨h1, h2, -⟩ := step_fields (run es.dropLast) e
  have hc : clear (advance e.time (run es.dropLast)).seen (advance e.time (run es.dropLast)).running = [] := by
    rw [List.eq_nil_iff_forall_not_mem]
    intro x hx
    have hseen := fun q => hs x (advance_running (t := e.time) q)
    rw [← advance_seen e.time] at hseen
    cases hn : (advance e.time (run es.dropLast)).seen with
    | none =>
      rw [hn] at hx hseen
      exact absurd (hseen hx) (by simp)
    | some n =>
      rw [hn, clear, List.mem_filter, decide_eq_true_eq] at hx
      rw [hn] at hseen
      exact hx.2 (Option.some.inj (hseen hx.1)).symm
  rw [hc, List.nil_append] at h2
  unfold advance
  rw [if_neg, h1]
  rw [h2]
  simp
  omega

/-- The timer that is seen is older than the next one. -/
theorem seen_lt : ∀ es : List Event, ∀ n, (run es).seen = some n → n < (run es).next := by
  intro es
  induction es using rev_ind with
  | nil => intro n h; exact absurd h (by simp [run, fresh])
  | append_singleton es e ih =>
    intro n h
    rw [run_concat] at h ⊢
    obtain ⟨-, -, h3, h4⟩ := step_fields (run es) e
    rw [h4] at h
    rw [h3, advance_next]
    split at h
    · rw [advance_next] at h
      cases h
      exact Nat.lt_succ_self _
    · rw [advance_seen] at h
      exact Nat.lt_succ_of_lt (ih n h)

/-- **C138 (not rendered in between).** If the mouse enters and leaves before the stack is rendered, the animation of the second
event ends when that of the first would have. -/
theorem C138_cut_short (es : List Event) {t₀ t₁ t : Nat} (b : Bool) (h₁ : t₁ < t₀ + 500) (ht : t₀ + 500 ≤ t) :
    animatedAt (es ++ [⟨t₀, false⟩] ++ [⟨t₁, b⟩]) t = false := by
  rw [animatedAt, run_concat, run_concat]
  generalize hs : step (run es) ⟨t₀, false⟩ = s
  obtain ⟨-, h2, -, h4⟩ := step_fields (run es) ⟨t₀, false⟩
  rw [hs] at h2 h4
  have hm : ((run es).next, t₀ + 500) ∈ s.running := by
    rw [h2, advance_next]
    simp
  obtain ⟨-, k2, -⟩ := step_fields s ⟨t₁, b⟩
  refine advance_due (x := ((run es).next, t₀ + 500)) ?_ ht
  rw [k2, List.mem_append]
  refine .inl ?_
  have hk := advance_keeps (t := t₁) hm h₁
  rw [advance_seen, h4, if_neg (by simp), advance_seen]
  cases hn : (run es).seen with
  | none => exact hk
  | some n =>
    rw [clear, List.mem_filter, decide_eq_true_eq]
    exact ⟨hk, Nat.ne_of_gt (seen_lt es n hn)⟩

example : Rendered [⟨100, true⟩, ⟨400, true⟩, ⟨450, false⟩] ∧ Recent [⟨100, true⟩, ⟨400, true⟩, ⟨450, false⟩] 949 ∧
    ¬ Recent [⟨100, true⟩, ⟨400, true⟩, ⟨450, false⟩] 950 :=
  ⟨by unfold Rendered; decide, ⟨_, rfl, by decide⟩, by rintro ⟨e, h, ht⟩; cases h; exact absurd ht (by decide)⟩

example : animatedAt ([⟨0, true⟩] ++ [⟨1000, false⟩] ++ [⟨1300, true⟩]) 1600 = false ∧
    Recent ([⟨0, true⟩] ++ [⟨1000, false⟩] ++ [⟨1300, true⟩]) 1600 := ⟨by decide, _, rfl, by decide⟩

#guard animatedAt [⟨100, true⟩, ⟨400, true⟩] 899
#guard !animatedAt [⟨100, true⟩, ⟨400, true⟩] 900
#guard !animatedAt [⟨100, false⟩, ⟨400, true⟩] 600

end Verif.Animate
