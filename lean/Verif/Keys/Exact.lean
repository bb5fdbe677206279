import Verif.Keys.Props
/-! # C136: exactly which keys are heard, whatever editors have vanished -/
namespace Verif.Keys

/-! ## Specification -/

/-- An editor vanished while it had the focus, and no editor has lost the focus in the ordinary way since then. -/
def LeftBehind (es : List Event) : Prop :=
  ∃ as bs, es = as ++ .vanish :: bs ∧ (focused as).isSome = true ∧
    ∀ cs x ds, bs = cs ++ .move x :: ds → focused (as ++ .vanish :: cs) = none

/-! ## Proofs -/

theorem leftBehind_vanish (es : List Event) : LeftBehind (es ++ [.vanish]) ↔ LeftBehind es ∨ (focused es).isSome = true := by
  constructor
  · rintro ⟨as, bs, h, hf, hb⟩
    rcases List.eq_nil_or_concat bs with rfl | ⟨bs', e, rfl⟩
    · obtain ⟨rfl, -⟩ := List.append_inj' h rfl
      exact .inr hf
    · rw [List.concat_eq_append, ← List.cons_append, ← List.append_assoc] at h
      obtain ⟨h1, h2⟩ := List.append_inj' h rfl
      refine .inl ⟨as, bs', h1, hf, fun cs x ds hd => hb cs x (ds ++ [e]) ?_⟩
      rw [List.concat_eq_append, hd, List.append_assoc, List.cons_append]
  · rintro (⟨as, bs, h, hf, hb⟩ | hf)
    · refine ⟨as, bs ++ [.vanish], by rw [h, List.append_assoc, List.cons_append], hf, fun cs x ds hd => ?_⟩
      rcases List.eq_nil_or_concat ds with rfl | ⟨ds', e, rfl⟩
      · have := (List.append_inj' hd rfl).2
        simp at this
      · rw [List.concat_eq_append, ← List.cons_append, ← List.append_assoc] at hd
        exact hb cs x ds' (List.append_inj' hd rfl).1
    · exact ⟨es, [], rfl, hf, fun cs x ds hd => by simp at hd⟩

theorem leftBehind_move (es : List Event) (to : Option Nat) :
    LeftBehind (es ++ [.move to]) ↔ LeftBehind es ∧ focused es = none := by
  constructor
  · rintro ⟨as, bs, h, hf, hb⟩
    rcases List.eq_nil_or_concat bs with rfl | ⟨bs', e, rfl⟩
    · have := (List.append_inj' h rfl).2
      simp at this
    · rw [List.concat_eq_append, ← List.cons_append, ← List.append_assoc] at h
      obtain ⟨h1, h2⟩ := List.append_inj' h rfl
      have he : e = .move to := by simpa using h2.symm
      subst he
      refine ⟨⟨as, bs', h1, hf, fun cs x ds hd => hb cs x (ds ++ [.move to]) ?_⟩, ?_⟩
      · rw [List.concat_eq_append, hd, List.append_assoc, List.cons_append]
      · rw [h1]
        exact hb bs' to [] (by rw [List.concat_eq_append])
  · rintro ⟨⟨as, bs, h, hf, hb⟩, hn⟩
    refine ⟨as, bs ++ [.move to], by rw [h, List.append_assoc, List.cons_append], hf, fun cs x ds hd => ?_⟩
    rcases List.eq_nil_or_concat ds with rfl | ⟨ds', e, rfl⟩
    · obtain ⟨rfl, -⟩ := List.append_inj' hd rfl
      rw [← h]
      exact hn
    · rw [List.concat_eq_append, ← List.cons_append, ← List.append_assoc] at hd
      exact hb cs x ds' (List.append_inj' hd rfl).1

theorem stuck_iff (es : List Event) : stuck es = true ↔ LeftBehind es := by
  rw [← List.reverse_reverse es]
  generalize es.reverse = r
  induction r with
  | nil =>
    refine ⟨fun h => absurd h (by decide), ?_⟩
    rintro ⟨as, bs, h, -⟩
    simp at h
  | cons e r ih =>
    rw [List.reverse_cons, stuck_concat]
    cases e with
    | vanish => rw [leftBehind_vanish, ← ih, Bool.or_eq_true]
    | move to =>
      rw [leftBehind_move, ← ih]
      cases focused r.reverse <;> simp

/-- **C136 (exactly).** A listener of the book hears a key exactly if it is on its way and it captures, or is no higher than the body
of the page, or no editor has the focus and none has left its listener behind. -/
theorem C136_exactly {book : List Listener} (h : Polite book) (es : List Event) {target : Nat} (ht : 2 ≤ target) (l : Listener) :
    l ∈ heard book es target ↔ l ∈ book ∧ l.node ≤ target ∧
      (l.early = true ∨ 2 ≤ l.node ∨ (focused es = none ∧ ¬ LeftBehind es)) := by
  rw [heard_iff h es ht, ← stuck_iff]
  refine and_congr_right fun _ => and_congr_right fun _ => ?_
  cases focused es <;> cases stuck es <;> cases l.early <;> simp

/-- An editor vanished with the focus: left behind; another one got the focus and lost it: not any more. -/
example : LeftBehind [.move (some 4), .vanish, .move none] ∧
    ¬ LeftBehind [.move (some 4), .vanish, .move (some 5), .move none] :=
  ⟨(stuck_iff _).1 (by decide), fun h => absurd ((stuck_iff _).2 h) (by decide)⟩

end Verif.Keys
