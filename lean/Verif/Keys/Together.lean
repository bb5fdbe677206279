import Verif.Keys.Exact
import Verif.Controls.Props
/-!
# C136: editors and pop-ups of one page

The pop-ups of the blocks have listeners of their own at the same element (main.tsx:31-58, C131); those of the editors and those of
the pop-ups are different functions, so each side adds and removes only its own.
-/
namespace Verif.Keys

/-- The listener of a pop-up (main.tsx:34,44-48); its name is different from that of the editors and from those of the book. -/
def popupListener (id : Nat) : Listener := ⟨2, false, true, id + 1⟩

/-- All listeners of a page: those of the book, the one of the editors, those of the pop-ups. -/
def together (book : List Listener) (es : List Event) (p : Controls.Page) : List Listener :=
  (run book es).listeners ++ p.listeners.map popupListener

theorem mem_dispatch_stop {ls : List Listener} {target : Nat} (h : ∀ x ∈ ls, x.stops = true → x.node = 2 ∧ x.early = false)
    (hs : ∃ x ∈ ls, x.stops = true) (ht : 2 ≤ target) (l : Listener) :
    l ∈ dispatch ls target ↔ l ∈ ls ∧ l.node ≤ target ∧ (l.early = true ∨ 2 ≤ l.node) := by
  have hcalm : ∀ x ∈ ls, x.node ≠ 2 ∨ x.early = true → x.stops = false := by
    intro x hx hne
    cases hst : x.stops with
    | false => rfl
    | true =>
      obtain ⟨a, b⟩ := h x hx hst
      rcases hne with hne | hne
      · exact absurd a hne
      · rw [b] at hne
        exact absurd hne (by decide)
  have h1 := visit_calm (ls := ls) (early := true) (ns := List.range (target + 1)) (fun x hx he _ => hcalm x hx (.inr he))
  obtain ⟨ns, e, hns⟩ := range_split ht
  have h2 := visit_calm (ls := ls) (early := false) (ns := ns)
    (fun x hx _ hn => hcalm x hx (.inl (by have := (hns _).1 hn; omega)))
  have h3 : (visit ls false [2, 1, 0]).1 = ls.filter (fun l => l.node = 2 ∧ l.early = false) := by
    simp only [visit]
    rw [if_pos]
    rw [List.any_eq_true]
    obtain ⟨x, hx, hst⟩ := hs
    exact ⟨x, List.mem_filter.2 ⟨hx, by simpa using h x hx hst⟩, hst⟩
  simp only [dispatch]
  rw [if_neg (by rw [h1.1]; decide), List.mem_append, h1.2, e, visit_append h2.1,
    List.mem_append (s := (visit ls false ns).1), h2.2, hns, h3, List.mem_filter, decide_eq_true_eq, List.mem_range]
  by_cases hb : l ∈ ls
  · cases l.early <;> simp [hb] <;> omega
  · simp [hb]

theorem mem_with {book : List Listener} {b : Bool} {x : Listener} : x ∈ with_ book b ↔ x ∈ book ∨ (b = true ∧ x = captureKeyboard) := by
  cases b <;> simp [with_]

/-- The listeners of document and window hear a key exactly if no editor has the focus, none has left its listener behind, and no
pop-up is open. -/
theorem C136_together {book : List Listener} (h : Polite book) (es : List Event) (c : Controls.Conf)
    (evs : List Controls.Event) {target : Nat} (ht : 2 ≤ target) {l : Listener} (hl : l ∈ book) (he : l.early = false)
    (hn : l.node < 2) :
    l ∈ dispatch (together book es (Controls.run c evs)) target ↔
      (focused es = none ∧ ¬ LeftBehind es) ∧ ∀ k, ¬ (c.info k.1 = true ∧ Controls.OpenAfter evs k) := by
  have hp := Controls.C131_shortcuts c evs
  unfold Controls.Page.keyReachesBook at hp
  rw [List.isEmpty_iff] at hp
  rw [← hp, ← stuck_iff, Bool.not_eq_true]
  have hr := run_listeners h es
  by_cases hs : (focused es = none ∧ stuck es = false) ∧ (Controls.run c evs).listeners = []
  · refine ⟨fun _ => hs, fun _ => ?_⟩
    rw [together, hr, hs.1.1, hs.1.2, hs.2, List.map_nil, List.append_nil]
    exact (mem_dispatch_calm h l).2 ⟨hl, by omega⟩
  · refine ⟨fun hd => ?_, fun q => absurd q hs⟩
    have hstop : ∀ x ∈ together book es (Controls.run c evs), x.stops = true → x.node = 2 ∧ x.early = false := by
      intro x hx hst
      rw [together, hr, List.mem_append, mem_with, List.mem_map] at hx
      rcases hx with (hx | ⟨-, rfl⟩) | ⟨id, -, rfl⟩
      · rw [h x hx] at hst
        exact absurd hst (by decide)
      · exact ⟨rfl, rfl⟩
      · exact ⟨rfl, rfl⟩
    have hex : ∃ x ∈ together book es (Controls.run c evs), x.stops = true := by
      rw [together, hr]
      cases hf : (focused es).isSome || stuck es with
      | true => exact ⟨captureKeyboard, List.mem_append_left _ (mem_with.2 (.inr ⟨rfl, rfl⟩)), rfl⟩
      | false =>
        rw [Bool.or_eq_false_iff, Option.isSome_eq_false_iff, Option.isNone_iff_eq_none] at hf
        cases hq : (Controls.run c evs).listeners with
        | nil => exact absurd ⟨hf, hq⟩ hs
        | cons id r =>
          exact ⟨popupListener id, List.mem_append_right _ (by simp), rfl⟩
    have := ((mem_dispatch_stop hstop hex ht l).1 hd).2.2
    rw [he] at this
    rcases this with this | this
    · exact absurd this (by decide)
    · omega

/-- The focus was in an editor and is not any more: the book turns its pages; with the focus in an editor it does not. -/
example (c : Controls.Conf) :
    ⟨1, false, false, 1⟩ ∈ dispatch (together Example.book [.move (some 4), .move none] (Controls.run c [])) 7 ∧
    ⟨1, false, false, 1⟩ ∉ dispatch (together Example.book [.move (some 4)] (Controls.run c [])) 7 := by
  have hb : Polite Example.book := by unfold Polite; decide
  constructor
  · exact (C136_together hb _ c [] (by decide) (by decide) rfl (by decide)).2
      ⟨⟨rfl, fun q => absurd ((stuck_iff _).2 q) (by decide)⟩, fun k hk => absurd hk.2 (by simp [Controls.OpenAfter])⟩
  · intro hd
    exact absurd ((C136_together hb _ c [] (by decide) (by decide) rfl (by decide)).1 hd).1.1 (by decide)

end Verif.Keys
