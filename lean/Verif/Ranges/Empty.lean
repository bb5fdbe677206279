import Verif.Ranges.Props
/-!
# C34, C35: empty spans

`C34_spans_partial` and `C35_highlight_partial` exclude empty spans.  Here: with them nothing is lost or invented, and if
no empty span starts where a non-empty one does, merging is as for character ranges.
-/
namespace Verif.Ranges

/-! ## Specification -/

/-- Spans that start at the same place are all empty or all non-empty. -/
def Clean (l : List Range) : Prop := ∀ r ∈ l, ∀ s ∈ l, r.lo = s.lo → r.NonEmpty → s.NonEmpty

/-- Covers the same, and is sorted by starts. -/
def Kept (l out : List Range) : Prop :=
  out.Pairwise (fun a b => a.lo ≤ b.lo) ∧ (∀ r ∈ out, r.Valid) ∧ (∀ x, CoversChar out x ↔ CoversChar l x) ∧
    (∀ x, CoversPos out x ↔ CoversPos l x)

/-! ## Proofs -/

theorem covers_cons_char (a : Range) (l : List Range) (x : Nat) : CoversChar (a :: l) x ↔ a.HasChar x ∨ CoversChar l x := by
  simp [CoversChar]

theorem covers_cons_pos (a : Range) (l : List Range) (x : Nat) : CoversPos (a :: l) x ↔ a.HasPos x ∨ CoversPos l x := by
  simp [CoversPos]

theorem loop_kept {ov : Range → Range → Bool}
    (hov : ∀ a e : Range, a.lo ≤ e.lo → (ov a e || a.hi == e.lo) = true → e.lo ≤ a.hi) (l : List Range) (acc : Range)
    (ha : acc.Valid) (hl : ∀ r ∈ l, r.Valid) (hs : (acc :: l).Pairwise (fun a b => a.lo ≤ b.lo)) :
    Kept (acc :: l) (smoothLoop ov acc l) ∧ ∀ r ∈ smoothLoop ov acc l, acc.lo ≤ r.lo := by
  induction l generalizing acc with
  | nil =>
    simp only [smoothLoop]
    exact ⟨⟨by simp, by simpa using ha, fun _ => Iff.rfl, fun _ => Iff.rfl⟩, by simp⟩
  | cons e r ih =>
    have hve := hl e (by simp)
    rw [List.pairwise_cons] at hs
    have hle := hs.1 e (by simp)
    simp only [smoothLoop]
    split
    · rename_i ht
      have ht := hov acc e hle ht
      have hlo : (acc.to e).lo = acc.lo := by simp only [Range.to]; omega
      have hs2 : (acc.to e :: r).Pairwise (fun a b => a.lo ≤ b.lo) := by
        rw [List.pairwise_cons]
        refine ⟨fun x hx => ?_, (List.pairwise_cons.1 hs.2).2⟩
        rw [hlo]
        exact hs.1 x (by simp [hx])
      obtain ⟨⟨h1, h2, h3, h4⟩, h5⟩ := ih (acc.to e) (valid_to _ _ ha hve) (fun x hx => hl x (by simp [hx])) hs2
      rw [hlo] at h5
      unfold Range.Valid at ha hve
      refine ⟨⟨h1, h2, fun x => ?_, fun x => ?_⟩, h5⟩
      · rw [h3, covers_cons_char, covers_cons_char, covers_cons_char, ← or_assoc]
        refine or_congr ?_ Iff.rfl
        simp only [Range.HasChar, Range.to]
        omega
      · rw [h4, covers_cons_pos, covers_cons_pos, covers_cons_pos, ← or_assoc]
        refine or_congr ?_ Iff.rfl
        simp only [Range.HasPos, Range.to]
        omega
    · obtain ⟨⟨h1, h2, h3, h4⟩, h5⟩ := ih e hve (fun x hx => hl x (by simp [hx])) hs.2
      refine ⟨⟨?_, ?_, fun x => ?_, fun x => ?_⟩, ?_⟩
      · rw [List.pairwise_cons]
        exact ⟨fun x hx => Nat.le_trans hle (h5 x hx), h1⟩
      · intro x hx
        rcases List.mem_cons.1 hx with rfl | hx
        · exact ha
        · exact h2 x hx
      · rw [covers_cons_char, h3, covers_cons_char (l := e :: r)]
      · rw [covers_cons_pos, h4, covers_cons_pos (l := e :: r)]
      · intro x hx
        rcases List.mem_cons.1 hx with rfl | hx
        · exact Nat.le_refl _
        · exact Nat.le_trans hle (h5 x hx)

theorem smooth_kept {ov : Range → Range → Bool}
    (hov : ∀ a e : Range, a.lo ≤ e.lo → (ov a e || a.hi == e.lo) = true → e.lo ≤ a.hi) (l : List Range)
    (hl : ∀ r ∈ l, r.Valid) : Kept l (smooth ov l) := by
  have hp := sortByLo_perm l
  have hs := sortByLo_sorted l
  unfold smooth
  split
  · rename_i he
    rw [he] at hp
    have := hp.symm.eq_nil
    subst this
    exact ⟨by simp, by simp, fun _ => Iff.rfl, fun _ => Iff.rfl⟩
  · rename_i a r he
    rw [he] at hp hs
    have hv : ∀ x ∈ a :: r, x.Valid := fun x hx => hl x (hp.mem_iff.1 hx)
    obtain ⟨⟨h1, h2, h3, h4⟩, _⟩ := loop_kept hov r a (hv a (by simp)) (fun x hx => hv x (by simp [hx])) hs
    refine ⟨h1, h2, fun x => (h3 x).trans ?_, fun x => (h4 x).trans ?_⟩
    · exact ⟨fun ⟨q, hq, hx⟩ => ⟨q, hp.mem_iff.1 hq, hx⟩, fun ⟨q, hq, hx⟩ => ⟨q, hp.mem_iff.2 hq, hx⟩⟩
    · exact ⟨fun ⟨q, hq, hx⟩ => ⟨q, hp.mem_iff.1 hq, hx⟩, fun ⟨q, hq, hx⟩ => ⟨q, hp.mem_iff.2 hq, hx⟩⟩

theorem span_near {a e : Range} (h : (spanOverlaps a e || a.hi == e.lo) = true) : e.lo ≤ a.hi := by
  simp only [spanOverlaps, Bool.or_eq_true, Bool.and_eq_true, decide_eq_true_eq, beq_iff_eq] at h
  omega

/-- Merging spans, empty ones included, loses and invents nothing: the same characters and the same positions are
covered, and the result is sorted by starts. -/
theorem C34_lossless (l : List Range) (hl : ∀ r ∈ l, r.Valid) : Kept l (smooth spanOverlaps l) :=
  smooth_kept (fun _ _ _ h => span_near h) l hl

theorem loop_clean (l : List Range) (acc : Range) (ha : acc.Valid) (hl : ∀ r ∈ l, r.Valid)
    (hs : (acc :: l).Pairwise (fun a b => a.lo ≤ b.lo)) (hc : Clean (acc :: l)) :
    smoothLoop spanOverlaps acc l = smoothLoop charOverlaps acc l := by
  induction l generalizing acc with
  | nil => rfl
  | cons e r ih =>
    have hve := hl e (by simp)
    have hs' := hs
    rw [List.pairwise_cons] at hs
    have hle := hs.1 e (by simp)
    have hcr : Clean (e :: r) := fun x hx y hy => hc x (by simp [hx]) y (by simp [hy])
    have h1 := hc acc (by simp) e (by simp)
    have h2 := hc e (by simp) acc (by simp)
    have ht : (spanOverlaps acc e || acc.hi == e.lo) = (charOverlaps acc e || acc.hi == e.lo) := by
      rw [Bool.eq_iff_iff]
      unfold Range.Valid at ha hve
      unfold Range.NonEmpty at h1 h2
      simp only [spanOverlaps, charOverlaps, Bool.or_eq_true, Bool.and_eq_true, decide_eq_true_eq, beq_iff_eq,
        Bool.not_eq_true', Bool.or_eq_false_iff, decide_eq_false_iff_not]
      omega
    simp only [smoothLoop, ht]
    split
    · rename_i hn
      have hn : e.lo ≤ acc.hi := span_near (ht.trans hn)
      have hlo : (acc.to e).lo = acc.lo := by simp only [Range.to]; omega
      have hne : (acc.to e).NonEmpty ↔ acc.NonEmpty := by
        unfold Range.Valid at ha hve
        unfold Range.NonEmpty at *
        simp only [Range.to]
        omega
      refine ih (acc.to e) (valid_to _ _ ha hve) (fun x hx => hl x (by simp [hx])) ?_ ?_
      · rw [List.pairwise_cons]
        refine ⟨fun x hx => ?_, (List.pairwise_cons.1 hs.2).2⟩
        rw [hlo]
        exact hs.1 x (by simp [hx])
      · intro x hx y hy he
        rcases List.mem_cons.1 hx with rfl | hx <;> rcases List.mem_cons.1 hy with rfl | hy
        · exact id
        · rw [hne]; rw [hlo] at he
          exact hc acc (by simp) y (by simp [hy]) he
        · rw [hne]; rw [hlo] at he
          exact hc x (by simp [hx]) acc (by simp) he
        · exact hc x (by simp [hx]) y (by simp [hy]) he
    · rw [ih e hve (fun x hx => hl x (by simp [hx])) hs.2 hcr]

theorem smooth_clean (l : List Range) (hl : ∀ r ∈ l, r.Valid) (hc : Clean l) :
    smooth spanOverlaps l = smooth charOverlaps l := by
  have hp := sortByLo_perm l
  have hs := sortByLo_sorted l
  unfold smooth
  split
  · rfl
  · rename_i a r he
    rw [he] at hp hs
    have hv : ∀ x ∈ a :: r, x.Valid := fun x hx => hl x (hp.mem_iff.1 hx)
    exact loop_clean r a (hv a (by simp)) (fun x hx => hv x (by simp [hx])) hs
      (fun x hx y hy => hc x (hp.mem_iff.1 hx) y (hp.mem_iff.1 hy))

theorem clean_apart {l : List Range} (h : Apart l) (hv : ∀ r ∈ l, r.Valid) : Clean l := by
  intro r hr s hs he hn
  rcases Nat.lt_or_ge s.lo s.hi with h1 | h1
  · exact h1
  · have hvs := hv s hs
    have hvr := hv r hr
    unfold Range.Valid at hvs hvr
    unfold Apart at h
    induction h with
    | nil => simp at hr
    | @cons a t hat _ ih =>
      rcases List.mem_cons.1 hr with h3 | h3 <;> rcases List.mem_cons.1 hs with h4 | h4
      · rw [h4, ← h3]; exact hn
      · have := hat s h4; rw [h3] at he hvr; omega
      · have := hat r h3; rw [h4] at he hvs; omega
      · exact ih (fun x hx => hv x (by simp [hx])) h3 h4

/-- If no empty span starts where a non-empty one does, the whole claim holds for spans: the result is the canonical one,
depends neither on order nor on repetitions, and merging again changes nothing.  Missing for the full claim: empty spans
at the start of others (`C34_empty_span`). -/
theorem C34_clean_partial (l : List Range) (hl : ∀ r ∈ l, r.Valid) (hc : Clean l) :
    Merged l (smooth spanOverlaps l) ∧ smooth spanOverlaps (smooth spanOverlaps l) = smooth spanOverlaps l ∧
    ∀ m : List Range, (∀ r, r ∈ l ↔ r ∈ m) → smooth spanOverlaps m = smooth spanOverlaps l := by
  have hm := C34_char_ranges l hl
  rw [smooth_clean l hl hc]
  refine ⟨hm, ?_, fun m h => ?_⟩
  · rw [smooth_clean _ hm.2.1 (clean_apart hm.1 hm.2.1)]
    exact (C34_idempotent l).1 hl
  · rw [smooth_clean m (fun r hr => hl r ((h r).2 hr)) (fun x hx y hy => hc x ((h x).2 hx) y ((h y).2 hy))]
    exact ((C34_order l m h).1 hl).symm

/-- Empty spans apart from, inside and at the end of others. -/
example : Clean [⟨4, 4⟩, ⟨1, 3⟩, ⟨2, 2⟩, ⟨3, 3⟩, ⟨9, 9⟩] ∧
    smooth spanOverlaps [⟨4, 4⟩, ⟨1, 3⟩, ⟨2, 2⟩, ⟨3, 3⟩, ⟨9, 9⟩] = [⟨1, 3⟩, ⟨4, 4⟩, ⟨9, 9⟩] := by
  refine ⟨?_, by decide⟩
  simp [Clean, Range.NonEmpty]

example : Kept [⟨5, 9⟩, ⟨5, 5⟩, ⟨6, 7⟩] [⟨5, 9⟩, ⟨5, 5⟩, ⟨6, 7⟩] :=
  C34_lossless [⟨5, 9⟩, ⟨5, 5⟩, ⟨6, 7⟩] (by simp [Range.Valid])

/-- What is highlighted for a borrow, whatever the spans are: exactly where `as_local` takes the spans in the window. -/
theorem C35_covers (src hir : Nat → Range) (asLocal : Range → Range) (loanSpan : Range) (points : List Nat)
    (out : List Range) (hloc : ∀ r, r.Valid → (asLocal r).Valid) (hsrc : ∀ p ∈ points, (src p).Valid)
    (hhir : ∀ p ∈ points, (hir p).Valid) (hloan : loanSpan.Valid)
    (h : loanRanges src hir asLocal loanSpan points = some out) :
    ∃ p0 ∈ points, ∃ pe ∈ points,
      (∀ p ∈ points, (src p0).lo ≤ (src p).lo ∧ (src p).hi ≤ (src pe).hi) ∧
      out.Pairwise (fun a b => a.lo ≤ b.lo) ∧
      ∃ start, ((start = loanSpan ∧ (src p0).lo < loanSpan.lo) ∨ (start = src p0 ∧ loanSpan.lo ≤ (src p0).lo)) ∧
        ∀ x, CoversChar out x ↔ ∃ r : Range, (asLocal r).HasChar x ∧ r.Within start.lo (src pe).hi ∧
          (r = start ∨ r = src pe ∨ ∃ p ∈ points, r = hir p ∧ r.NonEmpty) := by
  unfold loanRanges at h
  split at h
  · exact absurd h (by simp)
  · rename_i p0 pe hreg
    split at h
    · exact absurd h (by simp)
    · obtain ⟨hp0, hpe, hall⟩ := (C35_region src points).2 p0 pe hreg
      refine ⟨p0, hp0, pe, hpe, hall, ?_⟩
      simp only [Option.some.injEq] at h
      have hsel : ∀ s : Range, s = (if (src p0).lo < loanSpan.lo then loanSpan else src p0) →
          s.Valid ∧ ((s = loanSpan ∧ (src p0).lo < loanSpan.lo) ∨ (s = src p0 ∧ loanSpan.lo ≤ (src p0).lo)) := by
        intro s hs
        subst hs
        split
        · rename_i hlt
          exact ⟨hloan, .inl ⟨rfl, hlt⟩⟩
        · exact ⟨hsrc p0 hp0, .inr ⟨rfl, by omega⟩⟩
      generalize (if (src p0).lo < loanSpan.lo then loanSpan else src p0) = s at h hsel
      unfold keyToSpans at h
      dsimp only at h
      have hq : ∀ q, q ∈ ((pointsToSpans hir points ++ [s, src pe]).filter
          (fun x => decide (s.lo ≤ x.lo) && decide (x.hi ≤ (src pe).hi))) ↔
          q.Within s.lo (src pe).hi ∧ (q = s ∨ q = src pe ∨ ∃ p ∈ points, q = hir p ∧ q.NonEmpty) := by
        intro q
        simp only [List.mem_filter, List.mem_append, List.mem_cons, List.not_mem_nil, or_false, Bool.and_eq_true,
          decide_eq_true_eq, pointsToSpans, List.mem_map, Bool.not_eq_true', Range.Within]
        constructor
        · rintro ⟨⟨⟨p, hp, rfl⟩, h6, -⟩ | h4 | h4, hw⟩
          · refine ⟨hw, .inr (.inr ⟨p, hp, rfl, ?_⟩)⟩
            have := hhir p hp
            simp only [Range.isEmpty, beq_eq_false_iff_ne] at h6
            unfold Range.Valid at this
            unfold Range.NonEmpty
            omega
          · exact ⟨hw, .inl h4⟩
          · exact ⟨hw, .inr (.inl h4)⟩
        · rintro ⟨hw, h4 | h4 | ⟨p, hp, rfl, h6⟩⟩
          · exact ⟨.inr (.inl h4), hw⟩
          · exact ⟨.inr (.inr h4), hw⟩
          · refine ⟨.inl ⟨⟨p, hp, rfl⟩, ?_, ?_⟩, hw⟩
            · unfold Range.NonEmpty at h6
              simp only [Range.isEmpty, beq_eq_false_iff_ne]; omega
            · unfold Range.NonEmpty at h6
              simp only [Range.isDummy, Bool.and_eq_false_iff, beq_eq_false_iff_ne]; omega
      obtain ⟨h1, _, h3, _⟩ := C34_lossless (((pointsToSpans hir points ++ [s, src pe]).filter
        (fun x => decide (s.lo ≤ x.lo) && decide (x.hi ≤ (src pe).hi))).map asLocal) (by
          intro r hr
          obtain ⟨q, hq', rfl⟩ := List.mem_map.1 hr
          refine hloc q ?_
          rcases ((hq q).1 hq').2 with rfl | rfl | ⟨p, hp, rfl, _⟩
          · exact (hsel q rfl).1
          · exact hsrc pe hpe
          · exact hhir p hp)
      rw [h] at h1 h3
      refine ⟨h1, s, (hsel s rfl).2, fun x => ?_⟩
      rw [h3 x]
      constructor
      · rintro ⟨r, hr, hx⟩
        obtain ⟨q, hq', rfl⟩ := List.mem_map.1 hr
        exact ⟨q, hx, (hq q).1 hq'⟩
      · rintro ⟨q, hx, hw⟩
        exact ⟨asLocal q, List.mem_map.2 ⟨q, (hq q).2 hw, rfl⟩, hx⟩

/-- Sorted, but not disjoint: a live point whose statement has an empty span, at the start of its node.  The ranges 5–9
and 6–12 overlap and are not merged, and an empty range lies between them. -/
theorem C35_empty_overlaps :
    loanRanges (fun p => if p = 0 then ⟨5, 5⟩ else ⟨6, 12⟩) (fun p => if p = 0 then ⟨5, 9⟩ else ⟨6, 7⟩) id ⟨5, 9⟩ [0, 1] =
      some [⟨5, 9⟩, ⟨5, 5⟩, ⟨6, 12⟩] ∧ ¬ Apart [⟨5, 9⟩, ⟨5, 5⟩, ⟨6, 12⟩] := by
  refine ⟨by decide, ?_⟩
  simp [Apart]

end Verif.Ranges
