import Verif.Ranges.Spec
/-!
# Properties of merged ranges and highlighted regions
-/
namespace Verif.Ranges

/-! ### Sorting -/

theorem insertByLo_perm (x : Range) (l : List Range) : (insertByLo x l).Perm (x :: l) := by
  induction l with
  | nil => exact .refl _
  | cons y r ih =>
    simp only [insertByLo]
    split
    · exact .refl _
    · exact (ih.cons y).trans (.swap x y r)

theorem sortByLo_perm (l : List Range) : (sortByLo l).Perm l := by
  induction l with
  | nil => exact .refl _
  | cons x r ih => exact (insertByLo_perm x _).trans (ih.cons x)

theorem insertByLo_sorted (x : Range) {l : List Range} (h : l.Pairwise (fun a b => a.lo ≤ b.lo)) :
    (insertByLo x l).Pairwise (fun a b => a.lo ≤ b.lo) := by
  induction l with
  | nil => simp [insertByLo]
  | cons y r ih =>
    simp only [insertByLo]
    split
    · rename_i hxy
      rw [List.pairwise_cons] at h ⊢
      refine ⟨?_, List.pairwise_cons.2 h⟩
      intro a ha
      rcases List.mem_cons.1 ha with rfl | ha
      · exact hxy
      · exact Nat.le_trans hxy (h.1 a ha)
    · rename_i hxy
      rw [List.pairwise_cons] at h ⊢
      refine ⟨?_, ih h.2⟩
      intro a ha
      rcases List.mem_cons.1 ((insertByLo_perm x r).mem_iff.1 ha) with rfl | ha
      · omega
      · exact h.1 a ha

theorem sortByLo_sorted (l : List Range) : (sortByLo l).Pairwise (fun a b => a.lo ≤ b.lo) := by
  induction l with
  | nil => simp [sortByLo]
  | cons x r ih => exact insertByLo_sorted x ih

/-! ### The loop -/

/-- On sorted valid ranges, the merge test of the loop means: the next range starts no later than the end
of the accumulated one. -/
def GoodTest (ov : Range → Range → Bool) (P : Range → Prop) : Prop :=
  ∀ a e, P a → P e → a.lo ≤ e.lo → ((ov a e || a.hi == e.lo) = true ↔ e.lo ≤ a.hi)

theorem smoothLoop_spec {ov : Range → Range → Bool} {P : Range → Prop} (hg : GoodTest ov P)
    (hP : ∀ r, P r → r.Valid) (hto : ∀ a b, P a → P b → P (a.to b)) (l : List Range) (acc : Range)
    (ha : P acc) (hl : ∀ r ∈ l, P r) (hs : (acc :: l).Pairwise (fun a b => a.lo ≤ b.lo)) :
    Merged (acc :: l) (smoothLoop ov acc l) ∧ (∀ r ∈ smoothLoop ov acc l, P r ∧ acc.lo ≤ r.lo) := by
  induction l generalizing acc with
  | nil =>
    simp only [smoothLoop]
    refine ⟨⟨by simp [Apart], by simpa using hP acc ha, fun _ => Iff.rfl, fun _ => Iff.rfl⟩, by simpa using ha⟩
  | cons e r ih =>
    have hPe := hl e (by simp)
    have hve := hP e hPe
    have hva := hP acc ha
    unfold Range.Valid at hve hva
    rw [List.pairwise_cons] at hs
    have hle := hs.1 e (by simp)
    simp only [smoothLoop]
    split
    · rename_i ht
      have ht' := (hg acc e ha hPe hle).1 ht
      have hlo : (acc.to e).lo = acc.lo := by simp only [Range.to]; omega
      obtain ⟨⟨h1, h2, h3, h4⟩, h5⟩ := ih (acc.to e) (hto _ _ ha hPe) (fun x hx => hl x (by simp [hx])) (by
        rw [List.pairwise_cons]
        refine ⟨?_, (List.pairwise_cons.1 hs.2).2⟩
        intro x hx
        rw [hlo]
        exact hs.1 x (by simp [hx]))
      refine ⟨⟨h1, h2, ?_, ?_⟩, ?_⟩
      · intro x
        rw [h3 x]
        simp only [CoversChar, List.mem_cons, exists_eq_or_imp, Range.HasChar, Range.to]
        constructor
        · rintro (⟨h6, h7⟩ | h6)
          · by_cases hx : x < acc.hi
            · exact .inl ⟨by omega, hx⟩
            · exact .inr (.inl ⟨by omega, by omega⟩)
          · exact .inr (.inr h6)
        · rintro (⟨h6, h7⟩ | ⟨h6, h7⟩ | h6)
          · exact .inl ⟨by omega, by omega⟩
          · exact .inl ⟨by omega, by omega⟩
          · exact .inr h6
      · intro x
        rw [h4 x]
        simp only [CoversPos, List.mem_cons, exists_eq_or_imp, Range.HasPos, Range.to]
        constructor
        · rintro (⟨h6, h7⟩ | h6)
          · by_cases hx : x ≤ acc.hi
            · exact .inl ⟨by omega, hx⟩
            · exact .inr (.inl ⟨by omega, by omega⟩)
          · exact .inr (.inr h6)
        · rintro (⟨h6, h7⟩ | ⟨h6, h7⟩ | h6)
          · exact .inl ⟨by omega, by omega⟩
          · exact .inl ⟨by omega, by omega⟩
          · exact .inr h6
      · intro x hx
        have := h5 x hx
        rw [hlo] at this
        exact this
    · rename_i ht
      have ht' : acc.hi < e.lo := by
        have := mt (hg acc e ha hPe hle).2 ht
        omega
      obtain ⟨⟨h1, h2, h3, h4⟩, h5⟩ := ih e hPe (fun x hx => hl x (by simp [hx])) hs.2
      refine ⟨⟨?_, ?_, ?_, ?_⟩, ?_⟩
      · unfold Apart
        rw [List.pairwise_cons]
        refine ⟨?_, h1⟩
        intro x hx
        have := (h5 x hx).2
        omega
      · intro x hx
        rcases List.mem_cons.1 hx with rfl | hx
        · exact hva
        · exact h2 x hx
      · intro x
        have := h3 x
        simp only [CoversChar, List.mem_cons, exists_eq_or_imp] at this ⊢
        rw [this]
      · intro x
        have := h4 x
        simp only [CoversPos, List.mem_cons, exists_eq_or_imp] at this ⊢
        rw [this]
      · intro x hx
        rcases List.mem_cons.1 hx with rfl | hx
        · exact ⟨ha, Nat.le_refl _⟩
        · exact ⟨(h5 x hx).1, Nat.le_trans hle (h5 x hx).2⟩

theorem covers_perm {l m : List Range} (h : l.Perm m) (x : Nat) :
    (CoversChar l x ↔ CoversChar m x) ∧ (CoversPos l x ↔ CoversPos m x) := by
  constructor <;> constructor <;> rintro ⟨r, hr, h2⟩
  · exact ⟨r, h.mem_iff.1 hr, h2⟩
  · exact ⟨r, h.mem_iff.2 hr, h2⟩
  · exact ⟨r, h.mem_iff.1 hr, h2⟩
  · exact ⟨r, h.mem_iff.2 hr, h2⟩

theorem smooth_spec {ov : Range → Range → Bool} {P : Range → Prop} (hg : GoodTest ov P)
    (hP : ∀ r, P r → r.Valid) (hto : ∀ a b, P a → P b → P (a.to b)) (l : List Range) (hl : ∀ r ∈ l, P r) :
    Merged l (smooth ov l) ∧ ∀ r ∈ smooth ov l, P r := by
  unfold smooth
  have hp := sortByLo_perm l
  have hs := sortByLo_sorted l
  cases h : sortByLo l with
  | nil =>
    rw [h] at hp
    have : l = [] := hp.nil_eq.symm
    subst this
    exact ⟨⟨by simp [Apart], by simp, fun _ => Iff.rfl, fun _ => Iff.rfl⟩, by simp⟩
  | cons a r =>
    rw [h] at hp hs
    obtain ⟨⟨h1, h2, h3, h4⟩, h5⟩ := smoothLoop_spec hg hP hto r a (hl a (hp.mem_iff.1 (by simp)))
      (fun x hx => hl x (hp.mem_iff.1 (by simp [hx]))) hs
    exact ⟨⟨h1, h2, fun x => (h3 x).trans (covers_perm hp x).1, fun x => (h4 x).trans (covers_perm hp x).2⟩,
      fun r hr => (h5 r hr).1⟩

/-- Separated lists covering the same are equal. -/
theorem apart_unique {l m : List Range} (hl : Apart l) (hm : Apart m) (hvl : ∀ r ∈ l, r.Valid)
    (hvm : ∀ r ∈ m, r.Valid) (hc : ∀ x, CoversChar l x ↔ CoversChar m x)
    (hp : ∀ x, CoversPos l x ↔ CoversPos m x) : l = m := by
  induction l generalizing m with
  | nil =>
    cases m with
    | nil => rfl
    | cons b m =>
      have hb := hvm b (by simp)
      obtain ⟨r, hr, _⟩ := (hp b.lo).2 ⟨b, by simp, Nat.le_refl _, hb⟩
      simp at hr
  | cons a l ih =>
    cases m with
    | nil =>
      have ha := hvl a (by simp)
      obtain ⟨r, hr, _⟩ := (hp a.lo).1 ⟨a, by simp, Nat.le_refl _, ha⟩
      simp at hr
    | cons b m =>
      have ha := hvl a (by simp)
      have hb := hvm b (by simp)
      unfold Apart at hl hm
      rw [List.pairwise_cons] at hl hm
      have key : ∀ (a b : Range) (l : List Range), a.Valid → (∀ x ∈ l, a.hi < x.lo) →
          CoversPos (a :: l) b.lo → a.lo ≤ b.lo := by
        rintro a b l hv hsep ⟨r, hr, h1, h2⟩
        rcases List.mem_cons.1 hr with rfl | hr
        · exact h1
        · have := hsep r hr; unfold Range.Valid at hv; omega
      have h1 := key a b l ha hl.1 ((hp b.lo).2 ⟨b, by simp, Nat.le_refl _, hb⟩)
      have h2 := key b a m hb hm.1 ((hp a.lo).1 ⟨a, by simp, Nat.le_refl _, ha⟩)
      have hlo : a.lo = b.lo := by omega
      have key2 : ∀ (a b : Range) (l m : List Range), a.lo = b.lo → a.Valid → (∀ x ∈ l, a.hi < x.lo) →
          (CoversChar (b :: m) a.hi → CoversChar (a :: l) a.hi) → b.hi ≤ a.hi := by
        intro a b l m he hv hsep himp
        apply Nat.le_of_not_lt
        intro hlt
        unfold Range.Valid at hv
        obtain ⟨r, hr, h1, h2⟩ := himp ⟨b, by simp, by omega, hlt⟩
        rcases List.mem_cons.1 hr with rfl | hr
        · omega
        · have := hsep r hr; omega
      have h3 := key2 a b l m hlo ha hl.1 (hc a.hi).2
      have h4 := key2 b a m l hlo.symm hb hm.1 (hc b.hi).1
      have hab : a = b := by
        cases a; cases b
        simp only [Range.mk.injEq] at *
        omega
      subst hab
      congr 1
      refine ih hl.2 hm.2 (fun r hr => hvl r (by simp [hr])) (fun r hr => hvm r (by simp [hr])) ?_ ?_
      · have side : ∀ (l m : List Range), (∀ x ∈ l, a.hi < x.lo) →
            (∀ x, CoversChar (a :: l) x → CoversChar (a :: m) x) → ∀ x, CoversChar l x → CoversChar m x := by
          rintro l m hsep himp x ⟨r, hr, h5, h6⟩
          have := hsep r hr
          obtain ⟨s, hs, h7, h8⟩ := himp x ⟨r, by simp [hr], h5, h6⟩
          rcases List.mem_cons.1 hs with rfl | hs
          · omega
          · exact ⟨s, hs, h7, h8⟩
        intro x
        exact ⟨side l m hl.1 (fun x => (hc x).1) x, side m l hm.1 (fun x => (hc x).2) x⟩
      · have side : ∀ (l m : List Range), (∀ x ∈ l, a.hi < x.lo) →
            (∀ x, CoversPos (a :: l) x → CoversPos (a :: m) x) → ∀ x, CoversPos l x → CoversPos m x := by
          rintro l m hsep himp x ⟨r, hr, h5, h6⟩
          have := hsep r hr
          obtain ⟨s, hs, h7, h8⟩ := himp x ⟨r, by simp [hr], h5, h6⟩
          rcases List.mem_cons.1 hs with rfl | hs
          · omega
          · exact ⟨s, hs, h7, h8⟩
        intro x
        exact ⟨side l m hl.1 (fun x => (hp x).1) x, side m l hm.1 (fun x => (hp x).2) x⟩

theorem smooth_unique {ov : Range → Range → Bool} {P : Range → Prop} (hg : GoodTest ov P)
    (hP : ∀ r, P r → r.Valid) (hto : ∀ a b, P a → P b → P (a.to b)) {l m : List Range}
    (hl : ∀ r ∈ l, P r) (hm : ∀ r ∈ m, P r) (hc : ∀ x, CoversChar l x ↔ CoversChar m x)
    (hp : ∀ x, CoversPos l x ↔ CoversPos m x) : smooth ov l = smooth ov m := by
  obtain ⟨⟨h1, h2, h3, h4⟩, _⟩ := smooth_spec hg hP hto l hl
  obtain ⟨⟨h5, h6, h7, h8⟩, _⟩ := smooth_spec hg hP hto m hm
  exact apart_unique h1 h5 h2 h6 (fun x => (h3 x).trans ((hc x).trans (h7 x).symm))
    (fun x => (h4 x).trans ((hp x).trans (h8 x).symm))

theorem good_char : GoodTest charOverlaps Range.Valid := by
  intro a e ha he hle
  unfold Range.Valid at ha he
  simp only [charOverlaps, Bool.or_eq_true, Bool.not_eq_true', Bool.or_eq_false_iff, decide_eq_false_iff_not,
    beq_iff_eq]
  omega

theorem good_span : GoodTest spanOverlaps Range.NonEmpty := by
  intro a e ha he hle
  unfold Range.NonEmpty at ha he
  simp only [spanOverlaps, Bool.or_eq_true, Bool.and_eq_true, decide_eq_true_eq, beq_iff_eq]
  omega

theorem valid_to (a b : Range) (ha : a.Valid) (hb : b.Valid) : (a.to b).Valid := by
  unfold Range.Valid Range.to at *; dsimp only; omega

theorem nonEmpty_to (a b : Range) (ha : a.NonEmpty) (hb : b.NonEmpty) : (a.to b).NonEmpty := by
  unfold Range.NonEmpty Range.to at *; dsimp only; omega

theorem nonEmpty_valid (r : Range) (h : r.NonEmpty) : r.Valid := by
  unfold Range.Valid Range.NonEmpty at *; omega

/-! ## C34 -/

/-- Merging character ranges (empty ones included): the result covers exactly the same characters and
positions, is sorted and no two of its ranges touch or overlap. -/
theorem C34_char_ranges (l : List Range) (hl : ∀ r ∈ l, r.Valid) : Merged l (smooth charOverlaps l) :=
  (smooth_spec good_char (fun _ h => h) valid_to l hl).1

/-- Merging non-empty spans: likewise. -/
theorem C34_spans_partial (l : List Range) (hl : ∀ r ∈ l, r.NonEmpty) :
    Merged l (smooth spanOverlaps l) ∧ ∀ r ∈ smooth spanOverlaps l, r.NonEmpty :=
  smooth_spec good_span nonEmpty_valid nonEmpty_to l hl

/-- Merging twice changes nothing. -/
theorem C34_idempotent (l : List Range) :
    ((∀ r ∈ l, r.Valid) → smooth charOverlaps (smooth charOverlaps l) = smooth charOverlaps l) ∧
    ((∀ r ∈ l, r.NonEmpty) → smooth spanOverlaps (smooth spanOverlaps l) = smooth spanOverlaps l) := by
  refine ⟨fun hl => ?_, fun hl => ?_⟩
  · obtain ⟨⟨h1, h2, h3, h4⟩, h5⟩ := smooth_spec good_char (fun _ h => h) valid_to l hl
    exact smooth_unique good_char (fun _ h => h) valid_to h5 hl h3 h4
  · obtain ⟨⟨h1, h2, h3, h4⟩, h5⟩ := smooth_spec good_span nonEmpty_valid nonEmpty_to l hl
    exact smooth_unique good_span nonEmpty_valid nonEmpty_to h5 hl h3 h4

/-- The result does not depend on the order of the input, nor on repetitions. -/
theorem C34_order (l m : List Range) (h : ∀ r, r ∈ l ↔ r ∈ m) :
    ((∀ r ∈ l, r.Valid) → smooth charOverlaps l = smooth charOverlaps m) ∧
    ((∀ r ∈ l, r.NonEmpty) → smooth spanOverlaps l = smooth spanOverlaps m) := by
  have hc : ∀ x, CoversChar l x ↔ CoversChar m x := fun x =>
    ⟨fun ⟨r, h1, h2⟩ => ⟨r, (h r).1 h1, h2⟩, fun ⟨r, h1, h2⟩ => ⟨r, (h r).2 h1, h2⟩⟩
  have hp : ∀ x, CoversPos l x ↔ CoversPos m x := fun x =>
    ⟨fun ⟨r, h1, h2⟩ => ⟨r, (h r).1 h1, h2⟩, fun ⟨r, h1, h2⟩ => ⟨r, (h r).2 h1, h2⟩⟩
  exact ⟨fun hl => smooth_unique good_char (fun _ h => h) valid_to hl (fun r hr => hl r ((h r).2 hr)) hc hp,
    fun hl => smooth_unique good_span nonEmpty_valid nonEmpty_to hl (fun r hr => hl r ((h r).2 hr)) hc hp⟩

/-- Nested, touching, equal and separate ranges in any order. -/
example : smooth spanOverlaps [⟨7, 9⟩, ⟨1, 5⟩, ⟨2, 3⟩, ⟨5, 6⟩, ⟨1, 5⟩] = [⟨1, 6⟩, ⟨7, 9⟩] := by decide

/-- The full statement is false for spans when empty ones occur: an empty span starting where a non-empty
one does is not merged, later ranges are then compared with the empty one, the result overlaps itself and
depends on the order of the input. -/
theorem C34_empty_span : ∃ l m : List Range, l.Perm m ∧ (∀ r ∈ l, r.Valid) ∧
    ¬ Apart (smooth spanOverlaps l) ∧ smooth spanOverlaps l ≠ smooth spanOverlaps m := by
  refine ⟨[⟨5, 9⟩, ⟨5, 5⟩, ⟨6, 7⟩], [⟨5, 5⟩, ⟨5, 9⟩, ⟨6, 7⟩], .swap _ _ _, by simp [Range.Valid], ?_, by decide⟩
  have : smooth spanOverlaps [⟨5, 9⟩, ⟨5, 5⟩, ⟨6, 7⟩] = [⟨5, 9⟩, ⟨5, 5⟩, ⟨6, 7⟩] := by decide
  rw [this]
  simp [Apart]

/-! ## C35 -/

theorem foldl_expand (src : Nat → Range) (l : List Nat) (acc : Nat × Nat) :
    let r := l.foldl (expand src) acc
    (r.1 = acc.1 ∨ r.1 ∈ l) ∧ (r.2 = acc.2 ∨ r.2 ∈ l) ∧ (src r.1).lo ≤ (src acc.1).lo ∧
      (src acc.2).hi ≤ (src r.2).hi ∧ ∀ p ∈ l, (src r.1).lo ≤ (src p).lo ∧ (src p).hi ≤ (src r.2).hi := by
  induction l generalizing acc with
  | nil => simp
  | cons p l ih =>
    simp only [List.foldl_cons]
    obtain ⟨h1, h2, h3, h4, h5⟩ := ih (expand src acc p)
    have e1 : (expand src acc p).1 = acc.1 ∨ (expand src acc p).1 = p := by
      simp only [expand]; split <;> simp
    have e2 : (expand src acc p).2 = acc.2 ∨ (expand src acc p).2 = p := by
      simp only [expand]; split <;> simp
    have e3 : (src (expand src acc p).1).lo ≤ (src acc.1).lo ∧ (src (expand src acc p).1).lo ≤ (src p).lo := by
      simp only [expand]; split <;> omega
    have e4 : (src acc.2).hi ≤ (src (expand src acc p).2).hi ∧ (src p).hi ≤ (src (expand src acc p).2).hi := by
      simp only [expand]; split <;> omega
    refine ⟨?_, ?_, by omega, by omega, ?_⟩
    · rcases h1 with h1 | h1
      · rcases e1 with e1 | e1
        · exact .inl (h1.trans e1)
        · exact .inr (by rw [h1, e1]; simp)
      · exact .inr (by simp [h1])
    · rcases h2 with h2 | h2
      · rcases e2 with e2 | e2
        · exact .inl (h2.trans e2)
        · exact .inr (by rw [h2, e2]; simp)
      · exact .inr (by simp [h2])
    · intro q hq
      rcases List.mem_cons.1 hq with rfl | hq
      · omega
      · exact h5 q hq

/-- The region of a borrow runs from a live point with the earliest start to a live point with the latest
end. -/
theorem C35_region (src : Nat → Range) (points : List Nat) :
    (loanRegion src points = none ↔ points = []) ∧
    ∀ p0 pe, loanRegion src points = some (p0, pe) →
      p0 ∈ points ∧ pe ∈ points ∧ ∀ p ∈ points, (src p0).lo ≤ (src p).lo ∧ (src p).hi ≤ (src pe).hi := by
  cases points with
  | nil => simp [loanRegion]
  | cons p r =>
    refine ⟨by simp [loanRegion], ?_⟩
    intro p0 pe h
    simp only [loanRegion, Option.some.injEq] at h
    have he : expand src (p, p) p = (p, p) := by simp [expand]
    rw [he] at h
    obtain ⟨h1, h2, h3, h4, h5⟩ := foldl_expand src r (p, p)
    rw [h] at h1 h2 h3 h4 h5
    dsimp only at h1 h2 h3 h4 h5
    refine ⟨?_, ?_, ?_⟩
    · rcases h1 with h1 | h1 <;> simp [h1]
    · rcases h2 with h2 | h2 <;> simp [h2]
    · intro q hq
      rcases List.mem_cons.1 hq with rfl | hq
      · exact ⟨h3, h4⟩
      · exact h5 q hq

/-- `s` lies in the window from `lo` to `hi`. -/
def Range.Within (s : Range) (lo hi : Nat) : Prop := lo ≤ s.lo ∧ s.hi ≤ hi

/-- For code that does not come from macros and statements with a non-empty span: the highlighted ranges of
a borrow lie between its start and its last live position, are sorted and disjoint, and cover exactly the
borrow itself (or the first live statement, if that starts later), the last live statement, and the source of
every live point, of these those that lie in that window.  Missing: spans from macro expansions, which `as_local`
moves after the window test, and empty spans (see C34). -/
theorem C35_highlight_partial {src hir : Nat → Range} {loanSpan : Range} {points : List Nat}
    {out : List Range} (hsrc : ∀ p ∈ points, (src p).NonEmpty) (hhir : ∀ p ∈ points, (hir p).Valid)
    (hloan : loanSpan.Valid) (h : loanRanges src hir id loanSpan points = some out) :
    ∃ p0 ∈ points, ∃ pe ∈ points,
      (∀ p ∈ points, (src p0).lo ≤ (src p).lo ∧ (src p).hi ≤ (src pe).hi) ∧
      Apart out ∧
      (∀ r ∈ out, r.Within (max loanSpan.lo (src p0).lo) (src pe).hi) ∧
      ∃ start, ((start = loanSpan ∧ (src p0).lo < loanSpan.lo) ∨ (start = src p0 ∧ loanSpan.lo ≤ (src p0).lo)) ∧
        ∀ x, CoversChar out x ↔ ∃ r : Range, r.HasChar x ∧
          r.Within (max loanSpan.lo (src p0).lo) (src pe).hi ∧
          (r = start ∨ r = src pe ∨ ∃ p ∈ points, r = hir p ∧ r.NonEmpty) := by
  unfold loanRanges at h
  split at h
  · exact absurd h (by simp)
  · rename_i p0 pe hreg
    split at h
    · exact absurd h (by simp)
    · rename_i hne
      obtain ⟨hp0, hpe, hall⟩ := (C35_region src points).2 p0 pe hreg
      refine ⟨p0, hp0, pe, hpe, hall, ?_⟩
      simp only [Option.some.injEq] at h
      have hstart : ∀ s : Range, s = (if (src p0).lo < loanSpan.lo then loanSpan else src p0) →
          s.lo = max loanSpan.lo (src p0).lo ∧ s.NonEmpty ∧
          ((s = loanSpan ∧ (src p0).lo < loanSpan.lo) ∨ (s = src p0 ∧ loanSpan.lo ≤ (src p0).lo)) := by
        intro s hs
        have h0 := hsrc p0 hp0
        simp only [Range.isEmpty, beq_iff_eq] at hne
        unfold Range.Valid at hloan
        unfold Range.NonEmpty at h0 ⊢
        subst hs
        split
        · rename_i hlt; exact ⟨by omega, by omega, .inl ⟨rfl, hlt⟩⟩
        · exact ⟨by omega, by omega, .inr ⟨rfl, by omega⟩⟩
      generalize (if (src p0).lo < loanSpan.lo then loanSpan else src p0) = s at h hstart
      obtain ⟨hlo, hnes, hsel⟩ := hstart s rfl
      rw [← hlo]
      unfold keyToSpans at h
      simp only [List.map_id] at h
      generalize hk : ((pointsToSpans hir points ++ [s, src pe]).filter
        (fun x => decide (s.lo ≤ x.lo) && decide (x.hi ≤ (src pe).hi))) = kept at h
      have hkept : ∀ r, r ∈ kept ↔ (r ∈ pointsToSpans hir points ∨ r = s ∨ r = src pe) ∧
          s.lo ≤ r.lo ∧ r.hi ≤ (src pe).hi := by
        intro r
        rw [← hk]
        simp only [List.mem_filter, List.mem_append, List.mem_cons, List.not_mem_nil, or_false, Bool.and_eq_true,
          decide_eq_true_eq]
      have hmem : ∀ r, r ∈ pointsToSpans hir points ↔
          ∃ p ∈ points, hir p = r ∧ r.isEmpty = false ∧ r.isDummy = false := by
        intro r
        simp only [pointsToSpans, List.mem_filter, List.mem_map, Bool.and_eq_true, Bool.not_eq_true']
        constructor
        · rintro ⟨⟨p, h1, h2⟩, h3⟩; exact ⟨p, h1, h2, h3⟩
        · rintro ⟨p, h1, h2, h3⟩; exact ⟨⟨p, h1, h2⟩, h3⟩
      have hP : ∀ r ∈ kept, r.NonEmpty := by
        intro r hr
        rcases ((hkept r).1 hr).1 with h1 | h1 | h1
        · obtain ⟨p, hp, rfl, he, _⟩ := (hmem r).1 h1
          have := hhir p hp
          simp only [Range.isEmpty, beq_eq_false_iff_ne] at he
          unfold Range.Valid at this
          unfold Range.NonEmpty
          omega
        · rw [h1]; exact hnes
        · rw [h1]; exact hsrc pe hpe
      obtain ⟨⟨h1, h2, h3, h4⟩, h5⟩ := C34_spans_partial kept hP
      rw [h] at h1 h2 h3 h4 h5
      refine ⟨h1, ?_, s, hsel, ?_⟩
      · intro r hr
        have hv := h5 r hr
        unfold Range.NonEmpty at hv
        constructor
        · obtain ⟨k, hk1, hk2, hk3⟩ := (h4 r.lo).1 ⟨r, hr, Nat.le_refl _, by omega⟩
          have := ((hkept k).1 hk1).2.1
          omega
        · obtain ⟨k, hk1, hk2, hk3⟩ := (h4 r.hi).1 ⟨r, hr, by omega, Nat.le_refl _⟩
          have := ((hkept k).1 hk1).2.2
          omega
      · intro x
        rw [h3 x]
        constructor
        · rintro ⟨r, hr, hx⟩
          obtain ⟨h6, h7, h8⟩ := (hkept r).1 hr
          refine ⟨r, hx, ⟨h7, h8⟩, ?_⟩
          rcases h6 with h6 | h6 | h6
          · obtain ⟨p, hp, he, _⟩ := (hmem r).1 h6
            exact .inr (.inr ⟨p, hp, he.symm, hP r hr⟩)
          · exact .inl h6
          · exact .inr (.inl h6)
        · rintro ⟨r, hx, hw, h6⟩
          refine ⟨r, (hkept r).2 ⟨?_, hw.1, hw.2⟩, hx⟩
          rcases h6 with h6 | h6 | ⟨p, hp, rfl, hne⟩
          · exact .inr (.inl h6)
          · exact .inr (.inr h6)
          · unfold Range.NonEmpty at hne
            refine .inl ((hmem _).2 ⟨p, hp, rfl, ?_, ?_⟩)
            · simp only [Range.isEmpty, beq_eq_false_iff_ne]; omega
            · simp only [Range.isDummy, Bool.and_eq_false_iff, beq_eq_false_iff_ne]; omega

/-- Every borrow with a non-empty span and a live point gets a region. -/
theorem C35_exists (src hir : Nat → Range) (asLocal : Range → Range) (loanSpan : Range) (points : List Nat) :
    (∃ out, loanRanges src hir asLocal loanSpan points = some out) ↔
      points ≠ [] ∧ loanSpan.isEmpty = false := by
  have h0 := (C35_region src points).1
  unfold loanRanges
  cases hr : loanRegion src points with
  | none =>
    have := h0.1 hr
    simp [this]
  | some p =>
    have : points ≠ [] := fun hc => by rw [h0.2 hc] at hr; exact absurd hr (by simp)
    cases hl : loanSpan.isEmpty <;> simp [this]

/-- **C35 (macros).** In general, what is highlighted is exactly where the spans in the window are taken to: the window
test is made before `as_local`, so a statement from a macro counts exactly if the span of its *definition* lies in the
window. -/
theorem C35_macros (src hir : Nat → Range) (asLocal : Range → Range) (loanSpan : Range) (points : List Nat)
    (out : List Range) (hloc : ∀ r, r.NonEmpty → (asLocal r).NonEmpty) (hsrc : ∀ p ∈ points, (src p).NonEmpty)
    (hhir : ∀ p ∈ points, (hir p).Valid) (hloan : loanSpan.Valid) (h : loanRanges src hir asLocal loanSpan points = some out) :
    ∃ p0 ∈ points, ∃ pe ∈ points, Apart out ∧
      ∃ start, ((start = loanSpan ∧ (src p0).lo < loanSpan.lo) ∨ (start = src p0 ∧ loanSpan.lo ≤ (src p0).lo)) ∧
        ∀ x, CoversChar out x ↔ ∃ r : Range, (asLocal r).HasChar x ∧ r.Within start.lo (src pe).hi ∧
          (r = start ∨ r = src pe ∨ ∃ p ∈ points, r = hir p ∧ r.isEmpty = false ∧ r.isDummy = false) := by
  unfold loanRanges at h
  split at h
  · exact absurd h (by simp)
  · rename_i p0 pe hreg
    split at h
    · exact absurd h (by simp)
    · rename_i hne
      obtain ⟨hp0, hpe, -⟩ := (C35_region src points).2 p0 pe hreg
      refine ⟨p0, hp0, pe, hpe, ?_⟩
      simp only [Option.some.injEq] at h
      have hsel : ∀ s : Range, s = (if (src p0).lo < loanSpan.lo then loanSpan else src p0) →
          s.NonEmpty ∧ ((s = loanSpan ∧ (src p0).lo < loanSpan.lo) ∨ (s = src p0 ∧ loanSpan.lo ≤ (src p0).lo)) := by
        intro s hs
        have h0 := hsrc p0 hp0
        simp only [Range.isEmpty, beq_iff_eq] at hne
        unfold Range.Valid at hloan
        subst hs
        split
        · rename_i hlt
          refine ⟨?_, .inl ⟨rfl, hlt⟩⟩
          unfold Range.NonEmpty
          omega
        · exact ⟨h0, .inr ⟨rfl, by omega⟩⟩
      generalize (if (src p0).lo < loanSpan.lo then loanSpan else src p0) = s at h hsel
      unfold keyToSpans at h
      dsimp only at h
      obtain ⟨⟨h1, _, h3, _⟩, _⟩ := C34_spans_partial (((pointsToSpans hir points ++ [s, src pe]).filter
        (fun x => decide (s.lo ≤ x.lo) && decide (x.hi ≤ (src pe).hi))).map asLocal) (by
          intro r hr
          obtain ⟨q, hq, rfl⟩ := List.mem_map.1 hr
          refine hloc q ?_
          simp only [List.mem_filter, List.mem_append, List.mem_cons, List.not_mem_nil, or_false, Bool.and_eq_true,
            decide_eq_true_eq, pointsToSpans, List.mem_map, Bool.not_eq_true'] at hq
          rcases hq.1 with ⟨⟨p, hp, rfl⟩, h6, -⟩ | h4 | h4
          · have := hhir p hp
            simp only [Range.isEmpty, beq_eq_false_iff_ne] at h6
            unfold Range.Valid at this
            unfold Range.NonEmpty
            omega
          · rw [h4]; exact (hsel s rfl).1
          · rw [h4]; exact hsrc pe hpe)
      rw [h] at h1 h3
      refine ⟨h1, s, (hsel s rfl).2, fun x => ?_⟩
      rw [h3 x]
      constructor
      · rintro ⟨r, hr, hx⟩
        obtain ⟨q, hq, rfl⟩ := List.mem_map.1 hr
        simp only [List.mem_filter, List.mem_append, List.mem_cons, List.not_mem_nil, or_false, Bool.and_eq_true,
          decide_eq_true_eq, pointsToSpans, List.mem_map, Bool.not_eq_true'] at hq
        obtain ⟨h4, h5⟩ := hq
        refine ⟨q, hx, h5, ?_⟩
        rcases h4 with ⟨⟨p, hp, rfl⟩, h6⟩ | h4 | h4
        · exact .inr (.inr ⟨p, hp, rfl, h6⟩)
        · exact .inl h4
        · exact .inr (.inl h4)
      · rintro ⟨q, hx, hw, hq⟩
        refine ⟨asLocal q, List.mem_map.2 ⟨q, ?_, rfl⟩, hx⟩
        simp only [List.mem_filter, List.mem_append, List.mem_cons, List.not_mem_nil, or_false, Bool.and_eq_true,
          decide_eq_true_eq, pointsToSpans, List.mem_map, Bool.not_eq_true']
        refine ⟨?_, hw⟩
        rcases hq with h4 | h4 | ⟨p, hp, rfl, h6⟩
        · exact .inr (.inl h4)
        · exact .inr (.inr h4)
        · exact .inl ⟨⟨p, hp, rfl⟩, h6⟩

/-- **C35 is false for macros.** A borrow at 40–45 that is live in a statement from a macro, called at 50–58 and defined at
2–9, and last at 70–75: the call is not highlighted, although it lies between. -/
theorem C35_macro_lost : ∃ (src hir : Nat → Range) (asLocal : Range → Range),
    (∀ r, r.NonEmpty → (asLocal r).NonEmpty) ∧ src 1 = ⟨50, 58⟩ ∧ asLocal (hir 1) = ⟨50, 58⟩ ∧
    loanRanges src hir asLocal ⟨40, 45⟩ [0, 1, 2] = some [⟨40, 45⟩, ⟨70, 75⟩] := by
  refine ⟨fun p => if p = 0 then ⟨40, 45⟩ else if p = 1 then ⟨50, 58⟩ else ⟨70, 75⟩,
    fun p => if p = 0 then ⟨40, 45⟩ else if p = 1 then ⟨2, 9⟩ else ⟨70, 75⟩,
    fun r => if r = ⟨2, 9⟩ then ⟨50, 58⟩ else r, ?_, rfl, rfl, by decide⟩
  intro r hr
  dsimp only
  split
  · show 50 < 58
    omega
  · exact hr

/-- A borrow at 10–15, live at the following statements 16–20 and 30–35 and inside an enclosing node
2–40: the node is dropped, the two statements are kept apart. -/
example : loanRanges (fun p => if p = 0 then ⟨10, 15⟩ else if p = 1 then ⟨16, 20⟩ else ⟨30, 35⟩)
    (fun p => if p = 0 then ⟨2, 40⟩ else if p = 1 then ⟨16, 20⟩ else ⟨30, 35⟩) id ⟨10, 15⟩ [0, 1, 2] =
    some [⟨10, 15⟩, ⟨16, 20⟩, ⟨30, 35⟩] := by decide

/-! ## C36 -/

/-- The property is false for every body: a move gets a point iff its span is empty or synthetic — the
opposite of what is required. -/
theorem C36_inverted (moves : List (Nat × Range)) (m : Nat × Range) :
    m ∈ movePoints moves ↔ m ∈ moves ∧ (m.2.isEmpty = true ∨ m.2.isDummy = true) := by
  simp only [movePoints, isSpanVisible, List.mem_filter, Bool.or_eq_true]
  grind

/-- So a move with a visible span never gets a point, … -/
theorem C36_visible_lost (moves : List (Nat × Range)) (m : Nat × Range) (hv : m.2.isEmpty = false)
    (hd : m.2.isDummy = false) : m ∉ movePoints moves := by
  rw [C36_inverted]; simp [hv, hd]

/-- … nor a highlighted region, if all moves of the key have visible spans. -/
theorem C36_no_region (hir : Nat → Range) (operational : Nat → Bool) (moves : List (Nat × Range))
    (refined : List (Nat × List Nat)) (key : Nat)
    (hv : ∀ m ∈ moves, m.1 = key → m.2.isEmpty = false ∧ m.2.isDummy = false) :
    ∀ e ∈ moveRegions hir operational moves refined, e.1 ≠ key := by
  intro e he hk
  simp only [moveRegions, List.mem_filterMap] at he
  obtain ⟨⟨k, pts⟩, _, h⟩ := he
  dsimp only at h
  split at h
  · exact absurd h (by simp)
  · rename_i k' s hf
    simp only [Option.some.injEq] at h
    subst h
    dsimp only at hk
    subst hk
    have h1 := List.mem_of_find?_eq_some hf
    have h2 := List.find?_some hf
    simp only [beq_iff_eq] at h2
    rw [C36_inverted] at h1
    have := hv _ h1.1 h2
    rcases h1.2 with h3 | h3
    · rw [this.1] at h3; exact absurd h3 (by simp)
    · rw [this.2] at h3; exact absurd h3 (by simp)

/-- **C36 (regions).** What a region of a move shows, when there is one: sorted, disjoint ranges covering
exactly the source of the operational points where the move takes permissions away, of these the ones that
do not start before the move. -/
theorem C36_regions (hir : Nat → Range) (operational : Nat → Bool) (moves : List (Nat × Range))
    (refined : List (Nat × List Nat)) (hhir : ∀ p, (hir p).Valid) (e : Nat × List Range)
    (he : e ∈ moveRegions hir operational moves refined) :
    ∃ points s, (e.1, points) ∈ refined ∧ (e.1, s) ∈ moves ∧ Apart e.2 ∧
      ∀ x, CoversChar e.2 x ↔ ∃ p ∈ points, operational p = true ∧ (hir p).HasChar x ∧ s.lo ≤ (hir p).lo := by
  simp only [moveRegions, List.mem_filterMap] at he
  obtain ⟨⟨k, pts⟩, hmem, h⟩ := he
  dsimp only at h
  split at h
  · exact absurd h (by simp)
  · rename_i k' s hf
    simp only [Option.some.injEq] at h
    subst h
    have h1 := List.mem_of_find?_eq_some hf
    have h2 := List.find?_some hf
    simp only [beq_iff_eq] at h2
    subst h2
    refine ⟨pts, s, hmem, ((C36_inverted _ _).1 h1).1, ?_⟩
    dsimp only
    generalize hl : (pointsToSpans hir (pts.filter operational)).filter (fun x => decide (s.lo ≤ x.lo)) = l
    have hl' : ∀ r, r ∈ l ↔ (∃ p ∈ pts, operational p = true ∧ hir p = r ∧ r.NonEmpty) ∧ s.lo ≤ r.lo := by
      intro r
      rw [← hl]
      simp only [pointsToSpans, List.mem_filter, List.mem_map, Bool.and_eq_true, Bool.not_eq_true',
        decide_eq_true_eq]
      constructor
      · rintro ⟨⟨⟨p, ⟨h3, h4⟩, rfl⟩, h5, h6⟩, h7⟩
        refine ⟨⟨p, h3, h4, rfl, ?_⟩, h7⟩
        have := hhir p
        simp only [Range.isEmpty, beq_eq_false_iff_ne] at h5
        unfold Range.Valid at this
        unfold Range.NonEmpty
        omega
      · rintro ⟨⟨p, h3, h4, rfl, h5⟩, h7⟩
        refine ⟨⟨⟨p, ⟨h3, h4⟩, rfl⟩, ?_⟩, h7⟩
        unfold Range.NonEmpty at h5
        simp only [Range.isEmpty, Range.isDummy, Bool.and_eq_false_iff, beq_eq_false_iff_ne]
        omega
    obtain ⟨⟨h3, h4, h5, h6⟩, _⟩ := C34_spans_partial l (by
      intro r hr
      obtain ⟨⟨p, _, _, _, hn⟩, _⟩ := (hl' r).1 hr
      exact hn)
    refine ⟨h3, ?_⟩
    intro x
    rw [h5 x]
    constructor
    · rintro ⟨r, hr, hx⟩
      obtain ⟨⟨p, hp, ho, rfl, _⟩, hs⟩ := (hl' r).1 hr
      exact ⟨p, hp, ho, hx, hs⟩
    · rintro ⟨p, hp, ho, hx, hs⟩
      refine ⟨hir p, (hl' _).2 ⟨⟨p, hp, ho, rfl, ?_⟩, hs⟩, hx⟩
      unfold Range.HasChar at hx
      unfold Range.NonEmpty
      omega

example : moveRegions (fun p => if p = 0 then ⟨2, 4⟩ else ⟨6 * p, 6 * p + 3⟩) (fun p => p != 3) [(7, ⟨5, 5⟩)]
    [(7, [0, 1, 2, 3])] = [(7, [⟨6, 9⟩, ⟨12, 15⟩])] := by decide

/-- The half of the property that does hold vacuously is the converse for empty spans: all of them get a
point. -/
example : movePoints [(0, ⟨3, 8⟩), (1, ⟨4, 4⟩)] = [(1, ⟨4, 4⟩)] := by decide

end Verif.Ranges
